import Verif.Model.PkgmkBegin
import Mathlib.Tactic.Common
/-!
# `pkgmk`: which ports are built at all, and the build types
-/
namespace Cards.Props

/-! ## C191: before anything is fetched or written -/

/-- All rights. -/
def DirRights.Usable (d : DirRights) : Prop := d.there = true ∧ d.writable = true ∧ d.searchable = true ∧ d.readable = true

theorem checkDirectory_none {d : DirRights} : checkDirectory d = none ↔ DirRights.Usable d := by
  rcases d with ⟨_ | _, _ | _, _ | _, _ | _⟩ <;> simp [checkDirectory, DirRights.Usable]

theorem checkDirectory_some {d : DirRights} {c : Nat} (h : checkDirectory d = some c) : c = 3 := by
  unfold checkDirectory at h
  split_ifs at h <;> simp_all

/-- A port is worked on exactly when its Pkgfile is there and correct, it names no other package than its directory, only the version is not asked for, all three directories can be used, and the
compression is one of the four. -/
theorem C191_go_iff (b : MkBegin) (n : Str) : pkgmkBegin b = .go n ↔
    n = b.dir ∧ b.pkgfile = true ∧ ((∀ c ∈ b.vars.name, c = ' ' ∨ c = '\n' ∨ c = '\t') ∨ b.vars.name = b.dir) ∧ b.vars.version ≠ [] ∧ b.showVersion = false ∧
      DirRights.Usable b.sources ∧ DirRights.Usable b.packages ∧ DirRights.Usable b.work ∧ checkPkgfile { b.vars with name := b.dir } = true ∧
        (b.mode = "gz".toList ∨ b.mode = "bz2".toList ∨ b.mode = "xz".toList ∨ b.mode = "zst".toList) := by
  have hn : mkNameOf b.dir b.vars.name = b.dir ↔ ((∀ c ∈ b.vars.name, c = ' ' ∨ c = '\n' ∨ c = '\t') ∨ b.vars.name = b.dir) := by
    unfold mkNameOf
    split
    · rename_i h
      simp only [List.all_eq_true, Bool.or_eq_true, decide_eq_true_eq, or_assoc] at h
      exact ⟨fun _ => .inl h, fun _ => rfl⟩
    · rename_i h
      simp only [List.all_eq_true, Bool.or_eq_true, decide_eq_true_eq, or_assoc] at h
      exact ⟨.inr, fun hh => hh.resolve_left h⟩
  have hm : b.mode ∈ mkModes ↔ (b.mode = "gz".toList ∨ b.mode = "bz2".toList ∨ b.mode = "xz".toList ∨ b.mode = "zst".toList) := by
    unfold mkModes
    simp only [List.mem_cons, List.not_mem_nil, or_false]
  rw [← hn, ← hm, ← checkDirectory_none, ← checkDirectory_none, ← checkDirectory_none]
  unfold pkgmkBegin
  by_cases h1 : b.pkgfile = true
  swap
  · simp [h1]
  by_cases h2 : mkNameOf b.dir b.vars.name = b.dir
  swap
  · simp [h1, h2]
  by_cases h3 : b.vars.version = []
  · simp [h1, h2, h3]
  by_cases h4 : b.showVersion = true
  · simp [h1, h2, h3, h4]
  simp only [h1, h2, h3, h4, Bool.not_true, Bool.false_eq_true, if_false, ne_eq, not_true_eq_false, not_false_eq_true, true_and]
  cases h5 : checkDirectory b.sources with
  | some c => simp
  | none =>
    cases h6 : checkDirectory b.packages with
    | some c => simp
    | none =>
      cases h7 : checkDirectory b.work with
      | some c => simp
      | none =>
        by_cases h8 : checkPkgfile { b.vars with name := b.dir } = true
        · by_cases h9 : b.mode ∈ mkModes
          · simp [h8, h9, eq_comm]
          · simp [h8, h9]
        · simp [h8]

/-- A port that is not worked on ends with an error, unless only its version was asked for; then that is printed, of a port with a correct name. -/
theorem C191_stop (b : MkBegin) (code : Nat) (out : Option Str) (h : pkgmkBegin b = .stop code out) :
    (code ≠ 0 ∧ out = none) ∨ (code = 0 ∧ out = some b.vars.version ∧ b.showVersion = true ∧ b.pkgfile = true ∧ b.vars.version ≠ []) := by
  unfold pkgmkBegin at h
  split at h
  · cases h; exact .inl ⟨by decide, rfl⟩
  rename_i h1
  split at h
  · cases h; exact .inl ⟨by decide, rfl⟩
  split at h
  · cases h; exact .inl ⟨by decide, rfl⟩
  rename_i h3
  split at h
  · rename_i h4
    cases h; exact .inr ⟨rfl, rfl, h4, by simpa using h1, h3⟩
  split at h
  · rename_i c hc
    cases h; exact .inl ⟨by rw [checkDirectory_some hc]; decide, rfl⟩
  split at h
  · rename_i c hc
    cases h; exact .inl ⟨by rw [checkDirectory_some hc]; decide, rfl⟩
  split at h
  · rename_i c hc
    cases h; exact .inl ⟨by rw [checkDirectory_some hc]; decide, rfl⟩
  split at h
  · cases h; exact .inl ⟨by decide, rfl⟩
  split at h
  · cases h; exact .inl ⟨by decide, rfl⟩
  · cases h

def c191Ok : DirRights := ⟨true, true, true, true⟩
def c191 : MkBegin :=
  ⟨"nano".toList, true, ⟨[], "7.2".toList, "1".toList, "an editor".toList⟩, false, c191Ok, c191Ok, c191Ok, "zst".toList⟩

example : pkgmkBegin c191 = .go "nano".toList ∧ pkgmkBegin { c191 with mode := "lz".toList } = .stop 1 none ∧
    pkgmkBegin { c191 with packages := ⟨true, false, true, true⟩ } = .stop 3 none ∧ pkgmkBegin { c191 with showVersion := true } = .stop 0 (some "7.2".toList) := by decide +kernel

/-! ## C192: the build types -/

/-- The build types of the manual. -/
def buildTypes : List Str :=
  ["meson", "autogen", "autoreconf", "autotools", "pip3", "python3", "xorg", "kde5", "kde6", "cmake"].map (·.toList)

/-- A command that installs what was built. -/
def Installs (c : ShCmd) : Prop := "install".toList ∈ c ∨ "--install".toList ∈ c

/-- A command that is told to install below a directory. -/
def Below (pkg : Str) (c : ShCmd) : Prop := "DESTDIR=".toList ++ pkg ∈ c ∨ "--root=".toList ++ pkg ∈ c

/-- A build type is accepted exactly when it is one of those, or none is given. -/
theorem C192_known (build : Str) (v : RecipeVars) : (recipe build v).isSome = true ↔ build = [] ∨ build ∈ buildTypes := by
  have hb : build ∈ buildTypes ↔ build = "meson".toList ∨ build = "autogen".toList ∨ build = "autoreconf".toList ∨ build = "autotools".toList ∨ build = "pip3".toList ∨ build = "python3".toList ∨
      build = "xorg".toList ∨ build = "kde5".toList ∨ build = "kde6".toList ∨ build = "cmake".toList := by
    unfold buildTypes
    simp only [List.map_cons, List.map_nil, List.mem_cons, List.not_mem_nil, or_false]
  rw [hb]
  unfold recipe
  simp only []
  generalize "meson".toList = x1
  generalize "autogen".toList = x2
  generalize "autoreconf".toList = x3
  generalize "autotools".toList = x4
  generalize "pip3".toList = x5
  generalize "python3".toList = x6
  generalize "xorg".toList = x7
  generalize "kde5".toList = x8
  generalize "cmake".toList = x9
  generalize "kde6".toList = x10
  clear hb
  split_ifs <;> simp_all <;> tauto

theorem runCmds_spec (ok : List ShCmd → ShCmd → Bool) : ∀ (cs done : List ShCmd),
    (∃ r, r <+: cs ∧ (runCmds ok done cs).1 = done ++ r ∧ ((runCmds ok done cs).2 = true ↔ (r = cs ∧ ∀ k (hk : k < r.length), ok (done ++ r.take k) r[k] = true)) ∧
      ∀ k (hk : k < r.length), k + 1 < r.length → ok (done ++ r.take k) r[k] = true) := by
  intro cs
  induction cs with
  | nil => exact fun done => ⟨[], List.prefix_refl _, by simp [runCmds], by simp [runCmds], by simp⟩
  | cons c cs ih =>
    intro done
    by_cases h : ok done c = true
    · obtain ⟨r, hp, h1, h2, h3⟩ := ih (done ++ [c])
      have e : runCmds ok done (c :: cs) = runCmds ok (done ++ [c]) cs := by rw [runCmds, if_pos h]
      refine ⟨c :: r, (List.prefix_cons_inj c).mpr hp, ?_, ?_, ?_⟩
      · rw [e, h1]; simp
      · rw [e, h2]
        constructor
        · rintro ⟨rfl, hk⟩
          refine ⟨rfl, ?_⟩
          intro k hk'
          cases k with
          | zero => simpa using h
          | succ k => simpa using hk k (by simpa using hk')
        · rintro ⟨he, hk⟩
          refine ⟨(List.cons.inj he).2, ?_⟩
          intro k hk'
          have := hk (k + 1) (by simpa using hk')
          simp only [List.take_succ_cons, List.getElem_cons_succ] at this
          simpa using this
      · intro k hk hk1
        cases k with
        | zero => simpa using h
        | succ k => simpa using h3 k (by simpa using hk) (by simpa using hk1)
    · refine ⟨[c], ⟨cs, rfl⟩, ?_, ?_, ?_⟩
      · simp [runCmds, h]
      · rw [runCmds, if_neg h]
        constructor
        · intro hf; simp at hf
        · rintro ⟨-, hk⟩
          exact absurd (by simpa using hk 0 (by simp)) h
      · intro k hk hk1
        simp at hk1

/-- A port with a build type is taken for built only when its type is known and all its commands were run, in their order, and each succeeded; after a command that fails nothing is run. -/
theorem C192_all_run (ok : List ShCmd → ShCmd → Bool) (build : Str) (v : RecipeVars) :
    ((runBuild ok build v).2 = true → recipe build v = some (runBuild ok build v).1 ∧
      ∀ k (hk : k < (runBuild ok build v).1.length), ok ((runBuild ok build v).1.take k) (runBuild ok build v).1[k] = true) ∧
    (∀ cs, recipe build v = some cs → (runBuild ok build v).1 <+: cs) ∧
    (∀ k (hk : k < (runBuild ok build v).1.length), k + 1 < (runBuild ok build v).1.length → ok ((runBuild ok build v).1.take k) (runBuild ok build v).1[k] = true) := by
  unfold runBuild
  cases hr : recipe build v with
  | none => exact ⟨fun h => by simp at h, fun cs h => by simp at h, fun k hk => by simp at hk⟩
  | some cs =>
    simp only []
    obtain ⟨r, hp, h1, h2, h3⟩ := runCmds_spec ok cs []
    rw [List.nil_append] at h1
    simp only [h1]
    refine ⟨fun h => ?_, fun ds hd => ?_, fun k hk hk1 => ?_⟩
    · obtain ⟨he, hk⟩ := h2.mp h
      exact ⟨by rw [he], fun k hk' => by simpa using hk k hk'⟩
    · cases hd; exact hp
    · simpa using h3 k hk hk1

/-- When all commands succeed, the port is built. -/
theorem C192_succeeds (ok : List ShCmd → ShCmd → Bool) (build : Str) (v : RecipeVars) (h : build = [] ∨ build ∈ buildTypes) (hok : ∀ d c, ok d c = true) :
    (runBuild ok build v).2 = true := by
  obtain ⟨cs, hcs⟩ := Option.isSome_iff_exists.mp ((C192_known build v).mpr h)
  unfold runBuild
  rw [hcs]
  have : ∀ cs done, (runCmds ok done cs).2 = true := by
    intro cs
    induction cs with
    | nil => exact fun _ => rfl
    | cons c cs ih => intro done; rw [runCmds, if_pos (hok _ _)]; exact ih _
  exact this cs []

/-- A text that is not itself one of the words that install. -/
def NoVerb (w : Str) : Prop := "install".toList ≠ w ∧ "--install".toList ≠ w

/-- The texts of the port are not themselves one of those words. -/
def PlainVars (v : RecipeVars) : Prop :=
  NoVerb (v.name ++ '-' :: v.version) ∧ NoVerb (v.name2 ++ '-' :: v.version) ∧ NoVerb v.name2 ∧ NoVerb v.pkg ∧ ∀ w ∈ v.meson, NoVerb w

theorem noInstall_of {c : ShCmd} (h : ∀ w ∈ c, NoVerb w) : ¬ Installs c := by
  rintro (hc | hc)
  · exact (h _ hc).1 rfl
  · exact (h _ hc).2 rfl

theorem noVerb_lit (s : String) (h1 : "install" ≠ s) (h2 : "--install" ≠ s) : NoVerb s.toList :=
  ⟨fun h => h1 (String.toList_inj.mp h), fun h => h2 (String.toList_inj.mp h)⟩

theorem noVerb_cmd (ws : List String) (h1 : "install" ∉ ws) (h2 : "--install" ∉ ws) : ∀ w ∈ cmd ws, NoVerb w := by
  intro w hw
  obtain ⟨s, hs, rfl⟩ := List.mem_map.mp hw
  exact noVerb_lit s (fun h => h1 (h ▸ hs)) (fun h => h2 (h ▸ hs))

theorem noVerb_append {a b : ShCmd} (ha : ∀ w ∈ a, NoVerb w) (hb : ∀ w ∈ b, NoVerb w) : ∀ w ∈ a ++ b, NoVerb w :=
  fun w hw => (List.mem_append.mp hw).elim (ha w) (hb w)

theorem noVerb_one {x : Str} (h : NoVerb x) : ∀ w ∈ [x], NoVerb w := fun w hw => by rw [List.mem_singleton.mp hw]; exact h

theorem noVerb_two {x y : Str} (h : NoVerb x) (h' : NoVerb y) : ∀ w ∈ [x, y], NoVerb w :=
  noVerb_append (a := [x]) (noVerb_one h) (noVerb_one h')

theorem makeInstall_below (v : RecipeVars) : ∀ c ∈ makeInstall v, Installs c → Below v.pkg c := by
  intro c hc hi
  unfold makeInstall at hc
  rcases List.mem_cons.mp hc with rfl | hc
  · exact absurd hi (noInstall_of (noVerb_cmd _ (by decide) (by decide)))
  · rw [List.mem_singleton.mp hc]
    exact .inl (List.mem_cons_of_mem _ List.mem_cons_self)

theorem below_cons {v : RecipeVars} {c : ShCmd} {cs : List ShCmd} (h : ∀ w ∈ c, NoVerb w) (hs : ∀ d ∈ cs, Installs d → Below v.pkg d) :
    ∀ d ∈ c :: cs, Installs d → Below v.pkg d := by
  intro d hd hi
  rcases List.mem_cons.mp hd with rfl | hd
  · exact absurd hi (noInstall_of h)
  · exact hs d hd hi

theorem noVerb_configure : ∀ w ∈ configureStatic, NoVerb w := noVerb_cmd _ (by decide) (by decide)

theorem cmake_below {v : RecipeVars} (hp : PlainVars v) : ∀ c ∈ cmakeAll v, Installs c → Below v.pkg c := by
  unfold cmakeAll
  refine below_cons (noVerb_append (noVerb_append (noVerb_cmd _ (by decide) (by decide)) (noVerb_one hp.1)) (noVerb_cmd _ (by decide) (by decide)))
    (below_cons (noVerb_cmd _ (by decide) (by decide)) ?_)
  intro d hd _
  rw [List.mem_singleton.mp hd]
  exact .inl List.mem_cons_self

/-- Whatever the build type, what installs is told to install below `$PKG`. -/
theorem C192_below {build : Str} {v : RecipeVars} {cs : List ShCmd} (hp : PlainVars v) (h : recipe build v = some cs) : ∀ c ∈ cs, Installs c → Below v.pkg c := by
  have hcd : NoVerb "cd".toList := noVerb_lit _ (by decide) (by decide)
  unfold recipe at h
  simp only [] at h
  split at h
  · split at h
    · cases h
      exact below_cons (noVerb_append (noVerb_cmd _ (by decide) (by decide)) (noVerb_one hp.2.2.2.1)) (by simp)
    · cases h
      exact below_cons (noVerb_two hcd hp.1) (below_cons (noVerb_cmd _ (by decide) (by decide)) (makeInstall_below v))
  split at h
  · cases h
    refine below_cons (noVerb_append (noVerb_append (noVerb_cmd _ (by decide) (by decide)) (noVerb_two hp.1 (noVerb_lit _ (by decide) (by decide)))) hp.2.2.2.2)
      (below_cons (noVerb_cmd _ (by decide) (by decide)) ?_)
    intro d hd _
    rw [List.mem_singleton.mp hd]
    exact .inl List.mem_cons_self
  split at h
  · cases h
    exact below_cons (noVerb_two hcd hp.1) (below_cons (noVerb_cmd _ (by decide) (by decide)) (below_cons noVerb_configure (makeInstall_below v)))
  split at h
  · cases h
    exact below_cons (noVerb_two hcd hp.1) (below_cons (noVerb_cmd _ (by decide) (by decide)) (below_cons noVerb_configure (makeInstall_below v)))
  split at h
  · cases h
    exact below_cons (noVerb_two hcd hp.1) (below_cons noVerb_configure (makeInstall_below v))
  split at h
  · cases h
    refine below_cons (noVerb_two hcd hp.2.1) (below_cons (noVerb_cmd _ (by decide) (by decide)) ?_)
    intro d hd hi
    rcases List.mem_cons.mp hd with rfl | hd
    · exact .inr (List.mem_append_right _ List.mem_cons_self)
    · rw [List.mem_singleton.mp hd] at hi
      exact absurd hi (noInstall_of (noVerb_append (noVerb_append (noVerb_cmd _ (by decide) (by decide)) (noVerb_one hp.2.2.2.1)) (noVerb_cmd _ (by decide) (by decide))))
  split at h
  · cases h
    exact below_cons (noVerb_two hcd hp.2.1) (below_cons (noVerb_cmd _ (by decide) (by decide)) (makeInstall_below v))
  split at h
  · cases h; exact cmake_below hp
  split at h
  · cases h; exact cmake_below hp
  · cases h

/-- Every build type has a command that installs, the archive of Debian apart. -/
theorem C192_installs {build : Str} {v : RecipeVars} {cs : List ShCmd} (h : recipe build v = some cs) (hd : build = [] → v.deb = false) : ∃ c ∈ cs, Installs c ∧ Below v.pkg c := by
  have hm : ∃ c ∈ makeInstall v, Installs c ∧ Below v.pkg c :=
    ⟨_, List.mem_cons_of_mem _ List.mem_cons_self, .inl (List.mem_cons_of_mem _ (List.mem_cons_of_mem _ List.mem_cons_self)), .inl (List.mem_cons_of_mem _ List.mem_cons_self)⟩
  have up : ∀ {c : ShCmd} {ds : List ShCmd}, (∃ d ∈ ds, Installs d ∧ Below v.pkg d) → ∃ d ∈ c :: ds, Installs d ∧ Below v.pkg d :=
    fun ⟨d, hd, hx⟩ => ⟨d, List.mem_cons_of_mem _ hd, hx⟩
  have one : ∀ {c : ShCmd} {ds : List ShCmd}, Installs c → Below v.pkg c → ∃ d ∈ c :: ds, Installs d ∧ Below v.pkg d :=
    fun hi hb => ⟨_, List.mem_cons_self, hi, hb⟩
  have hc : ∃ c ∈ cmakeAll v, Installs c ∧ Below v.pkg c := by
    unfold cmakeAll
    exact up (up (one (.inr (List.mem_cons_of_mem _ (List.mem_map.mpr ⟨"--install", by decide, rfl⟩))) (.inl List.mem_cons_self)))
  unfold recipe at h
  simp only [] at h
  split at h
  · rename_i hb
    rw [hd hb] at h
    cases h; exact up (up hm)
  split at h
  · cases h
    exact up (up (one (.inl (List.mem_cons_of_mem _ (List.mem_map.mpr ⟨"install", by decide, rfl⟩))) (.inl List.mem_cons_self)))
  split at h
  · cases h; exact up (up (up hm))
  split at h
  · cases h; exact up (up (up hm))
  split at h
  · cases h; exact up (up hm)
  split at h
  · cases h
    exact up (up (one (.inl (List.mem_append_left _ (List.mem_map.mpr ⟨"install", by decide, rfl⟩))) (.inr (List.mem_append_right _ List.mem_cons_self))))
  split at h
  · cases h; exact up (up hm)
  split at h
  · cases h; exact hc
  split at h
  · cases h; exact hc
  · cases h

def c192 : RecipeVars := ⟨"nano".toList, "Nano".toList, "7.2".toList, "/tmp/pkg".toList, false, ["-Da=b".toList]⟩

example : PlainVars c192 := by
  refine ⟨⟨by decide, by decide⟩, ⟨by decide, by decide⟩, ⟨by decide, by decide⟩, ⟨by decide, by decide⟩, ?_⟩
  intro w hw
  rw [List.mem_singleton.mp hw]
  exact ⟨by decide, by decide⟩

example : runBuild (fun _ c => c ≠ ["make".toList]) "autotools".toList c192 = ([["cd".toList, "nano-7.2".toList], cmd ["./configure", "--prefix=/usr", "--disable-static"], ["make".toList]], false) := by
  decide +kernel

end Cards.Props
