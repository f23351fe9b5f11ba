import Verif.Props.EndKeep
import Verif.Props.Rebuild
/-!
# C234: all packages of a build together
-/
namespace Cards.Props
open Cards Cards.Spec

/-- The packages with these file names are installed, one after the other, each where it was not, without `--force`, by scripts that do nothing. -/
inductive InstallsAll (pkgs : List (Str × Tar)) (machine root : Str) (pre : Str → Fs → Fs × Bool) (post : Str → Fs → Fs) (env : Env) (rules : List Rule) (opts : Opts) :
    List Str → Sys → Sys → Prop
  | nil (s : Sys) : InstallsAll pkgs machine root pre post env rules opts [] s s
  | cons (f : Str) (t : Tar) (a : Archive) (l : List Str) (s s' : Sys) : (f, t) ∈ pkgs → openTar machine root (pre f) (post f) t = .ok a →
      FreshInstall env rules opts a s → InstallsAll pkgs machine root pre post env rules opts l (pkgadd env rules opts a s).1 s' →
      InstallsAll pkgs machine root pre post env rules opts (f :: l) s s'

section
variable {port : Str → Option Str} {md file : Str → Str} {groups locales : List Str} {keepLa : Bool} {pkg : Fs} {pkgs : List (Str × Tar)}
  {machine root : Str} {pre : Str → Fs → Fs × Bool} {post : Str → Fs → Fs} {env : Env} {rules : List Rule} {opts : Opts}

/-- Another package of the build is installed: the file stays, and nobody else gets it. -/
theorem other_installed (hb : Built pkg) (hrun : buildPort port md file groups locales keepLa pkg = some pkgs) (hnames : ∀ e ∈ pkgs, ∃ n, NamedIn (md e.1) n)
    (hfull : ∀ e ∈ pkgs, ∃ m ∈ e.2, (m.1.head?.bind List.head?) ≠ some '.') {f : Str} {t : Tar} (hf : (f, t) ∈ pkgs) {k : List Str} {c : Str} {p : Nat}
    (hk : (k, Node.file c p) ∈ pkg) (hkt : (k, Node.file c p) ∈ t) (hv : visible k = true) (haway : AwayFromRejected k)
    {f' : Str} {t' : Tar} {a' : Archive} (hf' : (f', t') ∈ pkgs) (hne : f ≠ f') (ho : openTar machine root (pre f') (post f') t' = .ok a') {s : Sys}
    (hfr : FreshInstall env rules opts a' s) :
    (pkgadd env rules opts a' s).1.fs.get k = s.fs.get k ∧ ∀ n, Owns (pkgadd env rules opts a' s).1.disk n (pathText k) ↔ Owns s.disk n (pathText k) := by
  obtain ⟨n', hn'⟩ := hnames _ hf'
  obtain ⟨b, b1, _, b3⟩ := C233_files_stay_partial port md file groups locales keepLa pkg pkgs hb hrun f f' t t' hf hf' hne (hfull _ hf') n' hn' machine root (pre f') (post f')
  rw [ho] at b1
  cases b1
  refine ⟨(b3 env rules opts s noScripts hfr (fun _ => ⟨rfl, rfl⟩) k c p hk hkt hv haway).1, ?_⟩
  intro n
  by_cases hn : n = a'.name
  · subst hn
    constructor
    · intro h
      exfalso
      have hsh := (owned_iff hfr).mp h
      obtain ⟨d, d1, _, _, _, _, d6, _⟩ := built_open hb hrun hf' (hfull _ hf') hn' machine root (pre f') (post f')
      rw [ho] at d1
      cases d1
      obtain ⟨e, he, het, _, hme⟩ := d6 _ ⟨hsh.1, hsh.2.1⟩
      have hek : e.1 = k := by
        rw [← (memberName_facts (hb.names e he)).2.1, hme]
        exact (memberName_facts (m := (k, Node.file c p)) (hb.names _ hk)).2.1
      have he2 : e.2 = .file c p := built_same hb (k := k) (by rw [← hek]; exact he) hk
      exact C228_no_common_file port md file groups locales keepLa pkg pkgs hb hrun f f' t t' hf hf' hne k hv c c p p hkt (by rw [← hek, ← he2]; exact het)
    · intro h
      exfalso
      obtain ⟨i, hi, _⟩ := (owns_iff_mget hfr.wf).mp h
      rw [fresh_absent hfr] at hi
      cases hi
  · exact other_owns hfr hn

theorem others_installed (hb : Built pkg) (hrun : buildPort port md file groups locales keepLa pkg = some pkgs) (hnames : ∀ e ∈ pkgs, ∃ n, NamedIn (md e.1) n)
    (hfull : ∀ e ∈ pkgs, ∃ m ∈ e.2, (m.1.head?.bind List.head?) ≠ some '.') {f : Str} {t : Tar} (hf : (f, t) ∈ pkgs) {k : List Str} {c : Str} {p : Nat}
    (hk : (k, Node.file c p) ∈ pkg) (hkt : (k, Node.file c p) ∈ t) (hv : visible k = true) (haway : AwayFromRejected k)
    {l : List Str} {s s' : Sys} (h : InstallsAll pkgs machine root pre post env rules opts l s s') (hl : f ∉ l) :
    s'.fs.get k = s.fs.get k ∧ ∀ n, Owns s'.disk n (pathText k) ↔ Owns s.disk n (pathText k) := by
  induction h with
  | nil s => exact ⟨rfl, fun _ => Iff.rfl⟩
  | cons f' t' a' l s s' hf' ho hfr _ ih =>
    rw [List.mem_cons, not_or] at hl
    obtain ⟨i1, i2⟩ := ih hl.2
    obtain ⟨j1, j2⟩ := other_installed hb hrun hnames hfull hf hk hkt hv haway hf' hl.1 ho hfr
    exact ⟨i1.trans j1, fun n => (i2 n).trans (j2 n)⟩

end

/-- **C234**: the packages of a build are installed, in whatever order, each once. Then every file of the build that belongs to one of them is on the disk with the content
and the permissions the build gave it, and is recorded as that package's and no other's. -/
theorem C234_all_installed (port : Str → Option Str) (md file : Str → Str) (groups locales : List Str) (keepLa : Bool) (pkg : Fs) (pkgs : List (Str × Tar))
    (hb : Built pkg) (hrun : buildPort port md file groups locales keepLa pkg = some pkgs) (hnames : ∀ e ∈ pkgs, ∃ n, NamedIn (md e.1) n)
    (hfull : ∀ e ∈ pkgs, ∃ m ∈ e.2, (m.1.head?.bind List.head?) ≠ some '.') (hdiff : (pkgs.map (·.1)).Nodup)
    (machine root : Str) (pre : Str → Fs → Fs × Bool) (post : Str → Fs → Fs) (env : Env) (rules : List Rule) (opts : Opts) (l : List Str) (hl : l.Nodup)
    (s s' : Sys) (h : InstallsAll pkgs machine root pre post env rules opts l s s')
    (k : List Str) (c : Str) (p : Nat) (hk : (k, Node.file c p) ∈ pkg) (g : Str) (hdest : Dest groups locales keepLa k (some g)) (hg : file g ∈ l)
    (haway : AwayFromRejected k) (hex : ¬ Excluded env.rx rules (pathText k)) (hfails : env.extractFails k = false) (hdir : ∀ m, s.fs.get k ≠ some (.dir m)) :
    s'.fs.get k = some (.file c p) ∧ ∃ n, NamedIn (md (file g)) n ∧ ∀ n', Owns s'.disk n' (pathText k) ↔ n' = n := by
  -- the file is in the package file of its place
  obtain ⟨t, hft, hkt, hv⟩ : ∃ t, (file g, t) ∈ pkgs ∧ (k, Node.file c p) ∈ t ∧ visible k = true := by
    obtain ⟨archs, hs, h1, _⟩ := build_at hb hrun
    obtain ⟨b1, b2, b3⟩ := built_alone hb hk
    have hcount := C93_split_exact_partial groups locales keepLa (treeOf pkg) archs hs ⟨k, false⟩ b1 rfl b2 (some g) hdest g
    rw [if_pos rfl] at hcount
    have hin : (⟨k, false⟩ : PEnt) ∈ (mget archs g).getD [] := List.count_pos_iff.mp (by rw [hcount]; exact Nat.one_pos)
    obtain ⟨es, hes⟩ : ∃ es, mget archs g = some es := by
      cases hm : mget archs g with
      | none => rw [hm] at hin; cases hin
      | some es => exact ⟨es, rfl⟩
    rw [hes] at hin
    have ha := (mget_iff_mem (split_shown hs).1).mp hes
    obtain ⟨t', ht', hfin⟩ := h1 g es ha
    have hv : visible k = true := (split_shown hs).2 g es ha _ hin
    refine ⟨t', ht', (hfin.files k _ hv).mpr (Or.inl (List.mem_map.mpr ⟨_, hin, ?_⟩)), hv⟩
    simp only
    rw [(get_iff_mem hb.once _ _).mpr hk]; rfl
  induction h with
  | nil s => cases hg
  | cons f' t' a' l s s' hf' ho hfr hrest ih =>
    obtain ⟨hnl, hl'⟩ := List.nodup_cons.mp hl
    by_cases hff : file g = f'
    · subst hff
      have htt : t' = t := by
        have h1 := List.inj_on_of_nodup_map hdiff hf' hft rfl
        exact (Prod.mk.inj h1).2
      subst htt
      obtain ⟨n, hn⟩ := hnames _ hft
      obtain ⟨t2, b, b0, b1, b2, b3⟩ := C227_file_installed port md file groups locales keepLa pkg pkgs hb hrun k c p hk g hdest n hn machine root (pre (file g)) (post (file g))
      have htt : t2 = t' := by
        have h1 := List.inj_on_of_nodup_map hdiff b0 hft rfl
        exact (Prod.mk.inj h1).2
      subst htt
      rw [ho] at b1
      cases b1
      obtain ⟨d, d1, _, d3, d4, _⟩ := built_open hb hrun hft (hfull _ hft) hn machine root (pre (file g)) (post (file g))
      rw [ho] at d1
      cases d1
      obtain ⟨o1, o2⟩ := b3 env rules opts s hfr.wf hfr.ok hex
      have hdisk := o2 hfails hdir haway (fun fs => by simp only; rw [← d3, (hfr.quiet fs).1]) (fun fs => by rw [← d4, (hfr.quiet fs).2])
        (fun hp => by rw [hfr.noUpgrade] at hp; cases hp.1)
      obtain ⟨r1, r2⟩ := others_installed hb hrun hnames hfull hft hk hkt hv haway hrest hnl
      refine ⟨r1.trans hdisk, n, hn, ?_⟩
      intro n'
      rw [r2]
      constructor
      · intro h
        by_contra hne
        rw [← b2] at hne o1
        have hn2 := (other_owns hfr hne).mp h
        have hsh := (owned_iff hfr).mp o1
        have hnd : ¬ IsDirName (pathText k) := by
          intro hd
          obtain ⟨q, hq⟩ := (memberName_facts (m := (k, Node.file c p)) (hb.names _ hk)).2.2.1.mp hd
          cases hq
        refine fresh_free hfr hsh ⟨hnd, Or.inl ⟨n', hne, hn2⟩, ?_⟩
        intro hown
        obtain ⟨i, hi, _⟩ := (owns_iff_mget hfr.wf).mp hown
        rw [fresh_absent hfr] at hi
        cases hi
      · rintro rfl; exact o1
    · have hg' : file g ∈ l := by
        rcases List.mem_cons.mp hg with h | h
        · exact absurd h hff
        · exact h
      obtain ⟨j1, _⟩ := other_installed hb hrun hnames hfull hft hk hkt hv haway hf' hff ho hfr
      exact ih hl' hg' (fun m => by rw [j1]; exact hdir m)

/-- **C234**, the other way: every file on the disk then was there before, or is a file of the build with the content and permissions it has there. -/
theorem C234_nothing_else (port : Str → Option Str) (md file : Str → Str) (groups locales : List Str) (keepLa : Bool) (pkg : Fs) (pkgs : List (Str × Tar))
    (hb : Built pkg) (hrun : buildPort port md file groups locales keepLa pkg = some pkgs) (hnames : ∀ e ∈ pkgs, ∃ n, NamedIn (md e.1) n)
    (hfull : ∀ e ∈ pkgs, ∃ m ∈ e.2, (m.1.head?.bind List.head?) ≠ some '.')
    (machine root : Str) (pre : Str → Fs → Fs × Bool) (post : Str → Fs → Fs) (env : Env) (rules : List Rule) (opts : Opts) (l : List Str)
    (s s' : Sys) (h : InstallsAll pkgs machine root pre post env rules opts l s s') (k : List Str) (c : Str) (p : Nat) (hk : s'.fs.get k = some (.file c p)) :
    s.fs.get k = some (.file c p) ∨ (k, Node.file c p) ∈ pkg := by
  induction h with
  | nil s => exact Or.inl hk
  | cons f t a l s s' hf ho hfr _ ih =>
    rcases ih hk with h | h
    · rw [fresh_fs hfr] at h
      obtain ⟨n, hn⟩ := hnames _ hf
      obtain ⟨d, d1, _, _, _, _, _, d7⟩ := built_open hb hrun hf (hfull _ hf) hn machine root (pre f) (post f)
      rw [ho] at d1
      cases d1
      rcases extracted_src env _ a.entries s.fs k _ h with h | ⟨e, he, _, hck, hnode⟩ | ⟨e, he, _, _, hnode⟩
      · exact Or.inl h
      · right
        obtain ⟨m, _, hcase⟩ := d7 e he
        rcases hcase with ⟨hm, _, _, rfl⟩ | ⟨_, _, ⟨x, hd⟩, rfl⟩
        · simp only at hck hnode
          rw [(memberName_facts (hb.names m hm)).2.1] at hck
          rw [← hck, hnode]
          exact hm
        · simp only at hnode
          rw [hd] at hnode; cases hnode
      · cases hnode
    · exact Or.inr h

/-! ### A case -/

theorem opened_of_find {L : List (Str × Tar)} {name : Str} {a : Archive} (h : (L.find? (fun e => decide (e.1 = name))).bind (fun e => xOpened e.2) = some a) :
    ∃ t, (name, t) ∈ L ∧ openTar "x86_64".toList "/mnt".toList (fun fs => (fs, true)) id t = .ok a := by
  obtain ⟨e, he, hp⟩ := Option.bind_eq_some_iff.mp h
  have hname : e.1 = name := by have := List.find?_some he; exact of_decide_eq_true this
  have hmem := List.mem_of_find?_eq_some he
  obtain ⟨f, t⟩ := e
  simp only at hname hp
  subst hname
  refine ⟨t, hmem, ?_⟩
  unfold xOpened at hp
  split at hp
  · next b hb => cases hp; exact hb
  · cases hp

/-- The main package of the port can be installed as the theorems ask. -/
example : ∃ t, ("tool.cards-1-1".toList, t) ∈ (buildPort (fun _ => none) xBuiltMeta xBuiltFile ["devel".toList] [] false xBuiltFs).getD [] ∧
    ∃ s', InstallsAll ((buildPort (fun _ => none) xBuiltMeta xBuiltFile ["devel".toList] [] false xBuiltFs).getD []) "x86_64".toList "/mnt".toList
      (fun _ fs => (fs, true)) (fun _ => id) xEnv [] xOpts ["tool.cards-1-1".toList] xNothing s' := by
  have h : (xPack "tool.cards-1-1").isSome := by decide +kernel
  obtain ⟨a, ha⟩ := Option.isSome_iff_exists.mp h
  have hfr := xPack_fresh a ha
  obtain ⟨t, hmem, hb⟩ := opened_of_find ha
  exact ⟨t, hmem, _, InstallsAll.cons _ t a [] _ _ hmem hb hfr (InstallsAll.nil _)⟩

/-- Both packages of the port `tool`, one after the other, are installed where nothing is: did it work, is the disk what was built, what is recorded? -/
def xAll (a a' : Archive) : Bool × Bool × Bool × List (Str × List Str) :=
  let s := pkgadd xEnv [] xOpts a xNothing
  let r := pkgadd xEnv [] xOpts a' s.1
  (s.2.isNone, r.2.isNone, xBuiltFs.all (fun e => r.1.fs.get e.1 = some e.2) && r.1.fs.length = xBuiltFs.length, r.1.disk.map (fun e => (e.1, e.2.files)))

set_option synthInstance.maxSize 2000 in
/-- What is there is what was built, in either order. -/
example : (xPack "tool.cards-1-1").bind (fun a => (xPack "tool.devel.cards-1-1").map (xAll a)) = some (true, true, true,
      [("tool".toList, ["usr/".toList, "usr/bin/".toList, "usr/bin/tool".toList]), ("tool.devel".toList, ["usr/include/".toList, "usr/include/tool.h".toList])]) ∧
    (xPack "tool.devel.cards-1-1").bind (fun a => (xPack "tool.cards-1-1").map (xAll a)) = (xPack "tool.cards-1-1").bind (fun a => (xPack "tool.devel.cards-1-1").map (xAll a)) := by
  decide +kernel

end Cards.Props
