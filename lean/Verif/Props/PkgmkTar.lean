import Mathlib.Tactic.Common
import Mathlib.Data.List.Induction
import Verif.Lemmas.Fs
import Verif.Model.PkgmkTar
/-!
# C158, C159: the scripts and the description in the archives
-/
namespace Cards.Props
open Cards

/-! ### Trees as maps -/

/-- No path twice. -/
def Fs.Once (fs : Fs) : Prop := (fs.map (·.1)).Nodup

theorem once_del {fs : Fs} (h : Fs.Once fs) (k : List Str) : Fs.Once (fs.del k) := by
  unfold Fs.Once Fs.del at *
  exact h.sublist (List.Sublist.map _ List.filter_sublist)

theorem once_set {fs : Fs} (h : Fs.Once fs) (k : List Str) (n : Node) : Fs.Once (fs.set k n) := by
  have := once_del h k
  unfold Fs.Once Fs.set at *
  rw [List.map_cons, List.nodup_cons]
  refine ⟨?_, this⟩
  intro hm
  obtain ⟨e, he, hk⟩ := List.mem_map.mp hm
  unfold Fs.del at he
  have := (List.mem_filter.mp he).2
  simp [hk] at this

theorem once_mkParents {fs : Fs} (h : Fs.Once fs) (k : List Str) : Fs.Once (fs.mkParents k) := by
  unfold Fs.mkParents
  generalize parents k = ds
  induction ds generalizing fs with
  | nil => exact h
  | cons d ds ih =>
    rw [List.foldl_cons]
    apply ih
    split
    · exact h
    · exact once_set h _ _

theorem once_untar {fs : Fs} (h : Fs.Once fs) (t : Tar) : Fs.Once (untar fs t) := by
  unfold untar
  induction t generalizing fs with
  | nil => exact h
  | cons m t ih => rw [List.foldl_cons]; exact ih (once_set (once_mkParents h _) _ _)

theorem get_iff_mem {fs : Fs} (h : Fs.Once fs) (k : List Str) (n : Node) : fs.get k = some n ↔ (k, n) ∈ fs := by
  induction fs with
  | nil => simp
  | cons e fs ih =>
    obtain ⟨k', n'⟩ := e
    unfold Fs.Once at h ih
    rw [List.map_cons, List.nodup_cons] at h
    unfold Fs.get
    split
    · next e =>
      subst e
      constructor
      · intro e; cases e; exact List.mem_cons_self ..
      · intro hm
        rcases List.mem_cons.mp hm with e | hm
        · cases e; rfl
        · exact absurd (List.mem_map.mpr ⟨_, hm, rfl⟩) h.1
    · next hne =>
      rw [ih h.2, List.mem_cons]
      constructor
      · exact .inr
      · rintro (e | hm)
        · cases e; exact absurd rfl hne
        · exact hm

/-- A directory stays, anything else becomes one. -/
def asDir : Option Node → Option Node
  | some (.dir p) => some (.dir p)
  | _ => some (.dir 0o755)

theorem mkParents_get (fs : Fs) (k x : List Str) : (fs.mkParents k).get x = if x ∈ parents k then asDir (fs.get x) else fs.get x := by
  unfold Fs.mkParents
  generalize parents k = ds
  induction ds generalizing fs with
  | nil => simp
  | cons d ds ih =>
    rw [List.foldl_cons, ih]
    have hstep : ∀ y, Fs.get (match fs.get d with | some (.dir _) => fs | _ => fs.set d (.dir 0o755)) y = if d = y then asDir (fs.get y) else fs.get y := by
      intro y
      cases hg : fs.get d with
      | none =>
        simp only []
        rw [Fs.get_set]
        by_cases e : d = y
        · subst e; simp [hg, asDir]
        · simp [e]
      | some n =>
        cases n with
        | dir p =>
          simp only []
          by_cases e : d = y
          · subst e; simp [hg, asDir]
          · simp [e]
        | file c m =>
          simp only []
          rw [Fs.get_set]
          by_cases e : d = y
          · subst e; simp [hg, asDir]
          · simp [e]
    have hidem : ∀ o, asDir (asDir o) = asDir o := by
      intro o
      cases o with
      | none => rfl
      | some n => cases n <;> rfl
    have key : ∀ z : Fs, (z.get x = if d = x then asDir (fs.get x) else fs.get x) →
        (if x ∈ ds then asDir (z.get x) else z.get x) = if x ∈ d :: ds then asDir (fs.get x) else fs.get x := by
      intro z hz
      rw [hz]
      by_cases hd : d = x
      · subst hd
        rw [if_pos rfl, if_pos (List.mem_cons_self ..), hidem]
        split <;> rfl
      · rw [if_neg hd]
        have : (x ∈ d :: ds) ↔ x ∈ ds := by
          rw [List.mem_cons]
          exact ⟨fun h => h.resolve_left (Ne.symm hd), .inr⟩
        by_cases hx : x ∈ ds
        · rw [if_pos hx, if_pos (this.mpr hx)]
        · rw [if_neg hx, if_neg (fun h => hx (this.mp h))]
    exact key _ (hstep x)

/-! ### Unpacking -/

/-- An archive as `bsdtar` makes it: what is at a path is the same each time, and what other members are below of is a directory. -/
structure GoodTar (t : Tar) : Prop where
  same : ∀ k n n', (k, n) ∈ t → (k, n') ∈ t → n = n'
  dirs : ∀ m ∈ t, ∀ k n, (k, n) ∈ t → k ∈ parents m.1 → ∃ p, n = .dir p

/-- What an archive puts into an empty directory. -/
def TarHas (t : Tar) (k : List Str) (n : Node) : Prop := (k, n) ∈ t ∨ (k ∉ t.map (·.1) ∧ (∃ m ∈ t, k ∈ parents m.1) ∧ n = .dir 0o755)

theorem goodTar_prefix {a b : Tar} (h : GoodTar (a ++ b)) : GoodTar a :=
  ⟨fun k n n' h1 h2 => h.same k n n' (List.mem_append_left _ h1) (List.mem_append_left _ h2),
   fun m hm k n hk hp => h.dirs m (List.mem_append_left _ hm) k n (List.mem_append_left _ hk) hp⟩

theorem untar_get (t : Tar) (h : GoodTar t) (k : List Str) (n : Node) : (untar [] t).get k = some n ↔ TarHas t k n := by
  induction t using List.reverseRecOn generalizing k n with
  | nil => simp [untar, TarHas]
  | append_singleton t m ih =>
    have hg := goodTar_prefix h
    have ih := ih hg
    have hstep : untar [] (t ++ [m]) = ((untar [] t).mkParents m.1).set m.1 m.2 := by
      unfold untar; rw [List.foldl_append]; rfl
    rw [hstep, Fs.get_set]
    have hmm : m ∈ t ++ [m] := by simp
    by_cases hk : m.1 = k
    · rw [if_pos hk]
      subst hk
      constructor
      · intro e; cases e; exact .inl hmm
      · rintro (h1 | ⟨h1, -⟩)
        · rw [h.same _ _ _ h1 hmm]
        · exact absurd (List.mem_map.mpr ⟨m, hmm, rfl⟩) h1
    · rw [if_neg hk, mkParents_get]
      have hmem : ∀ n, (k, n) ∈ t ++ [m] ↔ (k, n) ∈ t := by
        intro n
        rw [List.mem_append, List.mem_singleton]
        exact ⟨fun h => h.resolve_right (fun e => hk (by rw [← e])), .inl⟩
      have hkeys : k ∈ (t ++ [m]).map (·.1) ↔ k ∈ t.map (·.1) := by
        rw [List.map_append, List.mem_append, List.map_singleton, List.mem_singleton]
        exact ⟨fun h => h.resolve_right (fun e => hk e.symm), .inl⟩
      by_cases hp : k ∈ parents m.1
      · rw [if_pos hp]
        have hpar : ∃ m' ∈ t ++ [m], k ∈ parents m'.1 := ⟨m, hmm, hp⟩
        by_cases hin : k ∈ t.map (·.1)
        · obtain ⟨⟨k', n0⟩, h0, hk0⟩ := List.mem_map.mp hin
          dsimp only at hk0
          subst hk0
          obtain ⟨p, hp0⟩ := h.dirs m hmm k' n0 (List.mem_append_left _ h0) hp
          subst hp0
          rw [(ih k' _).mpr (.inl h0)]
          unfold TarHas
          rw [hmem, hkeys]
          simp only [asDir]
          constructor
          · intro e; cases e; exact .inl h0
          · rintro (h1 | ⟨h1, -⟩)
            · rw [hg.same _ _ _ h1 h0]
            · exact absurd hin h1
        · have hv : asDir ((untar [] t).get k) = some (.dir 0o755) := by
            cases hgk : (untar [] t).get k with
            | none => rfl
            | some n0 =>
              rcases (ih k n0).mp hgk with h1 | ⟨-, -, h1⟩
              · exact absurd (List.mem_map.mpr ⟨_, h1, rfl⟩) hin
              · rw [h1]; rfl
          rw [hv]
          unfold TarHas
          rw [hmem, hkeys]
          constructor
          · intro e; cases e; exact .inr ⟨hin, hpar, rfl⟩
          · rintro (h1 | ⟨-, -, h1⟩)
            · exact absurd (List.mem_map.mpr ⟨_, h1, rfl⟩) hin
            · rw [h1]
      · rw [if_neg hp, ih]
        unfold TarHas
        rw [hmem, hkeys]
        refine or_congr Iff.rfl (and_congr Iff.rfl (and_congr ?_ Iff.rfl))
        constructor
        · rintro ⟨m', h1, h2⟩; exact ⟨m', List.mem_append_left _ h1, h2⟩
        · rintro ⟨m', h1, h2⟩
          rcases List.mem_append.mp h1 with h1 | h1
          · exact ⟨m', h1, h2⟩
          · rw [List.mem_singleton.mp h1] at h2; exact absurd h2 hp

/-! ### The scripts -/

/-- The scripts in `$PKG` before a package: none. -/
def NoScripts (pkg : Fs) : Prop := ∀ s ∈ scriptFiles, pkg.get [s.2] = none

theorem scripts_ne : (scriptFiles.map (·.2)).Nodup := by decide +kernel

theorem filterMap_same {α β : Type} (f g : α → Option β) (l : List α) (h : ∀ a ∈ l, f a = g a) : l.filterMap f = l.filterMap g := by
  induction l with
  | nil => rfl
  | cons a l ih => rw [List.filterMap_cons, List.filterMap_cons, h a (List.mem_cons_self ..), ih (fun b hb => h b (List.mem_cons_of_mem _ hb))]

theorem topFile_some {fs : Fs} {f : Str} {m : List Str × Node} : fs.topFile f = some m ↔ ∃ d p, fs.get [f] = some (.file d p) ∧ m = ([f], .file d p) := by
  unfold Fs.topFile
  split
  · next d p h =>
    constructor
    · intro e; exact ⟨d, p, h, (Option.some.inj e).symm⟩
    · rintro ⟨d', p', h', rfl⟩
      rw [h] at h'
      cases h'
      rfl
  · next hn =>
    constructor
    · intro e; cases e
    · rintro ⟨d, p, h, -⟩
      exact absurd h (hn d p)

theorem topFile_none {fs : Fs} {f : Str} : fs.topFile f = none ↔ fs.isFile [f] = false := by
  unfold Fs.topFile Fs.isFile
  cases fs.get [f] with
  | none => simp
  | some n => cases n <;> simp

theorem topFile_get {fs fs' : Fs} {f : Str} (h : fs.get [f] = fs'.get [f]) : fs.topFile f = fs'.topFile f := by
  unfold Fs.topFile
  rw [h]

/-- What the loop over the four scripts does, for any list of names. -/
theorem move_fold (l : List (Str × Str)) (hn : (l.map (·.2)).Nodup) (fs : Fs) (t : Tar) :
    (l.foldl moveScript (fs, t)).2 = t ++ l.filterMap (fun s => fs.topFile s.2) ∧
    (∀ k, (l.foldl moveScript (fs, t)).1.get k = if (∃ s ∈ l, k = [s.2]) ∧ fs.isFile k = true then none else fs.get k) := by
  induction l generalizing fs t with
  | nil => exact ⟨by simp, fun k => by simp⟩
  | cons s l ih =>
    rw [List.map_cons, List.nodup_cons] at hn
    have hne : ∀ s' ∈ l, s'.2 ≠ s.2 := fun s' hs' e => hn.1 (List.mem_map.mpr ⟨s', hs', e⟩)
    rw [List.foldl_cons, List.filterMap_cons]
    cases hg : fs.topFile s.2 with
    | none =>
      have hr : moveScript (fs, t) s = (fs, t) := by unfold moveScript; rw [hg]
      obtain ⟨h1, h2⟩ := ih hn.2 fs t
      rw [hr]
      refine ⟨h1, fun k => ?_⟩
      rw [h2 k]
      by_cases hk : k = [s.2]
      · subst hk
        have := topFile_none.mp hg
        rw [if_neg (fun h => by rw [this] at h; cases h.2), if_neg (fun h => by rw [this] at h; cases h.2)]
      · have : (∃ s' ∈ s :: l, k = [s'.2]) ↔ ∃ s' ∈ l, k = [s'.2] := by simp [hk]
        simp only [this]
    | some m =>
      have hr : moveScript (fs, t) s = (fs.del [s.2], t ++ [m]) := by unfold moveScript; rw [hg]
      obtain ⟨h1, h2⟩ := ih hn.2 (fs.del [s.2]) (t ++ [m])
      have hdel : ∀ k, k ≠ [s.2] → (fs.del [s.2]).get k = fs.get k := fun k hk => by rw [Fs.get_del, if_neg (Ne.symm hk)]
      rw [hr]
      refine ⟨?_, fun k => ?_⟩
      · rw [h1, List.append_assoc, List.singleton_append]
        congr 2
        apply filterMap_same
        intro s' hs'
        exact topFile_get (hdel _ (by simpa using hne s' hs'))
      · rw [h2 k]
        by_cases hk : k = [s.2]
        · subst hk
          have : (fs.del [s.2]).get [s.2] = none := by rw [Fs.get_del, if_pos rfl]
          obtain ⟨d, p, hd, -⟩ := topFile_some.mp hg
          rw [this, ite_self, if_pos ⟨⟨s, List.mem_cons_self .., rfl⟩, by simp [Fs.isFile, hd]⟩]
        · have : (∃ s' ∈ s :: l, k = [s'.2]) ↔ ∃ s' ∈ l, k = [s'.2] := by simp [hk]
          simp only [this, Fs.isFile, hdel k hk]

/-- What is copied. -/
theorem copy_fold (port : Str → Option Str) (name : Str) (l : List (Str × Str)) (hn : (l.map (·.2)).Nodup) (fs : Fs) (k : List Str) :
    (l.foldl (copyScript port name) fs).get k =
      match l.findSome? (fun s => if k = [s.2] then port (name ++ '.' :: s.1) else none) with
      | some d => some (.file d 0o644)
      | none => fs.get k := by
  induction l generalizing fs with
  | nil => rfl
  | cons s l ih =>
    rw [List.map_cons, List.nodup_cons] at hn
    have hne : ∀ s' ∈ l, s'.2 ≠ s.2 := fun s' hs' e => hn.1 (List.mem_map.mpr ⟨s', hs', e⟩)
    rw [List.foldl_cons, ih hn.2, List.findSome?_cons]
    by_cases hk : k = [s.2]
    · subst hk
      rw [if_pos rfl]
      have hnone : l.findSome? (fun s' => if [s.2] = [s'.2] then port (name ++ '.' :: s'.1) else none) = none := by
        rw [List.findSome?_eq_none_iff]
        intro s' hs'
        rw [if_neg (by simpa using Ne.symm (hne s' hs'))]
      rw [hnone]
      unfold copyScript
      cases hp : port (name ++ '.' :: s.1) with
      | none => rfl
      | some d => simp [Fs.get_set]
    · rw [if_neg hk]
      dsimp only
      cases hf : l.findSome? (fun s => if k = [s.2] then port (name ++ '.' :: s.1) else none) with
      | some d => rfl
      | none =>
        unfold copyScript
        cases hp : port (name ++ '.' :: s.1) with
        | none => rfl
        | some d => simp [Fs.get_set, Ne.symm hk]

theorem find_script (port : Str → Option Str) (name : Str) (l : List (Str × Str)) (hn : (l.map (·.2)).Nodup) (s : Str × Str) (hs : s ∈ l) :
    l.findSome? (fun s' => if [s.2] = [s'.2] then port (name ++ '.' :: s'.1) else none) = port (name ++ '.' :: s.1) := by
  induction l with
  | nil => cases hs
  | cons a l ih =>
    rw [List.map_cons, List.nodup_cons] at hn
    rw [List.findSome?_cons]
    rcases List.mem_cons.mp hs with rfl | hs
    · rw [if_pos rfl]
      cases hp : port (name ++ '.' :: s.1) with
      | some d => rfl
      | none =>
        dsimp only
        rw [List.findSome?_eq_none_iff]
        intro s' hs'
        rw [if_neg]
        intro e
        exact hn.1 (List.mem_map.mpr ⟨s', hs', (by simpa using e.symm)⟩)
    · rw [if_neg]
      · exact ih hn.2 hs
      · intro e
        exact hn.1 (List.mem_map.mpr ⟨s, hs, (by simpa using e)⟩)

/-- The scripts of a package. -/
def scriptsOf (port : Str → Option Str) (name : Str) : Tar := scriptFiles.filterMap (fun s => (port (name ++ '.' :: s.1)).map (fun d => ([s.2], Node.file d 0o644)))

theorem copy_get (port : Str → Option Str) (name : Str) {pkg : Fs} (hp : NoScripts pkg) (s : Str × Str) (hs : s ∈ scriptFiles) :
    (copyScripts port name pkg).get [s.2] = (port (name ++ '.' :: s.1)).map (fun d => Node.file d 0o644) := by
  unfold copyScripts
  rw [copy_fold port name scriptFiles scripts_ne, find_script port name _ scripts_ne s hs, hp s hs]
  cases port (name ++ '.' :: s.1) <;> rfl

theorem addMetaFiles_eq (port : Str → Option Str) (name : Str) {pkg : Fs} (hp : NoScripts pkg) (t : Tar) :
    (addMetaFiles port name pkg t).2 = t ++ scriptsOf port name ∧ NoScripts (addMetaFiles port name pkg t).1 := by
  obtain ⟨h1, h2⟩ := move_fold scriptFiles scripts_ne (copyScripts port name pkg) t
  constructor
  · refine h1.trans ?_
    unfold scriptsOf
    congr 1
    apply filterMap_same
    intro s hs
    unfold Fs.topFile
    rw [copy_get port name hp s hs]
    cases port (name ++ '.' :: s.1) <;> rfl
  · intro s hs
    refine (h2 [s.2]).trans ?_
    have hg := copy_get port name hp s hs
    split
    · rfl
    · next hn =>
      rw [hg]
      cases hpo : port (name ++ '.' :: s.1) with
      | none => rfl
      | some d =>
        exfalso
        refine hn ⟨⟨s, hs, rfl⟩, ?_⟩
        unfold Fs.isFile
        rw [hg, hpo]
        rfl

theorem mem_scriptsOf {port : Str → Option Str} {name : Str} {m : List Str × Node} :
    m ∈ scriptsOf port name ↔ ∃ s ∈ scriptFiles, ∃ d, port (name ++ '.' :: s.1) = some d ∧ m = ([s.2], Node.file d 0o644) := by
  unfold scriptsOf
  rw [List.mem_filterMap]
  constructor
  · rintro ⟨s, hs, h⟩
    cases hp : port (name ++ '.' :: s.1) with
    | none => rw [hp] at h; cases h
    | some d => rw [hp] at h; exact ⟨s, hs, d, hp, (Option.some.inj h).symm⟩
  · rintro ⟨s, hs, d, hp, rfl⟩
    exact ⟨s, hs, by rw [hp]; rfl⟩

theorem script_hidden : ∀ s ∈ scriptFiles, visible [s.2] = false := by decide +kernel

theorem script_names : ∀ s ∈ scriptFiles, s.2 ∈ hiddenNames ∧ s.2 ≠ ".META".toList ∧ s.2 ≠ ".MTREE".toList := by decide +kernel

theorem hidden_names : ∀ f ∈ hiddenNames, visible [f] = false := by decide +kernel

theorem hidden_cases : ∀ f ∈ hiddenNames, f = ".META".toList ∨ f = ".MTREE".toList ∨ ∃ s ∈ scriptFiles, s.2 = f := by decide +kernel

theorem hidden_nodup : hiddenNames.Nodup := by decide +kernel

theorem visible_prefix {x : Str} {k : List Str} (h : [x] <+: k) : visible k = visible [x] := by
  obtain ⟨r, rfl⟩ := h
  rfl

theorem goodTar_scripts {t : Tar} (hg : GoodTar t) (hv : ∀ m ∈ t, visible m.1 = true) (port : Str → Option Str) (name : Str) : GoodTar (t ++ scriptsOf port name) := by
  constructor
  · intro k n n' h1 h2
    rcases List.mem_append.mp h1 with h1 | h1 <;> rcases List.mem_append.mp h2 with h2 | h2
    · exact hg.same k n n' h1 h2
    · obtain ⟨s, hs, d, -, e⟩ := mem_scriptsOf.mp h2
      cases e
      have := hv _ h1
      rw [script_hidden s hs] at this
      cases this
    · obtain ⟨s, hs, d, -, e⟩ := mem_scriptsOf.mp h1
      cases e
      have := hv _ h2
      rw [script_hidden s hs] at this
      cases this
    · obtain ⟨s, hs, d, hd, e⟩ := mem_scriptsOf.mp h1
      obtain ⟨s', hs', d', hd', e'⟩ := mem_scriptsOf.mp h2
      cases e
      obtain ⟨e1, rfl⟩ := Prod.mk.inj e'
      have e2 : s.2 = s'.2 := by simpa using e1
      have hf := find_script port name _ scripts_ne s hs
      have hf' := find_script port name _ scripts_ne s' hs'
      rw [← e2, hf, hd, hd'] at hf'
      rw [Option.some.inj hf']
  · intro m hm k n hk hp
    obtain ⟨h1, h2, h3⟩ := mem_parents.mp hp
    rcases List.mem_append.mp hm with hm | hm
    · rcases List.mem_append.mp hk with hk | hk
      · exact hg.dirs m hm k n hk hp
      · obtain ⟨s, hs, d, -, e⟩ := mem_scriptsOf.mp hk
        cases e
        have := hv m hm
        rw [visible_prefix h2, script_hidden s hs] at this
        cases this
    · obtain ⟨s, hs, d, -, e⟩ := mem_scriptsOf.mp hm
      rw [e] at hp
      cases hp

/-! ### The package -/

/-- A finished package: `md` is its description, `t` what was packed for it, `scripts` the scripts of the port for it. -/
structure Finished (md : Str) (t scripts : Tar) (t' : Tar) : Prop where
  /-- The description comes first, the list of the files second. -/
  begins : ∃ rest, t' = ([".META".toList], Node.file md 0o644) :: ([".MTREE".toList], Node.file (listing (t ++ scripts)) 0o644) :: rest
  /-- Nothing is there twice. -/
  once : (t'.map (·.1)).Nodup
  /-- The files are those that were packed, with the directories above them. -/
  files : ∀ k n, visible k = true → ((k, n) ∈ t' ↔ (k, n) ∈ t ∨ (k ∉ t.map (·.1) ∧ (∃ m ∈ t, k ≠ [] ∧ k <+: m.1 ∧ k ≠ m.1) ∧ n = Node.dir 0o755))
  /-- The hidden members are the description, the list and the scripts. -/
  hidden : ∀ k n, visible k = false → ((k, n) ∈ t' ↔ (k = [".META".toList] ∧ n = Node.file md 0o644) ∨ (k = [".MTREE".toList] ∧ n = Node.file (listing (t ++ scripts)) 0o644) ∨
    (k, n) ∈ scripts)

theorem addMeta_finished (port : Str → Option Str) (name md : Str) {t : Tar} (hg : GoodTar t) (hv : ∀ m ∈ t, visible m.1 = true) :
    Finished md t (scriptsOf port name) (addMeta [] md (t ++ scriptsOf port name)) := by
  have hgood := goodTar_scripts hg hv port name
  generalize hS : scriptsOf port name = S at *
  have hSm : ∀ m ∈ S, ∃ s ∈ scriptFiles, ∃ d, m = ([s.2], Node.file d 0o644) := by
    intro m hm
    rw [← hS] at hm
    obtain ⟨s, hs, d, -, e⟩ := mem_scriptsOf.mp hm
    exact ⟨s, hs, d, e⟩
  clear hS
  have hU := untar_get (t ++ S) hgood
  have honce : Fs.Once (untar [] (t ++ S)) := once_untar (fs := []) (List.nodup_nil : ([] : List (List Str)).Nodup) _
  unfold addMeta
  generalize untar [] (t ++ S) = U at *
  generalize hL : listing (t ++ S) = L
  have honce2 : Fs.Once ((U.set [".META".toList] (.file md 0o644)).set [".MTREE".toList] (.file L 0o644)) := once_set (once_set honce _ _) _ _
  have hget : ∀ k, ((U.set [".META".toList] (.file md 0o644)).set [".MTREE".toList] (.file L 0o644)).get k =
      if [".MTREE".toList] = k then some (.file L 0o644) else if [".META".toList] = k then some (.file md 0o644) else U.get k := by
    intro k
    rw [Fs.get_set, Fs.get_set]
  generalize (U.set [".META".toList] (.file md 0o644)).set [".MTREE".toList] (.file L 0o644) = F at *
  have hF0 : F.get [".META".toList] = some (.file md 0o644) := by rw [hget, if_neg (by decide), if_pos rfl]
  have hF1 : F.get [".MTREE".toList] = some (.file L 0o644) := by rw [hget, if_pos rfl]
  have hFs : ∀ s ∈ scriptFiles, F.get [s.2] = U.get [s.2] := by
    intro s hs
    obtain ⟨-, h1, h2⟩ := script_names s hs
    rw [hget, if_neg (by simpa using Ne.symm h2), if_neg (by simpa using Ne.symm h1)]
  have hFv : ∀ k, visible k = true → F.get k = U.get k := by
    intro k hk
    have hh := hidden_names
    rw [hget, if_neg, if_neg]
    · intro e; rw [← e, hh _ (by decide +kernel)] at hk; cases hk
    · intro e; rw [← e, hh _ (by decide +kernel)] at hk; cases hk
  dsimp only
  have hfv : ∀ k n, visible k = true → ((k, n) ∈ hiddenNames.filterMap F.topFile ++
      F.filter (fun e => visible e.1) ↔ U.get k = some n) := by
    intro k n hk
    rw [List.mem_append, List.mem_filter, ← get_iff_mem honce2, hFv k hk]
    constructor
    · rintro (h | ⟨h, -⟩)
      · exfalso
        obtain ⟨f, hf, he⟩ := List.mem_filterMap.mp h
        have : k = [f] := by
          obtain ⟨d, p, -, e⟩ := topFile_some.mp he
          exact (Prod.mk.inj e).1
        rw [this, hidden_names f hf] at hk
        cases hk
      · exact h
    · intro h; exact .inr ⟨h, hk⟩
  have hhid : ∀ k n, visible k = false → ((k, n) ∈ hiddenNames.filterMap F.topFile ++
      F.filter (fun e => visible e.1) ↔ ∃ f ∈ hiddenNames, k = [f] ∧ F.get [f] = some n ∧ ∃ d m, n = .file d m) := by
    intro k n hk
    rw [List.mem_append, List.mem_filter, List.mem_filterMap]
    constructor
    · rintro (⟨f, hf, he⟩ | ⟨-, h⟩)
      · refine ⟨f, hf, ?_⟩
        obtain ⟨d, p, hd, e⟩ := topFile_some.mp he
        obtain ⟨h1, h2⟩ := Prod.mk.inj e
        exact ⟨h1, by rw [hd, h2], d, p, h2⟩
      · rw [hk] at h; cases h
    · rintro ⟨f, hf, rfl, h1, d, m, rfl⟩
      exact .inl ⟨f, hf, topFile_some.mpr ⟨d, m, h1, rfl⟩⟩
  refine ⟨?_, ?_, ?_, ?_⟩
  · rw [hL]
    refine ⟨[".PRE".toList, ".POST".toList, ".PRER".toList, ".POSTR".toList].filterMap F.topFile ++
      F.filter (fun e => visible e.1), ?_⟩
    unfold hiddenNames
    rw [List.filterMap_cons, topFile_some.mpr ⟨_, _, hF0, rfl⟩]
    dsimp only
    rw [List.filterMap_cons, topFile_some.mpr ⟨_, _, hF1, rfl⟩]
    rfl
  · rw [List.map_append, List.nodup_append]
    refine ⟨?_, ?_, ?_⟩
    · have : ∀ l : List Str, l.Nodup →
          ((l.filterMap F.topFile).map (·.1)).Nodup := by
        intro l hl
        have hsub : List.Sublist ((l.filterMap F.topFile).map (·.1)) (l.map (fun f => [f])) := by
          induction l with
          | nil => exact List.Sublist.refl _
          | cons f l ih =>
            have := ih (List.nodup_cons.mp hl).2
            rw [List.filterMap_cons, List.map_cons]
            split
            · exact this.cons _
            · next y hy =>
              rw [List.map_cons]
              have : y.1 = [f] := by
                obtain ⟨d, p, -, e⟩ := topFile_some.mp hy
                rw [e]
              rw [this]
              exact List.Sublist.cons_cons _ (by assumption)
        refine hsub.nodup ?_
        exact List.Pairwise.map _ (fun a b h => by simpa using h) hl
      exact this _ hidden_nodup
    · exact honce2.sublist (List.Sublist.map _ List.filter_sublist)
    · intro a ha b hb hab
      subst hab
      obtain ⟨e, he, rfl⟩ := List.mem_map.mp hb
      have hv := (List.mem_filter.mp he).2
      obtain ⟨e', he', h1⟩ := List.mem_map.mp ha
      obtain ⟨f, hf, h2⟩ := List.mem_filterMap.mp he'
      have : e'.1 = [f] := by
        obtain ⟨d, p, -, e⟩ := topFile_some.mp h2
        rw [e]
      rw [← h1, this, hidden_names f hf] at hv
      cases hv
  · intro k n hk
    rw [hfv k n hk, hU]
    unfold TarHas
    have hns : ∀ m ∈ S, k ≠ m.1 := by
      intro m hm e
      obtain ⟨s, hs, d, rfl⟩ := hSm m hm
      rw [e, script_hidden s hs] at hk
      cases hk
    refine or_congr ?_ (and_congr (not_congr ?_) (and_congr ?_ Iff.rfl))
    · rw [List.mem_append]
      exact ⟨fun h => h.resolve_right (fun h => hns _ h rfl), .inl⟩
    · rw [List.map_append, List.mem_append]
      refine ⟨fun h => h.resolve_right (fun h => ?_), .inl⟩
      obtain ⟨m, hm, e⟩ := List.mem_map.mp h
      exact hns m hm e.symm
    · constructor
      · rintro ⟨m, hm, hp⟩
        rcases List.mem_append.mp hm with hm | hm
        · exact ⟨m, hm, mem_parents.mp hp⟩
        · obtain ⟨s, hs, d, rfl⟩ := hSm m hm
          cases hp
      · rintro ⟨m, hm, hp⟩
        exact ⟨m, List.mem_append_left _ hm, mem_parents.mpr hp⟩
  · intro k n hk
    rw [hL, hhid k n hk]
    have hsc : ∀ s ∈ scriptFiles, ∀ n, F.get [s.2] = some n ↔ ([s.2], n) ∈ S := by
      intro s hs n
      rw [hFs s hs, hU]
      constructor
      · rintro (h | ⟨-, ⟨m, hm, hp⟩, -⟩)
        · rcases List.mem_append.mp h with h | h
          · have := hv _ h
            rw [script_hidden s hs] at this
            cases this
          · exact h
        · exfalso
          obtain ⟨h1, h2, h3⟩ := mem_parents.mp hp
          rcases List.mem_append.mp hm with hm | hm
          · have := hv m hm
            rw [visible_prefix h2, script_hidden s hs] at this
            cases this
          · obtain ⟨s', hs', d, rfl⟩ := hSm m hm
            cases hp
      · intro h; exact .inl (List.mem_append_right _ h)
    constructor
    · rintro ⟨f, hf, rfl, h1, h2⟩
      have : f = ".META".toList ∨ f = ".MTREE".toList ∨ ∃ s ∈ scriptFiles, s.2 = f := by
        exact hidden_cases f hf
      rcases this with rfl | rfl | ⟨s, hs, rfl⟩
      · rw [hF0] at h1; exact .inl ⟨rfl, (Option.some.inj h1).symm⟩
      · rw [hF1] at h1; exact .inr (.inl ⟨rfl, (Option.some.inj h1).symm⟩)
      · exact .inr (.inr ((hsc s hs n).mp h1))
    · rintro (⟨rfl, rfl⟩ | ⟨rfl, rfl⟩ | h)
      · exact ⟨_, by decide +kernel, rfl, hF0, _, _, rfl⟩
      · exact ⟨_, by decide +kernel, rfl, hF1, _, _, rfl⟩
      · obtain ⟨s, hs, d, e⟩ := hSm _ h
        cases e
        exact ⟨s.2, (script_names s hs).1, rfl, (hsc s hs _).mpr h, _, _, rfl⟩

theorem finish_at (port : Str → Option Str) (md : Str → Str) (pkg : Fs) (hp : NoScripts pkg) (ts : List (Str × Tar))
    (hg : ∀ e ∈ ts, GoodTar e.2 ∧ ∀ m ∈ e.2, visible m.1 = true) (i : Nat) (f : Str) (t : Tar) (hi : ts[i]? = some (f, t)) :
    ∃ t', (finishAll port md pkg [] ts)[i]? = some (f, t') ∧ Finished (md f) t (scriptsOf port (getPackageName f)) t' := by
  induction ts generalizing pkg i with
  | nil => simp at hi
  | cons e ts ih =>
    obtain ⟨f0, t0⟩ := e
    obtain ⟨h1, h2⟩ := addMetaFiles_eq port (getPackageName f0) hp t0
    cases i with
    | zero =>
      rw [List.getElem?_cons_zero] at hi
      cases hi
      refine ⟨_, rfl, ?_⟩
      rw [h1]
      exact addMeta_finished port _ _ (hg _ (List.mem_cons_self ..)).1 (hg _ (List.mem_cons_self ..)).2
    | succ i =>
      rw [List.getElem?_cons_succ] at hi
      obtain ⟨t', h3, h4⟩ := ih _ h2 (fun e he => hg e (List.mem_cons_of_mem _ he)) i hi
      exact ⟨t', by unfold finishAll; rw [List.getElem?_cons_succ]; exact h3, h4⟩

/-- **C158**: every package has exactly the scripts the port has for that package - if the build left no hidden files in the tree, and no earlier run was stopped here. -/
theorem C158_scripts_partial (port : Str → Option Str) (md : Str → Str) (pkg : Fs) (hp : NoScripts pkg) (ts : List (Str × Tar))
    (hg : ∀ e ∈ ts, GoodTar e.2 ∧ ∀ m ∈ e.2, visible m.1 = true) (i : Nat) (f : Str) (t : Tar) (hi : ts[i]? = some (f, t)) :
    ∃ t', (finishAll port md pkg [] ts)[i]? = some (f, t') ∧
      ∀ s ∈ [("pre-install".toList, ".PRE".toList), ("post-install".toList, ".POST".toList), ("pre-remove".toList, ".PRER".toList), ("post-remove".toList, ".POSTR".toList)],
        ∀ n, ([s.2], n) ∈ t' ↔ ∃ d, port (getPackageName f ++ '.' :: s.1) = some d ∧ n = Node.file d 0o644 := by
  obtain ⟨t', h1, h2⟩ := finish_at port md pkg hp ts hg i f t hi
  refine ⟨t', h1, ?_⟩
  intro s hs n
  have hs : s ∈ scriptFiles := hs
  obtain ⟨-, h3, h4⟩ := script_names s hs
  rw [h2.hidden _ _ (script_hidden s hs), mem_scriptsOf]
  constructor
  · rintro (⟨e, -⟩ | ⟨e, -⟩ | ⟨s', hs', d, hd, e⟩)
    · exact absurd (by simpa using e) h3
    · exact absurd (by simpa using e) h4
    · obtain ⟨e1, rfl⟩ := Prod.mk.inj e
      have e1 : s.2 = s'.2 := by simpa using e1
      have hf := find_script port (getPackageName f) _ scripts_ne s hs
      have hf' := find_script port (getPackageName f) _ scripts_ne s' hs'
      rw [← e1, hf, hd] at hf'
      exact ⟨d, hf', rfl⟩
  · rintro ⟨d, hd, rfl⟩
    exact .inr (.inr ⟨s, hs, d, hd, rfl⟩)

/-- **C159**: every package begins with its description and the list of its files, has what was packed for it and the directories above, each once, and nothing else -
under the same conditions. -/
theorem C159_finished_partial (port : Str → Option Str) (md : Str → Str) (pkg : Fs) (hp : NoScripts pkg) (ts : List (Str × Tar))
    (hg : ∀ e ∈ ts, GoodTar e.2 ∧ ∀ m ∈ e.2, visible m.1 = true) (i : Nat) (f : Str) (t : Tar) (hi : ts[i]? = some (f, t)) :
    ∃ t', (finishAll port md pkg [] ts)[i]? = some (f, t') ∧ Finished (md f) t (scriptsOf port (getPackageName f)) t' :=
  finish_at port md pkg hp ts hg i f t hi

/-- No package is dropped and none is added. -/
theorem C159_packages (port : Str → Option Str) (md : Str → Str) (pkg tar0 : Fs) (ts : List (Str × Tar)) :
    (finishAll port md pkg tar0 ts).map (·.1) = ts.map (·.1) := by
  induction ts generalizing pkg tar0 with
  | nil => rfl
  | cons e ts ih =>
    unfold finishAll
    rw [List.map_cons, List.map_cons, ih]

/-! ### Cases -/

/-- A port with a script for its main package. -/
def tarPort : Str → Option Str := fun f => if f = "zlib.post-install".toList then some "ldconfig".toList else none

/-- Its packages as they were packed. -/
def tarPkgs : List (Str × Tar) :=
  [("zlib.cards-1.3-1".toList, [(["usr".toList], .dir 0o755), (["usr".toList, "lib".toList], .dir 0o755), (["usr".toList, "lib".toList, "libz.so".toList], .file "z".toList 0o755)]),
   ("zlib.devel.cards-1.3-1".toList, [(["usr".toList, "include".toList], .dir 0o755), (["usr".toList, "include".toList, "zlib.h".toList], .file "h".toList 0o644)])]

example : finishAll tarPort (fun f => 'N' :: f) [] [] tarPkgs =
  [("zlib.cards-1.3-1".toList, [([".META".toList], .file "Nzlib.cards-1.3-1".toList 0o644), ([".MTREE".toList], .file "usr/\nusr/lib/\nusr/lib/libz.so\n.POST\n".toList 0o644),
      ([".POST".toList], .file "ldconfig".toList 0o644), (["usr".toList, "lib".toList, "libz.so".toList], .file "z".toList 0o755), (["usr".toList, "lib".toList], .dir 0o755),
      (["usr".toList], .dir 0o755)]),
   ("zlib.devel.cards-1.3-1".toList, [([".META".toList], .file "Nzlib.devel.cards-1.3-1".toList 0o644), ([".MTREE".toList], .file "usr/include/\nusr/include/zlib.h\n".toList 0o644),
      (["usr".toList, "include".toList, "zlib.h".toList], .file "h".toList 0o644), (["usr".toList, "include".toList], .dir 0o755), (["usr".toList], .dir 0o755)])] := by
  decide +kernel

/-- The hypotheses are met. -/
example : NoScripts [] ∧ ∀ e ∈ tarPkgs, GoodTar e.2 ∧ ∀ m ∈ e.2, visible m.1 = true := by
  refine ⟨by intro s hs; rfl, ?_⟩
  have hs : ∀ e ∈ tarPkgs, ∀ a ∈ e.2, ∀ b ∈ e.2, a.1 = b.1 → a.2 = b.2 := by decide +kernel
  have hd : ∀ e ∈ tarPkgs, ∀ m ∈ e.2, ∀ a ∈ e.2, a.1 ∈ parents m.1 → a.2 = .dir 0o755 := by decide +kernel
  have hv : ∀ e ∈ tarPkgs, ∀ m ∈ e.2, visible m.1 = true := by decide +kernel
  intro e he
  exact ⟨⟨fun k n n' h1 h2 => hs e he _ h1 _ h2 rfl, fun m hm k n hk hp => ⟨_, hd e he m hm _ hk hp⟩⟩, hv e he⟩

/-- **C158 fails**: a run of `pkgmk` was killed while it finished the package `zlib.devel`; its directory `tar` is still there when the port is packed again with
`--pack-only`: the main package gets the script for the other one, and its files. -/
theorem C158_killed_counterexample :
    let t' := (finishAll (fun _ => none) (fun _ => []) [] [([".PRE".toList], .file "rm -rf /usr/include".toList 0o644), (["usr".toList, "include".toList, "zlib.h".toList], .file "h".toList 0o644)]
      [("zlib.cards-1.3-1".toList, [(["usr".toList, "lib".toList, "libz.so".toList], .file "z".toList 0o755)])])
    t'.map (fun e => e.2.filter (fun m => m.1 ≠ [".META".toList] ∧ m.1 ≠ [".MTREE".toList])) =
      [[([".PRE".toList], .file "rm -rf /usr/include".toList 0o644), (["usr".toList, "lib".toList, "libz.so".toList], .file "z".toList 0o755), (["usr".toList, "lib".toList], .dir 0o755),
        (["usr".toList], .dir 0o755), (["usr".toList, "include".toList, "zlib.h".toList], .file "h".toList 0o644)]] := by
  decide +kernel

/-- **C158 fails**: a hidden file that the build left in the tree becomes the script of the first package. -/
theorem C158_stray_counterexample :
    (finishAll (fun _ => none) (fun _ => []) [([".POST".toList], .file "echo".toList 0o755)] []
      [("a.cards-1-1".toList, [(["usr".toList], .dir 0o755)]), ("a.devel.cards-1-1".toList, [(["usr".toList], .dir 0o755)])]).map (fun e => e.2.map (·.1)) =
      [[[".META".toList], [".MTREE".toList], [".POST".toList], ["usr".toList]], [[".META".toList], [".MTREE".toList], ["usr".toList]]] := by
  decide +kernel

/-- **C159 fails**: the list in the package does not name the directories above, and a hidden file that the function of a group packed is named but not there. -/
theorem C159_list_counterexample :
    (finishAll (fun _ => none) (fun _ => []) [] [] [("a.x.cards-1-1".toList, [(["usr".toList, "x".toList], .file [] 0o644), ([".cfg".toList], .file [] 0o644)])]).map (·.2) =
      [[([".META".toList], .file [] 0o644), ([".MTREE".toList], .file "usr/x\n.cfg\n".toList 0o644), (["usr".toList, "x".toList], .file [] 0o644), (["usr".toList], .dir 0o755)]] := by
  decide +kernel

end Cards.Props
