import Verif.Props.UpgradeRun
import Verif.Props.RemoveCmd
/-!
# C42: the names the database reports as installed
-/
namespace Cards.Props
open Cards Cards.Spec

/-- Package `p` of the database is called `n`: by its name, or by a line `A<n>` of its META. -/
def Called (db : Db) (p n : Str) : Prop := ∃ i, (p, i) ∈ db ∧ (n = p ∨ HasAlias i n)

theorem mem_aliases {i : Info} {n : Str} : n ∈ i.aliases ↔ HasAlias i n := by
  unfold Info.aliases HasAlias
  rw [List.mem_filterMap]
  constructor
  · rintro ⟨l, hl, h⟩
    split at h
    · simp only [Option.some.injEq] at h; subst h; exact hl
    · simp at h
  · intro h; exact ⟨_, h, rfl⟩

/-- **C42.** A name is reported as installed by a process that has loaded the database iff some installed package has it, as name or alias. -/
theorem C42_reported (s : Sys) (d : Bool) (n : Str) : (load s d).nameExists n = true ↔ ∃ p, Called s.disk p n := by
  rw [nameExists_load]
  constructor
  · rintro (h | ⟨p, hp, h⟩)
    · obtain ⟨i, hi⟩ := keys_iff_installed.mp h
      exact ⟨n, i, hi, Or.inl rfl⟩
    · exact ⟨p.1, p.2, hp, Or.inr (mem_aliases.mp h)⟩
  · rintro ⟨p, i, hi, rfl | h⟩
    · exact Or.inl (keys_iff_installed.mpr ⟨i, hi⟩)
    · exact Or.inr ⟨(p, i), hi, mem_aliases.mpr h⟩

theorem foldl_alias_get (l : List Str) (q : Str) (m : List (Str × Str)) (a : Str) :
    mget (l.foldl (fun m x => mset x q m) m) a = if a ∈ l then some q else mget m a := by
  induction l generalizing m with
  | nil => simp
  | cons x l ih =>
    simp only [List.foldl_cons, ih, mget_mset, List.mem_cons]
    by_cases h : a ∈ l
    · simp [h]
    · by_cases h2 : a = x
      · simp [h2]
      · simp [h, h2, Ne.symm h2]

theorem loadAlias_get (db : Db) (m : List (Str × Str)) (a : Str) :
    mget (db.foldl (fun m p => p.2.aliases.foldl (fun m a => mset a p.1 m) (mset p.1 p.1 m)) m) a =
      match (db.filter (fun p => decide (a = p.1) || decide (a ∈ p.2.aliases))).getLast? with
      | some p => some p.1
      | none => mget m a := by
  induction db generalizing m with
  | nil => rfl
  | cons q db ih =>
    rw [List.foldl_cons, ih, List.filter_cons]
    by_cases hq : (decide (a = q.1) || decide (a ∈ q.2.aliases)) = true
    · rw [if_pos hq]
      cases hl : db.filter (fun p => decide (a = p.1) || decide (a ∈ p.2.aliases)) with
      | nil =>
        simp only [List.getLast?_nil, List.getLast?_singleton]
        rw [foldl_alias_get, mget_mset]
        simp only [Bool.or_eq_true, decide_eq_true_eq] at hq
        rcases hq with rfl | h
        · simp
        · simp [h]
      | cons x l =>
        simp only [List.getLast?_cons_cons]
        cases h3 : (x :: l).getLast? with
        | none => simp at h3
        | some p => rfl
    · rw [if_neg hq]
      cases (db.filter (fun p => decide (a = p.1) || decide (a ∈ p.2.aliases))).getLast? with
      | some p => rfl
      | none =>
        simp only
        rw [foldl_alias_get, mget_mset]
        simp only [Bool.or_eq_true, decide_eq_true_eq, not_or] at hq
        simp [hq.2, Ne.symm hq.1]

/-- **C42.** In a process that has loaded the database a reported name resolves to an installed package that has it, as name or alias; when several
packages have it, to the last of them in the order of names (so the alias of a package can hide the package of that name). -/
theorem C42_resolves (s : Sys) (d : Bool) (hw : WF s.disk) (n p : Str) :
    mget (load s d).alias n = some p ↔ Called s.disk p n ∧ ∀ q, Called s.disk q n → q ≤ p := by
  have hg : mget (load s d).alias n = match (s.disk.filter (fun p => decide (n = p.1) || decide (n ∈ p.2.aliases))).getLast? with
      | some p => some p.1 | none => none := by
    have := loadAlias_get s.disk [] n
    simpa [load, loadAlias, mget] using this
  have hcall : ∀ q, Called s.disk q n ↔ ∃ i, (q, i) ∈ s.disk.filter (fun p => decide (n = p.1) || decide (n ∈ p.2.aliases)) := by
    intro q
    unfold Called
    simp only [List.mem_filter, Bool.or_eq_true, decide_eq_true_eq, mem_aliases]
  have hsort : (s.disk.filter (fun p => decide (n = p.1) || decide (n ∈ p.2.aliases))).Pairwise (fun x y => x.1 < y.1) := by
    have h1 : s.disk.Pairwise (fun x y => x.1 < y.1) := by
      have := wf_msorted hw
      unfold MSorted Sorted keys at this
      exact List.pairwise_map.mp this
    exact h1.filter _
  rw [hg]
  simp only [hcall]
  generalize s.disk.filter (fun p => decide (n = p.1) || decide (n ∈ p.2.aliases)) = L at hsort
  rcases List.eq_nil_or_concat L with rfl | ⟨L', x, rfl⟩
  · simp
  · simp only [List.concat_eq_append, List.getLast?_append, List.getLast?_singleton, Option.some_or, Option.some.injEq] at hsort ⊢
    have hlast : ∀ q i, (q, i) ∈ L' ++ [x] → q = x.1 ∨ q < x.1 := by
      intro q i hq
      rcases List.mem_append.mp hq with h | h
      · exact Or.inr ((List.pairwise_append.mp hsort).2.2 (q, i) h x (by simp))
      · left; rw [List.mem_singleton] at h; rw [← h]
    constructor
    · rintro rfl
      refine ⟨⟨x.2, by simp⟩, ?_⟩
      rintro q ⟨i, hq⟩
      rcases hlast q i hq with rfl | h
      · exact List.le_refl _
      · exact List.le_of_lt h
    · rintro ⟨⟨i, hp⟩, hmax⟩
      have h1 := hmax x.1 ⟨x.2, by simp⟩
      rcases hlast p i hp with h | h
      · exact h.symm
      · exact List.le_antisymm h1 (List.le_of_lt h)

theorem runFile_alias (E : InstEnv) (opts : Opts) (a : Archive) (dep : Bool) (m : Option Str) (s r : InstSt) (hs : Sane s.st)
    (h : runFile E opts (some a) dep m s = (r, none)) :
    Sane r.st ∧ (∀ n, mget r.st.alias n = if n = a.name then none else mget s.st.alias n) ∧
    (∀ n, Installed r.st.disk n ↔ n = a.name ∨ Installed s.st.disk n) := by
  unfold runFile at h
  simp only [Prod.mk.injEq, Option.map_eq_none_iff] at h
  obtain ⟨rfl, h2⟩ := h
  set j : Job := { env := E.env s.count, a := a, dep := dep, modeName := m.getD a.name } with hj
  have hs' : Sane { s.st with dep := s.st.dep || j.dep } := ⟨hs.mem, hs.disk, hs.agree⟩
  obtain ⟨a1, a2, a3, a4, a5, a6, a7, a8, a9⟩ :=
    (runAdd_spec j.env E.rules { opts with upgrade := s.st.nameExists j.modeName } j.a { s.st with dep := s.st.dep || j.dep } hs').2.1 h2
  refine ⟨a1, ?_, ?_⟩
  · intro n
    have ha : (runJob E.rules opts j s.st).1.alias = if s.st.nameExists j.modeName then merase a.name s.st.alias else s.st.alias := a8
    have a3' : s.st.nameExists j.modeName = s.st.nameExists a.name := a3
    show mget (runJob E.rules opts j s.st).1.alias n = _
    rw [ha]
    by_cases hn : n = a.name
    · subst hn
      rw [if_pos rfl]
      split
      · rw [mget_merase]; simp
      · rename_i hu
        rw [a3'] at hu
        simpa [St.nameExists] using hu
    · rw [if_neg hn]
      split
      · rw [mget_merase]; simp [Ne.symm hn]
      · rfl
  · intro n
    show Installed (runJob E.rules opts j s.st).1.disk n ↔ _
    rw [← mget_isSome_installed, ← mget_isSome_installed]
    by_cases hn : n = a.name
    · subst hn
      have : mget (runJob E.rules opts j s.st).1.disk a.name = _ := a7
      rw [this]; simp
    · have : mget (runJob E.rules opts j s.st).1.disk n = _ := a4 n hn
      rw [this]; simp [hn]

/-- One thing a process of `cards install` or `cards upgrade` does to the database: handle a package file, or delete an obsolete package. -/
inductive PStep where
  | file (opts : Opts) (a : Archive) (dep : Bool) (modeName : Option Str)
  | delete (locked : Bool) (n : Str)

/-- Do it. -/
def PStep.run (E : InstEnv) : PStep → InstSt → InstSt × Option InstErr
  | .file opts a dep m, s => runFile E opts (some a) dep m s
  | .delete locked n, s => deleteListed locked n s

/-- The package handled. -/
def PStep.name : PStep → Str
  | .file _ a _ _ => a.name
  | .delete _ n => n

theorem deleteListed_alias (locked : Bool) (n : Str) (s r : InstSt) (hs : Sane s.st) (h : deleteListed locked n s = (r, none)) :
    Sane r.st ∧ (∀ m, mget r.st.alias m = if m = n then none else mget s.st.alias m) ∧
    (∀ m, Installed r.st.disk m ↔ m ≠ n ∧ Installed s.st.disk m) := by
  have hsp := (deleteListed_spec locked n s hs).1 (by rw [h])
  rw [h] at hsp
  obtain ⟨a1, _, _, a4, _⟩ := hsp
  refine ⟨a1, ?_, ?_⟩
  · have hal : r.st.alias = merase n s.st.alias := by
      unfold deleteListed at h
      split at h
      · simp at h
      · unfold removeRecord at h
        simp only at h
        cases hd : mget s.st.disk n with
        | none => rw [hd] at h; simp at h
        | some i => rw [hd] at h; simp only [Prod.mk.injEq, and_true] at h; subst h; rfl
    intro m
    rw [hal, mget_merase]
    by_cases hm : m = n
    · simp [hm]
    · simp [hm, Ne.symm hm]
  · intro m
    simp only at a4
    unfold Installed
    simp only [a4, mem_merase]
    constructor
    · rintro ⟨i, h1, h2⟩; exact ⟨h2, i, h1⟩
    · rintro ⟨h2, i, h1⟩; exact ⟨i, h1, h2⟩

/-- **C42.** What a process reports after it has handled any packages: exactly the names reported when the database was loaded, less the names of
the packages handled (whether they were deleted, or installed and now are in the database). -/
theorem C42_process (E : InstEnv) (steps : List PStep) (s r : InstSt) (hs : Sane s.st) (h : seqSteps (PStep.run E) steps s = (r, none)) (n : Str) :
    mget r.st.alias n = if n ∈ steps.map PStep.name then none else mget s.st.alias n := by
  induction steps generalizing s with
  | nil => simp only [seqSteps, Prod.mk.injEq, and_true] at h; subst h; simp
  | cons x xs ih =>
    simp only [seqSteps] at h
    cases hx : PStep.run E x s with
    | mk s1 e =>
      rw [hx] at h
      cases e with
      | some e => simp at h
      | none =>
        simp only at h
        have key : Sane s1.st ∧ ∀ n, mget s1.st.alias n = if n = x.name then none else mget s.st.alias n := by
          cases x with
          | file o a d m => obtain ⟨k1, k2, _⟩ := runFile_alias E o a d m s s1 hs hx; exact ⟨k1, k2⟩
          | delete l m => obtain ⟨k1, k2, _⟩ := deleteListed_alias l m s s1 hs hx; exact ⟨k1, k2⟩
        rw [ih s1 key.1 h, key.2]
        simp only [List.map_cons, List.mem_cons]
        by_cases h1 : n ∈ xs.map PStep.name <;> by_cases h2 : n = x.name <;> simp [h1, h2]

/-- An installed package stays installed in a process that does not delete it. -/
theorem process_installed (E : InstEnv) (steps : List PStep) (s r : InstSt) (hs : Sane s.st) (h : seqSteps (PStep.run E) steps s = (r, none)) (p : Str)
    (hp : ∀ l, PStep.delete l p ∉ steps) (hi : Installed s.st.disk p) : Installed r.st.disk p := by
  induction steps generalizing s with
  | nil => simp only [seqSteps, Prod.mk.injEq, and_true] at h; subst h; exact hi
  | cons x xs ih =>
    simp only [seqSteps] at h
    cases hx : PStep.run E x s with
    | mk s1 e =>
      rw [hx] at h
      cases e with
      | some e => simp at h
      | none =>
        simp only at h
        cases x with
        | file o a d m =>
          obtain ⟨k1, _, k3⟩ := runFile_alias E o a d m s s1 hs hx
          exact ih s1 k1 h (fun l hl => hp l (by simp [hl])) ((k3 p).mpr (Or.inr hi))
        | delete l m =>
          obtain ⟨k1, _, k3⟩ := deleteListed_alias l m s s1 hs hx
          refine ih s1 k1 h (fun l hl => hp l (by simp [hl])) ((k3 p).mpr ⟨?_, hi⟩)
          rintro rfl
          exact hp l (by simp)

/-- **C42** as far as it is true: at any time in a process of `cards install` or `cards upgrade` a reported name resolves to a package that is
installed, unless the name is an alias of a package this process has deleted. In particular a reported name that is no alias is that of an installed
package. -/
theorem C42_resolves_partial (E : InstEnv) (steps : List PStep) (s : Sys) (r s0 : InstSt) (hw : WF s.disk) (h0 : s0.st = load s false)
    (h : seqSteps (PStep.run E) steps s0 = (r, none)) (n p : Str) (hn : mget r.st.alias n = some p) :
    Called s.disk p n ∧ (Installed r.st.disk p ∨ (n ≠ p ∧ ∃ l, PStep.delete l p ∈ steps)) := by
  have hs : Sane s0.st := by rw [h0]; exact sane_load hw
  have hp := C42_process E steps s0 r hs h n
  rw [hn] at hp
  have hnot : n ∉ steps.map PStep.name := by
    intro hc; rw [if_pos hc] at hp; simp at hp
  rw [if_neg hnot, h0] at hp
  have hc := ((C42_resolves s false hw n p).mp hp.symm).1
  refine ⟨hc, ?_⟩
  by_cases hd : ∃ l, PStep.delete l p ∈ steps
  · obtain ⟨l, hl⟩ := hd
    refine Or.inr ⟨?_, l, hl⟩
    rintro rfl
    exact hnot (List.mem_map.mpr ⟨_, hl, rfl⟩)
  · left
    apply process_installed E steps s0 r hs h p (fun l hl => hd ⟨l, hl⟩)
    obtain ⟨i, hi, _⟩ := hc
    rw [h0]; exact ⟨i, hi⟩

/-! ## Cases -/

/-- `gcc` has the alias `cc`; `zz` has the alias `app`, the name of another package. -/
def aSys : Sys :=
  { fs := [], disk := [rPkg "app" [], rPkg "gcc" ["Acc", "Rlib1700000000"], rPkg "lib" ["d1"], rPkg "zz" ["Aapp"]] }

theorem aSys_wf : WF aSys.disk := by
  refine ⟨by decide, ?_⟩
  intro p hp
  simp only [aSys, List.mem_cons, List.not_mem_nil, or_false] at hp
  rcases hp with rfl | rfl | rfl | rfl <;> decide

/-- The hypotheses of `C42_resolves_partial` hold in a process that installs `mutt` and deletes `zz`; both kinds of name are left. -/
theorem aSys_process : ∃ r s0, s0.st = load aSys false ∧
    seqSteps (PStep.run (xInst [])) [.file xOpts (xArch "mutt" ["usr/", "usr/mutt"]) false none, .delete false "zz".toList] s0 = (r, none) ∧
    mget r.st.alias "cc".toList = some "gcc".toList ∧ mget r.st.alias "app".toList = some "zz".toList ∧
    keys r.st.disk = ["app".toList, "gcc".toList, "lib".toList, "mutt".toList] ∧ r.st.nameExists "mutt".toList = false :=
  ⟨_, { st := load aSys false, sess := xSess xDeps, count := 0 }, rfl, rfl, by decide +kernel, by decide +kernel, by decide +kernel, by decide +kernel⟩

/-- **C42 fails** for the aliases of a deleted package: `zz` is gone, `app` still resolves to it although `app` itself is installed; and a
package this process installed is not reported. -/
theorem C42_deleted_alias_counterexample : ∃ (r s0 : InstSt), WF aSys.disk ∧ s0.st = load aSys false ∧
    seqSteps (PStep.run (xInst [])) [.file xOpts (xArch "mutt" ["usr/", "usr/mutt"]) false none, .delete false "zz".toList] s0 = (r, none) ∧
    mget r.st.alias "app".toList = some "zz".toList ∧ ¬ Installed r.st.disk "zz".toList ∧ Installed r.st.disk "app".toList ∧
    Installed r.st.disk "mutt".toList ∧ r.st.nameExists "mutt".toList = false := by
  obtain ⟨r, s0, h1, h2, _, h3, h4, h5⟩ := aSys_process
  refine ⟨r, s0, aSys_wf, h1, h2, h3, ?_, ?_, ?_, h5⟩ <;> rw [← keys_iff_installed, h4] <;> decide

/-- **C42 fails** in `cards remove`: looking up an argument creates an entry for it. `cards remove gcc gcc.devel`, where `gcc.devel` is not
installed, takes `gcc` away, then tries to remove `gcc.devel`, reports that it cannot be read, and leaves the dependency `lib` of `gcc` behind. -/
theorem C42_remove_counterexample : ∃ s', WF aSys.disk ∧ ¬ Installed aSys.disk "gcc.devel".toList ∧
    cardsRemove (rEnv ["devel"]) ["gcc".toList, "gcc.devel".toList] aSys = some (s', some (.run .cannotRead)) ∧
    ¬ Installed s'.disk "gcc".toList ∧ Installed s'.disk "lib".toList := by
  refine ⟨_, aSys_wf, ?_, rfl, ?_, ?_⟩ <;> rw [← keys_iff_installed] <;> decide

end Cards.Props
