import Verif.Spec.LibCheck
import Verif.Props.RepoCmds
import Verif.Lemmas.Base
/-!
# C78: the missing-library check of `cards create <collection>`
-/
namespace Cards.Props
open Cards.Spec

theorem occurs_iff {pat s : Str} : Str.has s pat = true ↔ Occurs pat s := by
  rw [has_iff]
  constructor
  · rintro ⟨a, b, h⟩; exact ⟨a, b, h.symm⟩
  · rintro ⟨a, b, h⟩; exact ⟨a, b, h.symm⟩

/-- Every dependency recorded in the repository is itself in the repository. -/
def ClosedRepo (m : LibRepo) : Prop := ∀ n d, d ∈ (m.pkg n).deps → (mget m d).isSome

theorem touch_present {m : LibRepo} {d : Str} (h : (mget m d).isSome) : touchPkg d m = m := by
  unfold touchPkg
  obtain ⟨v, hv⟩ := Option.isSome_iff_exists.mp h
  rw [hv]

theorem touch_pkg (m : LibRepo) (d n : Str) : (touchPkg d m).pkg n = m.pkg n := by
  unfold touchPkg LibRepo.pkg
  cases hd : mget m d with
  | some v => rfl
  | none =>
    simp only
    rw [mget_mset]
    split
    · next h => subst h; rw [hd]; rfl
    · rfl

theorem touch_keeps (m : LibRepo) (d n : Str) (h : (mget m n).isSome) : (mget (touchPkg d m) n).isSome := by
  unfold touchPkg
  cases hd : mget m d with
  | some v => exact h
  | none =>
    simp only
    rw [mget_mset]
    split
    · rfl
    · exact h

/-- `m'` is `m` with, possibly, more entries that are empty. -/
def Padded (m m' : LibRepo) : Prop := (∀ n, m'.pkg n = m.pkg n) ∧ (∀ n, (mget m n).isSome → (mget m' n).isSome)

theorem padded_refl (m : LibRepo) : Padded m m := ⟨fun _ => rfl, fun _ h => h⟩

theorem padded_trans {a b c : LibRepo} (h1 : Padded a b) (h2 : Padded b c) : Padded a c :=
  ⟨fun n => (h2.1 n).trans (h1.1 n), fun n h => h2.2 n (h1.2 n h)⟩

theorem touch_padded (m : LibRepo) (d : Str) : Padded m (touchPkg d m) := ⟨touch_pkg m d, touch_keeps m d⟩

/-- The flag of the loop over the dependencies. -/
theorem depsHave_flag (lib : Str) : ∀ (ds : List Str) (found : Bool) (m : LibRepo),
    ((depsHave lib ds found m).1 = true ↔ found = true ∨ ∃ d ∈ ds, ∃ f ∈ (m.pkg d).files, Occurs ('/' :: lib) f)
  | [], found, m => by simp [depsHave]
  | d :: ds, found, m => by
    unfold depsHave
    simp only
    have hany : ((touchPkg d m).pkg d).files.any (fun f => Str.has f ('/' :: lib)) = true ↔ ∃ f ∈ (m.pkg d).files, Occurs ('/' :: lib) f := by
      rw [touch_pkg, List.any_eq_true]
      exact exists_congr fun f => and_congr_right fun _ => occurs_iff
    split
    · next h =>
      simp only [true_iff]
      rcases Bool.or_eq_true _ _ ▸ h with h | h
      · exact Or.inl h
      · exact Or.inr ⟨d, List.mem_cons_self .., hany.mp h⟩
    · next h =>
      rw [Bool.not_eq_true, Bool.or_eq_false_iff] at h
      rw [depsHave_flag lib ds]
      rw [h.1, h.2]
      simp only [Bool.or_self, Bool.false_eq_true, false_or, touch_pkg]
      constructor
      · rintro ⟨x, hx, hf⟩; exact ⟨x, List.mem_cons_of_mem _ hx, hf⟩
      · rintro ⟨x, hx, hf⟩
        rcases List.mem_cons.mp hx with rfl | hx
        · exact absurd (hany.mpr hf) (by rw [h.2]; exact Bool.false_ne_true)
        · exact ⟨x, hx, hf⟩

theorem depsHave_padded (lib : Str) : ∀ (ds : List Str) (found : Bool) (m : LibRepo), Padded m (depsHave lib ds found m).2
  | [], _, m => padded_refl m
  | d :: ds, found, m => by
    unfold depsHave
    simp only
    split
    · exact touch_padded m d
    · exact padded_trans (touch_padded m d) (depsHave_padded lib ds _ _)

theorem depsHave_closed (lib : Str) : ∀ (ds : List Str) (found : Bool) (m : LibRepo), (∀ d ∈ ds, (mget m d).isSome) → (depsHave lib ds found m).2 = m
  | [], _, _, _ => rfl
  | d :: ds, found, m, h => by
    unfold depsHave
    simp only
    rw [touch_present (h d (List.mem_cons_self ..))]
    split
    · rfl
    · exact depsHave_closed lib ds _ m (fun x hx => h x (List.mem_cons_of_mem _ hx))

theorem levelsHave_iff (T : Ports) (lvl : Nat) (m : LibRepo) (lib : Str) : levelsHave T lvl m lib = true ↔ NeededBelow T m lvl lib := by
  unfold levelsHave NeededBelow
  simp only [List.any_eq_true, List.mem_range, Bool.and_eq_true, decide_eq_true_eq, Bool.or_eq_true, List.contains_iff_mem]
  constructor
  · rintro ⟨l, hl, p, hp, ⟨hs, hlv⟩, h⟩
    refine ⟨p, hp, hlv ▸ hl, hs, ?_⟩
    rcases h with h | h
    · exact Or.inl h
    · exact Or.inr h.2
  · rintro ⟨p, hp, hl, hs, h⟩
    refine ⟨p.2.level, hl, p, hp, ⟨hs, rfl⟩, ?_⟩
    rcases h with h | h
    · exact Or.inl h
    · refine Or.inr ⟨?_, h⟩
      unfold LibRepo.pkg at h
      cases hg : mget m (libName p.1) with
      | some v => rfl
      | none => rw [hg] at h; simp at h

theorem or_shuffle {a d i l f n : Prop} : (((((a ∨ d) ∨ i) ∨ l) ∨ f) ∨ n) ↔ (a ∨ (d ∨ i ∨ f) ∨ l ∨ n) := by
  constructor
  · rintro (((((h | h) | h) | h) | h) | h) <;> simp [h]
  · rintro (h | (h | h | h) | h | h) <;> simp [h]

/-- One search: the flag after it, in terms of the repository `m1` it leaves behind. -/
theorem findLib_flag (T : Ports) (inst : List Str) (own : Str) (lvl : Nat) (dotLib : Bool) (lib : Str) (found : Bool) (m : LibRepo) :
    (findLib T inst own lvl dotLib lib found m).1 = true ↔
      found = true ∨ Shipped m inst own lib ∨ (dotLib = true ∧ lib ∈ (m.pkg (libName own)).libs) ∨ NeededBelow T (findLib T inst own lvl dotLib lib found m).2 lvl lib := by
  unfold findLib
  simp only [Bool.or_eq_true, Bool.and_eq_true, depsHave_flag, levelsHave_iff, (depsHave_padded lib _ _ m).1]
  have hi : installedHas inst lib = true ↔ ∃ f ∈ inst, Occurs lib f := by
    unfold installedHas
    rw [List.any_eq_true]
    exact exists_congr fun f => and_congr_right fun _ => occurs_iff
  have hf : (m.pkg own).files.any (fun f => Str.has f lib) = true ↔ ∃ f ∈ (m.pkg own).files, Occurs lib f := by
    rw [List.any_eq_true]
    exact exists_congr fun f => and_congr_right fun _ => occurs_iff
  have hd : ((dotLib = true ∧ (mget (depsHave lib (m.pkg own).deps found m).2 (libName own)).isSome = true) ∧ (m.pkg (libName own)).libs.contains lib = true) ↔
      (dotLib = true ∧ lib ∈ (m.pkg (libName own)).libs) := by
    rw [List.contains_iff_mem]
    constructor
    · rintro ⟨⟨a, -⟩, b⟩; exact ⟨a, b⟩
    · rintro ⟨a, b⟩
      refine ⟨⟨a, (depsHave_padded lib _ _ m).2 _ ?_⟩, b⟩
      unfold LibRepo.pkg at b
      cases hg : mget m (libName own) with
      | some v => rfl
      | none => rw [hg] at b; simp at b
  rw [hi, hf, hd]
  exact or_shuffle

theorem findLib_padded (T : Ports) (inst : List Str) (own : Str) (lvl : Nat) (dotLib : Bool) (lib : Str) (found : Bool) (m : LibRepo) :
    Padded m (findLib T inst own lvl dotLib lib found m).2 := depsHave_padded lib _ _ m

theorem findLib_closed {m : LibRepo} (hc : ClosedRepo m) (T : Ports) (inst : List Str) (own : Str) (lvl : Nat) (dotLib : Bool) (lib : Str) (found : Bool) :
    (findLib T inst own lvl dotLib lib found m).2 = m := depsHave_closed lib _ _ m (hc own)

theorem neededBelow_padded {T : Ports} {m m' : LibRepo} (h : Padded m m') {lvl : Nat} {lib : Str} (hn : NeededBelow T m lvl lib) : NeededBelow T m' lvl lib := by
  obtain ⟨p, hp, hl, hs, ho⟩ := hn
  refine ⟨p, hp, hl, h.2 _ hs, ?_⟩
  rw [h.1, h.1]
  exact ho

theorem shipped_padded {m m' : LibRepo} (h : Padded m m') {inst : List Str} {own lib : Str} : Shipped m' inst own lib ↔ Shipped m inst own lib := by
  unfold Shipped
  simp only [h.1]

/-! ## The libraries of the port itself -/

/-- What passes for a library of the port `i` itself: also that `i.lib` needs it. -/
def OwnTraced (T : Ports) (m : LibRepo) (inst : List Str) (i lib : Str) : Prop :=
  Traced T m inst i (portLevel T i) lib ∨ lib ∈ (m.pkg (libName i)).libs

theorem checkOwn_closed {m : LibRepo} (hc : ClosedRepo m) (T : Ports) (inst : List Str) (i : Str) :
    ∀ (ls : List Str), (checkOwn T inst i (portLevel T i) ls m).2 = m ∧
      ∀ o, (checkOwn T inst i (portLevel T i) ls m).1 = o ↔
        (match o with
        | none => ∀ lib ∈ ls, OwnTraced T m inst i lib
        | some lib => ∃ a b, ls = a ++ lib :: b ∧ (∀ x ∈ a, OwnTraced T m inst i x) ∧ ¬ OwnTraced T m inst i lib)
  | [] => by
    refine ⟨rfl, ?_⟩
    intro o
    cases o with
    | none => simp [checkOwn]
    | some lib => simp [checkOwn]
  | x :: ls => by
    have hm := findLib_closed hc T inst i (portLevel T i) true x false
    have hx : (findLib T inst i (portLevel T i) true x false m).1 = true ↔ OwnTraced T m inst i x := by
      rw [findLib_flag, hm]
      unfold OwnTraced Traced
      simp only [Bool.false_eq_true, false_or, true_and]
      tauto
    obtain ⟨ih2, ih1⟩ := checkOwn_closed hc T inst i ls
    unfold checkOwn
    simp only
    rw [hm]
    by_cases h : OwnTraced T m inst i x
    · rw [if_pos (hx.mpr h)]
      refine ⟨ih2, ?_⟩
      intro o
      rw [ih1 o]
      cases o with
      | none =>
        simp only [List.mem_cons]
        constructor
        · rintro hl lib (rfl | hlib)
          · exact h
          · exact hl lib hlib
        · intro hl lib hlib; exact hl lib (Or.inr hlib)
      | some lib =>
        simp only
        constructor
        · rintro ⟨a, b, rfl, ha, hb⟩
          refine ⟨x :: a, b, rfl, ?_, hb⟩
          intro y hy
          rcases List.mem_cons.mp hy with rfl | hy
          · exact h
          · exact ha y hy
        · rintro ⟨a, b, he, ha, hb⟩
          cases a with
          | nil =>
            simp only [List.nil_append, List.cons.injEq] at he
            exact absurd (he.1 ▸ h) hb
          | cons a0 a =>
            simp only [List.cons_append, List.cons.injEq] at he
            exact ⟨a, b, he.2, fun y hy => ha y (List.mem_cons_of_mem _ hy), hb⟩
    · rw [if_neg (fun hh => h (hx.mp hh))]
      refine ⟨rfl, ?_⟩
      intro o
      cases o with
      | none =>
        simp only [reduceCtorEq, List.mem_cons, false_iff]
        intro hl
        exact h (hl x (Or.inl rfl))
      | some lib =>
        simp only [Option.some.injEq]
        constructor
        · rintro rfl
          exact ⟨[], ls, rfl, by simp, h⟩
        · rintro ⟨a, b, he, ha, hb⟩
          cases a with
          | nil =>
            simp only [List.nil_append, List.cons.injEq] at he
            exact he.1
          | cons a0 a =>
            simp only [List.cons_append, List.cons.injEq] at he
            exact absurd (he.1 ▸ ha a0 (List.mem_cons_self ..)) h

/-! ## The `.lib` package -/

theorem checkDotLib_found (T : Ports) (inst : List Str) (iLib : Str) (lvl : Nat) :
    ∀ (ls : List Str) (m : LibRepo), (checkDotLib T inst iLib lvl ls true m).1.1 = true
  | [], _ => rfl
  | lib :: ls, m => by
    unfold checkDotLib
    simp only
    rw [if_pos ((findLib_flag T inst iLib lvl false lib true m).mpr (Or.inl rfl))]
    exact checkDotLib_found T inst iLib lvl ls _

/-- The whole check of one port, when every recorded dependency is in the repository. -/
theorem C78_report_exact_partial {m : LibRepo} (hc : ClosedRepo m) (T : Ports) (inst : List Str) (i : Str) :
    (libReport T inst i m).1 = none ↔
      (∀ lib ∈ (m.pkg i).libs, OwnTraced T m inst i lib) ∧
      ((mget m (libName i)).isSome → ∃ lib ls, (m.pkg (libName i)).libs = lib :: ls ∧ Traced T m inst (libName i) (portLevel T i) lib) := by
  obtain ⟨h2, h1⟩ := checkOwn_closed hc T inst i (m.pkg i).libs
  unfold libReport
  simp only
  cases ho : (checkOwn T inst i (portLevel T i) (m.pkg i).libs m).1 with
  | some lib =>
    have hs := (h1 (some lib)).mp ho
    simp only [reduceCtorEq, false_iff, not_and]
    intro hall
    obtain ⟨a, b, he, -, hn⟩ := hs
    exact absurd (hall lib (by rw [he]; simp)) hn
  | none =>
    have hs := (h1 none).mp ho
    simp only at hs ⊢
    rw [h2]
    by_cases hp : (mget m (libName i)).isSome
    · rw [if_pos hp]
      cases hl : (m.pkg (libName i)).libs with
      | nil =>
        simp only [checkDotLib, Bool.false_eq_true, if_false, reduceCtorEq, false_iff, not_and]
        intro _ hh
        obtain ⟨lib, ls, he, -⟩ := hh hp
        exact absurd he (by simp)
      | cons lib ls =>
        have hx : (findLib T inst (libName i) (portLevel T i) false lib false m).1 = true ↔ Traced T m inst (libName i) (portLevel T i) lib := by
          rw [findLib_flag, findLib_closed hc]
          unfold Traced
          simp
        unfold checkDotLib
        simp only
        by_cases ht : Traced T m inst (libName i) (portLevel T i) lib
        · rw [if_pos (hx.mpr ht), checkDotLib_found]
          simp only [if_true, true_iff]
          exact ⟨hs, fun _ => ⟨lib, ls, rfl, ht⟩⟩
        · rw [if_neg (fun hh => ht (hx.mp hh))]
          simp only [Bool.false_eq_true, if_false, reduceCtorEq, false_iff, not_and]
          intro _ hh
          obtain ⟨lib', ls', he, ht'⟩ := hh hp
          simp only [List.cons.injEq] at he
          exact ht (he.1 ▸ ht')
    · rw [if_neg hp]
      simp only [true_iff]
      exact ⟨hs, fun h => absurd h hp⟩

/-- The library named in the line is the first one, in the order of the set, for which nothing was found; the case of a port without `.lib` package. -/
theorem C78_names_first {m : LibRepo} (hc : ClosedRepo m) (T : Ports) (inst : List Str) (i lib : Str) (hno : ¬ (mget m (libName i)).isSome) :
    (libReport T inst i m).1 = some lib ↔
      ∃ a b, (m.pkg i).libs = a ++ lib :: b ∧ (∀ x ∈ a, Traced T m inst i (portLevel T i) x) ∧ ¬ Traced T m inst i (portLevel T i) lib := by
  have hempty : (m.pkg (libName i)).libs = [] := by
    unfold LibRepo.pkg
    cases hg : mget m (libName i) with
    | some v => rw [hg] at hno; exact absurd rfl hno
    | none => rfl
  have htr : ∀ x, OwnTraced T m inst i x ↔ Traced T m inst i (portLevel T i) x := by
    intro x
    unfold OwnTraced
    rw [hempty]
    simp
  obtain ⟨h2, h1⟩ := checkOwn_closed hc T inst i (m.pkg i).libs
  have h := h1 (some lib)
  simp only [htr] at h
  rw [← h]
  unfold libReport
  simp only
  cases ho : (checkOwn T inst i (portLevel T i) (m.pkg i).libs m).1 with
  | some l => simp
  | none =>
    simp only
    rw [h2, if_neg hno]

/-! ## Without the hypothesis on the repository -/

theorem touch_present_iff (m : LibRepo) (d n : Str) (h : (mget (touchPkg d m) n).isSome) : (mget m n).isSome ∨ n = d := by
  unfold touchPkg at h
  cases hd : mget m d with
  | some v => rw [hd] at h; exact Or.inl h
  | none =>
    rw [hd] at h
    simp only at h
    rw [mget_mset] at h
    by_cases hn : d = n
    · exact Or.inr hn.symm
    · rw [if_neg hn] at h; exact Or.inl h

theorem depsHave_present (lib : Str) (n : Str) : ∀ (ds : List Str) (found : Bool) (m : LibRepo),
    (mget (depsHave lib ds found m).2 n).isSome → (mget m n).isSome ∨ n ∈ ds
  | [], _, _, h => Or.inl h
  | d :: ds, found, m, h => by
    unfold depsHave at h
    simp only at h
    have key : (mget (touchPkg d m) n).isSome ∨ n ∈ ds := by
      split at h
      · exact Or.inl h
      · exact depsHave_present lib n ds _ _ h
    rcases key with h | h
    · rcases touch_present_iff m d n h with h | h
      · exact Or.inl h
      · exact Or.inr (h ▸ List.mem_cons_self ..)
    · exact Or.inr (List.mem_cons_of_mem _ h)

theorem checkOwn_any (T : Ports) (inst : List Str) (i : Str) (m : LibRepo) : ∀ (ls : List Str) (m' : LibRepo), Padded m m' →
    (∀ n, (mget m' n).isSome → (mget m n).isSome ∨ n ∈ (m.pkg i).deps) →
    (∀ lib, (checkOwn T inst i (portLevel T i) ls m').1 = some lib → lib ∈ ls ∧ ¬ OwnTraced T m inst i lib) ∧
    (∀ n, (mget (checkOwn T inst i (portLevel T i) ls m').2 n).isSome → (mget m n).isSome ∨ n ∈ (m.pkg i).deps)
  | [], m', _, hd => ⟨fun lib h => by simp [checkOwn] at h, hd⟩
  | x :: ls, m', hp, hd => by
    have hp' := padded_trans hp (findLib_padded T inst i (portLevel T i) true x false m')
    have hd' : ∀ n, (mget (findLib T inst i (portLevel T i) true x false m').2 n).isSome → (mget m n).isSome ∨ n ∈ (m.pkg i).deps := by
      intro n h
      rcases depsHave_present x n _ _ _ h with h | h
      · exact hd n h
      · rw [hp.1] at h; exact Or.inr h
    unfold checkOwn
    simp only
    split
    · obtain ⟨h1, h2⟩ := checkOwn_any T inst i m ls _ hp' hd'
      refine ⟨fun lib h => ?_, h2⟩
      obtain ⟨a, b⟩ := h1 lib h
      exact ⟨List.mem_cons_of_mem _ a, b⟩
    · next hf =>
      refine ⟨fun lib h => ?_, hd'⟩
      simp only [Option.some.injEq] at h
      subst h
      refine ⟨List.mem_cons_self .., fun ht => hf ?_⟩
      rw [findLib_flag]
      right
      rcases ht with (ht | ht) | ht
      · exact Or.inl ((shipped_padded hp).mpr ht)
      · exact Or.inr (Or.inr (neededBelow_padded hp' ht))
      · refine Or.inr (Or.inl ⟨rfl, ?_⟩)
        rw [hp.1]; exact ht

/-- No false alarm, whatever the repository: for a port without `.lib` package the library named is needed by the port and nothing traces it. -/
theorem C78_no_false_alarm (T : Ports) (inst : List Str) (i lib : Str) (m : LibRepo)
    (hno : ¬ (mget m (libName i)).isSome) (hdep : libName i ∉ (m.pkg i).deps)
    (h : (libReport T inst i m).1 = some lib) :
    lib ∈ (m.pkg i).libs ∧ ¬ Traced T m inst i (portLevel T i) lib := by
  obtain ⟨h1, h2⟩ := checkOwn_any T inst i m (m.pkg i).libs m (padded_refl m) (fun n h => Or.inl h)
  unfold libReport at h
  simp only at h
  cases ho : (checkOwn T inst i (portLevel T i) (m.pkg i).libs m).1 with
  | some l =>
    rw [ho] at h
    simp only [Option.some.injEq] at h
    obtain ⟨a, b⟩ := h1 lib (h ▸ ho)
    exact ⟨a, fun ht => b (Or.inl ht)⟩
  | none =>
    rw [ho] at h
    simp only at h
    rw [if_neg] at h
    · exact absurd h (by simp)
    · intro hs
      rcases h2 _ hs with hs | hs
      · exact hno hs
      · exact hdep hs

/-! ## The whole run -/

theorem checkDotLib_closed {m : LibRepo} (hc : ClosedRepo m) (T : Ports) (inst : List Str) (iLib : Str) (lvl : Nat) :
    ∀ (ls : List Str) (found : Bool), (checkDotLib T inst iLib lvl ls found m).2 = m
  | [], _ => rfl
  | lib :: ls, found => by
    unfold checkDotLib
    simp only
    rw [findLib_closed hc]
    split
    · exact checkDotLib_closed hc T inst iLib lvl ls true
    · rfl

theorem libReport_closed {m : LibRepo} (hc : ClosedRepo m) (T : Ports) (inst : List Str) (i : Str) : (libReport T inst i m).2 = m := by
  obtain ⟨h2, -⟩ := checkOwn_closed hc T inst i (m.pkg i).libs
  unfold libReport
  simp only
  split
  · exact h2
  · split
    · rw [checkDotLib_closed (by rw [h2]; exact hc)]; exact h2
    · exact h2

/-- The lines of a run are the lines of the single checks: the checks do not disturb one another. -/
theorem C78_run {m : LibRepo} (hc : ClosedRepo m) (T : Ports) (inst : List Str) (i lib : Str) :
    ∀ (is : List Str), (i, lib) ∈ libReports T inst is m ↔ i ∈ is ∧ (libReport T inst i m).1 = some lib
  | [] => by simp [libReports]
  | x :: is => by
    have ih := C78_run hc T inst i lib is
    unfold libReports
    simp only
    rw [libReport_closed hc]
    cases hx : (libReport T inst x m).1 with
    | none =>
      simp only
      rw [ih, List.mem_cons]
      constructor
      · rintro ⟨a, b⟩; exact ⟨Or.inr a, b⟩
      · rintro ⟨rfl | a, b⟩
        · rw [hx] at b; exact absurd b (by simp)
        · exact ⟨a, b⟩
    | some l =>
      simp only [List.mem_cons, Prod.mk.injEq]
      rw [ih]
      constructor
      · rintro (⟨rfl, rfl⟩ | ⟨a, b⟩)
        · exact ⟨Or.inl rfl, hx⟩
        · exact ⟨Or.inr a, b⟩
      · rintro ⟨rfl | a, b⟩
        · rw [hx] at b
          exact Or.inl ⟨rfl, (Option.some.inj b).symm⟩
        · exact Or.inr ⟨a, b⟩

/-- When no port is reported, every library a port needs is in a file that some port, or the installed system, has, or some `.lib` package needs it too:
the search among the needs of the lower levels does not go round in circles. -/
theorem C78_grounded {T : Ports} (hT : MSorted T) {m : LibRepo} (hc : ClosedRepo m) (inst : List Str)
    (hall : ∀ p ∈ T, (mget m p.1).isSome → (libReport T inst p.1 m).1 = none) :
    ∀ (p : Str × Port), p ∈ T → (mget m p.1).isSome → ∀ lib ∈ (m.pkg p.1).libs,
      ∃ q ∈ T, q.2.level ≤ p.2.level ∧ (Shipped m inst q.1 lib ∨ lib ∈ (m.pkg (libName q.1)).libs) := by
  have key : ∀ (k : Nat) (p : Str × Port), p.2.level = k → p ∈ T → (mget m p.1).isSome → ∀ lib ∈ (m.pkg p.1).libs,
      ∃ q ∈ T, q.2.level ≤ p.2.level ∧ (Shipped m inst q.1 lib ∨ lib ∈ (m.pkg (libName q.1)).libs) := by
    intro k
    induction k using Nat.strongRecOn with
    | ind k ih =>
      intro p hk hp hs lib hlib
      obtain ⟨hown, -⟩ := (C78_report_exact_partial hc T inst p.1).mp (hall p hp hs)
      have hlv : portLevel T p.1 = p.2.level := by
        unfold portLevel
        rw [(mget_iff_mem hT).mpr hp]
      rcases hown lib hlib with (h | h) | h
      · exact ⟨p, hp, Nat.le_refl _, Or.inl h⟩
      · obtain ⟨q, hq, hl, hqs, hn⟩ := h
        rw [hlv] at hl
        rcases hn with hn | hn
        · obtain ⟨r, hr, hrl, hrs⟩ := ih q.2.level (hk ▸ hl) q rfl hq hqs lib hn
          exact ⟨r, hr, Nat.le_trans hrl (Nat.le_of_lt hl), hrs⟩
        · exact ⟨q, hq, Nat.le_of_lt hl, Or.inr hn⟩
      · exact ⟨p, hp, Nat.le_refl _, Or.inr h⟩
  intro p hp
  exact key p.2.level p rfl hp

/-- In a tree without `.lib` packages: a run without a line means that a file is known for each needed library. -/
theorem C78_grounded_plain {T : Ports} (hT : MSorted T) {m : LibRepo} (hc : ClosedRepo m) (inst : List Str)
    (hplain : ∀ p ∈ T, (mget m (libName p.1)) = none) (is : List Str) (his : ∀ p ∈ T, (mget m p.1).isSome → p.1 ∈ is) (hrun : libReports T inst is m = []) :
    ∀ (p : Str × Port), p ∈ T → (mget m p.1).isSome → ∀ lib ∈ (m.pkg p.1).libs, ∃ q ∈ T, q.2.level ≤ p.2.level ∧ Shipped m inst q.1 lib := by
  have hall : ∀ p ∈ T, (mget m p.1).isSome → (libReport T inst p.1 m).1 = none := by
    intro p hp hs
    cases h : (libReport T inst p.1 m).1 with
    | none => rfl
    | some lib =>
      have := (C78_run hc T inst p.1 lib is).mpr ⟨his p hp hs, h⟩
      rw [hrun] at this
      exact absurd this (by simp)
  intro p hp hs lib hlib
  obtain ⟨q, hq, hl, h | h⟩ := C78_grounded hT hc inst hall p hp hs lib hlib
  · exact ⟨q, hq, hl, h⟩
  · unfold LibRepo.pkg at h
    rw [hplain q hq] at h
    exact absurd h (by simp)

/-! ## Examples and counterexamples -/

/-- `zlib` at level 0 ships `libz.so.1`, `app` at level 1 needs it. -/
def xTree : Ports := [("app".toList, ⟨"base".toList, "1".toList, 1, 1, ["zlib".toList], [0], 0, 0, 1⟩), ("zlib".toList, ⟨"base".toList, "1".toList, 1, 0, [], [], 0, 0, 0⟩)]

def xGood : LibRepo := [("app".toList, ⟨["zlib".toList], ["libz.so.1".toList], ["usr/bin/app".toList]⟩),
  ("zlib".toList, ⟨[], [], ["usr/lib/libz.so.1".toList]⟩)]

/-- The same with a `zlib` that ships `libz.so.2` only. -/
def xStale : LibRepo := [("app".toList, ⟨["zlib".toList], ["libz.so.1".toList], ["usr/bin/app".toList]⟩),
  ("zlib".toList, ⟨[], [], ["usr/lib/libz.so.2".toList]⟩)]

example : libReports xTree [] ["zlib".toList, "app".toList] xGood = [] ∧
    libReports xTree [] ["zlib".toList, "app".toList] xStale = [("app".toList, "libz.so.1".toList)] := by decide +kernel

theorem closed_of_all {m : LibRepo} (h : ∀ p ∈ m, ∀ d ∈ p.2.deps, (mget m d).isSome) : ClosedRepo m := by
  intro n d hd
  unfold LibRepo.pkg at hd
  cases hg : mget m n with
  | none => rw [hg] at hd; exact absurd hd (by simp)
  | some v =>
    rw [hg] at hd
    exact h (n, v) (mget_some_mem hg) d hd

example : ClosedRepo xGood ∧ ClosedRepo xStale ∧ MSorted xTree :=
  ⟨closed_of_all (by decide +kernel), closed_of_all (by decide +kernel), by unfold MSorted Sorted; decide +kernel⟩

/-- A library whose name begins like the needed one passes for it. -/
theorem C78_prefix_counterexample :
    ∃ m : LibRepo, ClosedRepo m ∧ "libz.so.1".toList ∈ (m.pkg "app".toList).libs ∧
      (∀ n, ∀ f ∈ (m.pkg n).files, ¬ "/libz.so.1".toList <:+ f) ∧ libReports xTree [] ["zlib".toList, "app".toList] m = [] := by
  refine ⟨[("app".toList, ⟨["zlib".toList], ["libz.so.1".toList], []⟩), ("zlib".toList, ⟨[], [], ["usr/lib/libz.so.10".toList]⟩)],
    closed_of_all (by decide +kernel), by decide +kernel, ?_, by decide +kernel⟩
  intro n f hf
  unfold LibRepo.pkg at hf
  have hall : ∀ p ∈ ([("app".toList, ⟨["zlib".toList], ["libz.so.1".toList], []⟩), ("zlib".toList, ⟨[], [], ["usr/lib/libz.so.10".toList]⟩)] : LibRepo),
      ∀ f ∈ p.2.files, ¬ "/libz.so.1".toList <:+ f := by decide +kernel
  cases hg : mget ([("app".toList, ⟨["zlib".toList], ["libz.so.1".toList], []⟩), ("zlib".toList, ⟨[], [], ["usr/lib/libz.so.10".toList]⟩)] : LibRepo) n with
  | none => rw [hg] at hf; exact absurd hf (by simp)
  | some v => rw [hg] at hf; exact hall (n, v) (mget_some_mem hg) f hf

/-- Of the libraries of a `.lib` package only the first is looked for: a later one that is nowhere is not reported. -/
theorem C78_dotlib_counterexample :
    ∃ m : LibRepo, ClosedRepo m ∧ "libgone.so".toList ∈ (m.pkg "app.lib".toList).libs ∧
      ¬ Traced xTree m [] "app.lib".toList 1 "libgone.so".toList ∧ (libReport xTree [] "app".toList m).1 = none := by
  refine ⟨[("app".toList, ⟨[], [], []⟩), ("app.lib".toList, ⟨["zlib".toList], ["liba.so".toList, "libgone.so".toList], ["usr/lib/liba.so".toList]⟩), ("zlib".toList, ⟨[], [], []⟩)],
    closed_of_all (by decide +kernel), by decide +kernel, ?_, by decide +kernel⟩
  have h := (findLib_flag xTree [] "app.lib".toList 1 false "libgone.so".toList false
    [("app".toList, ⟨[], [], []⟩), ("app.lib".toList, ⟨["zlib".toList], ["liba.so".toList, "libgone.so".toList], ["usr/lib/liba.so".toList]⟩), ("zlib".toList, ⟨[], [], []⟩)]).not.mp (by decide +kernel)
  intro ht
  rw [findLib_closed (closed_of_all (by decide +kernel))] at h
  rcases ht with ht | ht
  · exact h (Or.inr (Or.inl ht))
  · exact h (Or.inr (Or.inr (Or.inr ht)))

/-- A port whose `.lib` package needs no library is reported, with an empty name. -/
theorem C78_empty_dotlib_counterexample :
    ∃ m : LibRepo, ClosedRepo m ∧ (m.pkg "app".toList).libs = [] ∧ (m.pkg "app.lib".toList).libs = [] ∧
      (libReport xTree [] "app".toList m).1 = some [] :=
  ⟨[("app".toList, ⟨[], [], []⟩), ("app.lib".toList, ⟨[], [], []⟩)], closed_of_all (by decide +kernel), by decide +kernel, by decide +kernel, by decide +kernel⟩

/-- A `.lib` package which exists only as an unmet dependency makes the check report a port all of whose libraries are there. -/
theorem C78_phantom_counterexample :
    ∃ m : LibRepo, mget m "app.lib".toList = none ∧ (∀ lib ∈ (m.pkg "app".toList).libs, Traced xTree m [] "app".toList (portLevel xTree "app".toList) lib) ∧
      libReports xTree [] ["app".toList] m = [("app".toList, [])] := by
  refine ⟨[("app".toList, ⟨["app.lib".toList], ["libb.so".toList], ["usr/lib/libb.so".toList]⟩)], by decide +kernel, ?_, by decide +kernel⟩
  intro lib hl
  have hl : lib = "libb.so".toList := List.mem_singleton.mp hl
  subst hl
  exact Or.inl (Or.inr (Or.inr ⟨"usr/lib/libb.so".toList, List.mem_singleton.mpr rfl, "usr/lib/".toList, [], rfl⟩))

/-- A library that nobody has any more is reported for the port of the lowest level that needs it only. -/
theorem C78_lowest_only_counterexample :
    ∃ m : LibRepo, ClosedRepo m ∧ (∀ n ∈ ["app".toList, "zlib".toList], "libgone.so".toList ∈ (m.pkg n).libs ∧ ¬ Shipped m [] n "libgone.so".toList) ∧
      libReports xTree [] ["zlib".toList, "app".toList] m = [("zlib".toList, "libgone.so".toList)] := by
  refine ⟨[("app".toList, ⟨["zlib".toList], ["libgone.so".toList], []⟩), ("zlib".toList, ⟨[], ["libgone.so".toList], []⟩)],
    closed_of_all (by decide +kernel), ?_, by decide +kernel⟩
  intro n hn
  have hfl : ∀ n ∈ ["app".toList, "zlib".toList], ¬ (findLib [] [] n 0 false "libgone.so".toList false
      [("app".toList, ⟨["zlib".toList], ["libgone.so".toList], []⟩), ("zlib".toList, ⟨[], ["libgone.so".toList], []⟩)]).1 = true := by decide +kernel
  have hin : ∀ n ∈ ["app".toList, "zlib".toList], "libgone.so".toList ∈ (LibRepo.pkg
      [("app".toList, ⟨["zlib".toList], ["libgone.so".toList], []⟩), ("zlib".toList, ⟨[], ["libgone.so".toList], []⟩)] n).libs := by decide +kernel
  exact ⟨hin n hn, fun hs => hfl n hn ((findLib_flag ..).mpr (Or.inr (Or.inl hs)))⟩

end Cards.Props
