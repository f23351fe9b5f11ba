import Verif.Spec.Resolve
import Verif.Lemmas.Base
import Mathlib.Tactic.Common
import Mathlib.Logic.Hydra
import Mathlib.Data.Finset.Card
/-!
# C22, C23, C25: up-to-date decisions, dependency resolution, verification
-/
namespace Cards.Props
open Cards

/-! ### C25 -/

/-- **C25.** A package is up to date against an archive exactly when it is installed with the same version and release, not built before it, and
from the same collection when both are known. -/
theorem C25_uptodate (db : InstDb) (a : ArchMeta) : upToDate db a = true ↔ Current db a := by
  unfold upToDate Current
  cases h : mget db a.name with
  | none => simp
  | some i =>
    simp only [Option.some.injEq, exists_eq_left']
    by_cases h1 : i.version = a.version
    · by_cases h2 : (i.release : Int) = a.release
      · by_cases h3 : i.build < a.build
        · simp [h1, h2, h3]
        · by_cases h4 : i.collection = []
          · simp [h1, h2, h3, h4]; omega
          · by_cases h5 : a.collection = []
            · simp [h1, h2, h3, h4, h5]; omega
            · by_cases h6 : i.collection = a.collection
              · simp [h1, h2, h3, h5, h6]; omega
              · simp [h1, h2, h3, h4, h5, h6]
      · simp [h1, h2]
    · simp [h1]

/-- **C25.** A dependency is fulfilled exactly when its build date is known and the package is installed and not older. -/
theorem C25_dependency (db : InstDb) (d : Str × Nat) : dateSame db d = true ↔ Satisfied db d := by
  unfold dateSame Satisfied
  by_cases h0 : d.2 = 0
  · simp [h0]
  · rw [if_neg h0]
    cases h : mget db d.1 with
    | none => simp
    | some i =>
      simp only [Option.some.injEq, exists_eq_left']
      by_cases h3 : i.build < d.2
      · simp [h3]
      · simp [h0, h3]; omega

/-- The installed database of the examples. -/
def xDb : InstDb := [("glibc".toList, ⟨"2.39".toList, 1, 1700000000, "base".toList, [], false, 0⟩)]

example : upToDate xDb ⟨"glibc".toList, "2.39".toList, 1, 1690000000, [], []⟩ = true := by decide +kernel
example : dateSame xDb ("glibc".toList, 1700000000) = true ∧ dateSame xDb ("glibc".toList, 1700000001) = false := by decide +kernel

theorem notSame_iff {db : InstDb} {d : Str × Nat} : dateSame db d = false ↔ ¬ Satisfied db d := by
  rw [← C25_dependency]; simp

theorem notUpToDate_iff {db : InstDb} {a : ArchMeta} : upToDate db a = false ↔ ¬ Current db a := by
  rw [← C25_uptodate]; simp

/-! ### Sets of dependencies -/

theorem mem_dinsert {x y : Str × Nat} {l : List (Str × Nat)} : y ∈ dinsert x l ↔ y = x ∨ y ∈ l := by
  induction l with
  | nil => simp [dinsert]
  | cons z l ih =>
    unfold dinsert
    split
    · rename_i e; subst e; simp
    · split
      · simp
      · simp only [List.mem_cons, ih]; tauto

theorem mem_dofList {y : Str × Nat} {l : List (Str × Nat)} : y ∈ dofList l ↔ y ∈ l := by
  have : ∀ (l acc : List (Str × Nat)), y ∈ l.foldl (fun s x => dinsert x s) acc ↔ y ∈ acc ∨ y ∈ l := by
    intro l
    induction l with
    | nil => simp
    | cons z l ih =>
      intro acc
      rw [List.foldl_cons, ih, mem_dinsert, List.mem_cons]
      tauto
  unfold dofList
  rw [this]
  simp

/-! ### One pass -/

section
variable {net : Net} {A : Str → ArchMeta}

/-- What holds during resolution: the files do not change, and what was seen is not up to date. -/
structure Fine (net : Net) (A : Str → ArchMeta) (files : List (Str × Str)) (s : ResSt) : Prop where
  files : s.files = files
  cached : ∀ n ∈ s.cached, n ∈ keys net.repo ∧ ¬ Current net.db (A n)

theorem mem_keys_iff {α} {m : List (Str × α)} {n : Str} : n ∈ keys m ↔ ∃ p, mget m n = some p := by
  have := mget_none_iff (m := m) (k := n)
  cases h : mget m n with
  | none => simp [this.1 h]
  | some p => simp only [Option.some.injEq, exists_eq', iff_true]; by_contra hc; rw [this.2 hc] at h; simp at h

theorem fetch_fine {files : List (Str × Str)} (ho : InOrder net files A) {s : ResSt} (hs : s.files = files) {n : Str} {p : RepoPkg}
    (hp : mget net.repo n = some p) : fetchAndCheck net p n s = .ok s := by
  obtain ⟨c, h1, h2, _⟩ := ho n p hp
  unfold fetchAndCheck
  by_cases hu : net.url = []
  · rw [if_pos hu]
  · obtain ⟨h3, h4⟩ := h2 hu
    have e1 : ensureFile net p n s = .ok s := by unfold ensureFile; rw [hs, h1]; rfl
    have e2 : recheckFile net p n s = .ok s := by unfold recheckFile; rw [hs, h1]; simp only [h3, if_true]
    have e3 : checkSign net p n s = .ok s := by unfold checkSign; rw [hs, h1]; simp only [h4]
    rw [if_neg hu, e1]
    show recheckFile net p n s >>= checkSign net p n = _
    rw [e2]
    exact e3

/-- The dependencies looked at: those asked for, besides the package itself and fulfilled ones. -/
theorem directDeps_fine {files : List (Str × Str)} (ho : InOrder net files A) {s : ResSt} (hs : Fine net A files s) {n : Str}
    (hn : n ∈ keys net.repo) :
    ∃ s' deps, directDeps net n s = .ok (s', deps) ∧ Fine net A files s' ∧ s'.work = s.work ∧ s'.out = s.out ∧
      (∀ d, d ∈ deps ∧ d.1 ≠ n ∧ dateSame net.db d = false ↔ Asks net A n d) := by
  obtain ⟨p, hp⟩ := mem_keys_iff.1 hn
  obtain ⟨c, h1, _, h3, h4, h5⟩ := ho n p hp
  unfold directDeps
  by_cases hc : s.cached.contains n = true
  · rw [if_pos hc, hp]
    refine ⟨s, p.deps, rfl, hs, rfl, rfl, fun d => ?_⟩
    have := hs.cached n (by simpa using hc)
    unfold Asks
    rw [notSame_iff]
    constructor
    · rintro ⟨a, b, e⟩; exact ⟨hn, this.2, (h5 d b).1 a, b, e⟩
    · rintro ⟨_, _, a, b, e⟩; exact ⟨(h5 d b).2 a, b, e⟩
  · rw [if_neg hc, hp]
    simp only
    rw [fetch_fine ho hs.files hp]
    show ∃ s' deps, packageDependencies net p n s = .ok (s', deps) ∧ _
    unfold packageDependencies
    rw [hs.files, h1]
    simp only
    rw [h3]
    simp only
    by_cases hu : upToDate net.db (A n) = true
    · rw [if_pos hu]
      refine ⟨s, [], rfl, hs, rfl, rfl, fun d => ?_⟩
      constructor
      · rintro ⟨a, _⟩; simp at a
      · rintro ⟨_, a, _⟩; exact absurd ((C25_uptodate _ _).1 hu) a
    · rw [if_neg hu]
      have hu' : ¬ Current net.db (A n) := fun h => hu ((C25_uptodate _ _).2 h)
      refine ⟨_, _, rfl, ⟨rfl, ?_⟩, rfl, rfl, fun d => ?_⟩
      · intro m hm
        rw [h4] at hm
        rcases mem_sinsert.1 hm with rfl | hm
        · exact ⟨hn, hu'⟩
        · exact hs.cached m hm
      · rw [List.mem_filter]
        unfold Asks ArchMeta.depSet
        rw [notSame_iff, mem_dofList, List.mem_cons]
        constructor
        · rintro ⟨⟨a, _⟩, b, e⟩
          refine ⟨hn, hu', a.resolve_left ?_, b, e⟩
          rintro rfl
          exact b h4
        · rintro ⟨_, _, a, b, e⟩
          exact ⟨⟨Or.inr a, by rw [notSame_iff.2 e]; rfl⟩, b, e⟩

/-- The list of pending packages as a multiset. -/
theorem enqueue_multiset {n : Str} {deps work : List (Str × Nat)} (hw : ∀ x ∈ work, dateSame net.db x = false) :
    (enqueue net n deps work : Multiset (Str × Nat)) =
      ((deps.filter (fun d => d.1 ≠ n && !dateSame net.db d) : List (Str × Nat)) : Multiset (Str × Nat)) ∪ (work : Multiset (Str × Nat)) := by
  have key : ∀ (D w : List (Str × Nat)), (∀ x ∈ w, dateSame net.db x = false) →
      D.foldl List.erase w = (D.filter (fun d => !dateSame net.db d)).foldl List.erase w := by
    intro D
    induction D with
    | nil => intro w _; rfl
    | cons d D ih =>
      intro w hw
      rw [List.foldl_cons, ih _ (fun x hx => hw x (List.mem_of_mem_erase hx)), List.filter_cons]
      by_cases hd : dateSame net.db d = true
      · have : d ∉ w := fun h => by rw [hw d h] at hd; simp at hd
        rw [if_neg (by simp [hd]), List.erase_of_not_mem this]
      · rw [if_pos (by simpa using hd), List.foldl_cons]
  unfold enqueue
  rw [key _ _ hw, List.filter_filter]
  have e : (deps.filter (fun d => (!dateSame net.db d) && decide (d.1 ≠ n))) = deps.filter (fun d => d.1 ≠ n && !dateSame net.db d) := by
    congr 1; funext d; exact Bool.and_comm _ _
  rw [e]
  generalize deps.filter (fun d => d.1 ≠ n && !dateSame net.db d) = U
  rw [← List.diff_eq_foldl, ← Multiset.coe_add, lawful_beq_subsingleton (instBEqProd : BEq (Str × Nat)) instBEqOfDecidableEq, ← Multiset.coe_sub,
    ← Multiset.union_def, Multiset.union_comm]

theorem step_fine {files : List (Str × Str)} (ho : InOrder net files A) {s : ResSt} (hs : Fine net A files s) {x : Str × Nat}
    (hn : x.1 ∈ keys net.repo) (hx : dateSame net.db x = false) (hw : ∀ x ∈ s.work, dateSame net.db x = false) :
    ∃ s', resolveStep net x s = .ok s' ∧ Fine net A files s' ∧ s'.out = s.out ++ [x] ∧
      (∃ t : Multiset (Str × Nat), (s'.work : Multiset (Str × Nat)) = s.work + t ∧ ∀ d ∈ t, Asks net A x.1 d) ∧
      (∀ d, d ∈ s'.work ↔ d ∈ s.work ∨ Asks net A x.1 d) := by
  obtain ⟨s1, deps, h1, h2, h3, h4, h5⟩ := directDeps_fine ho hs hn
  refine ⟨{ s1 with out := if dateSame net.db x then s1.out else s1.out ++ [x], work := enqueue net x.1 deps s1.work }, ?_, ⟨h2.files, h2.cached⟩, ?_, ?_, ?_⟩
  · unfold resolveStep
    rw [h1]
    rfl
  · simp [hx, h4]
  · refine ⟨_, by simp only; rw [h3, enqueue_multiset hw, Multiset.union_def, add_comm], ?_⟩
    intro d hd
    have := Multiset.mem_of_le (Multiset.sub_le_self _ _) hd
    rw [Multiset.mem_coe, List.mem_filter] at this
    obtain ⟨a, b⟩ := this
    simp only [ne_eq, Bool.and_eq_true, decide_eq_true_eq, Bool.not_eq_true'] at b
    exact (h5 d).1 ⟨a, by simpa using b.1, b.2⟩
  · intro d
    simp only
    rw [h3, ← h5 d]
    have e := enqueue_multiset (n := x.1) (deps := deps) hw
    have : d ∈ enqueue net x.1 deps s.work ↔ d ∈ (enqueue net x.1 deps s.work : Multiset (Str × Nat)) := Multiset.mem_coe.symm
    rw [this, e, Multiset.mem_union, Multiset.mem_coe, Multiset.mem_coe, List.mem_filter]
    simp only [ne_eq, Bool.and_eq_true, Bool.not_eq_true', decide_not]
    simp only [decide_eq_false_iff_not]
    tauto

/-- What holds at each pass of the loop. -/
structure Loop (net : Net) (A : Str → ArchMeta) (files : List (Str × Str)) (root : Str) (s : ResSt) : Prop where
  fine : Fine net A files s
  unsat : ∀ x ∈ s.work, dateSame net.db x = false
  workNeeded : ∀ x ∈ s.work, NeededFor net A root x.1
  outNeeded : ∀ x ∈ s.out, NeededFor net A root x.1
  order : ∀ a n t b, s.out = a ++ (n, t) :: b → n ∉ b.map (·.1) → ∀ d, Asks net A n d → d ∈ b ∨ d ∈ s.work
  root : (root, 0) ∈ s.out ∨ (root, 0) ∈ s.work

theorem last_occ {α} (l : List (Str × α)) (n : Str) (h : n ∈ l.map (·.1)) : ∃ a t b, l = a ++ (n, t) :: b ∧ n ∉ b.map (·.1) := by
  induction l with
  | nil => simp at h
  | cons x l ih =>
    by_cases hx : n ∈ l.map (·.1)
    · obtain ⟨a, t, b, rfl, hb⟩ := ih hx
      exact ⟨x :: a, t, b, rfl, hb⟩
    · simp only [List.map_cons, List.mem_cons] at h
      rcases h with rfl | h
      · exact ⟨[], x.2, l, rfl, hx⟩
      · exact absurd h hx

theorem loop_step {files : List (Str × Str)} (ho : InOrder net files A) {root : Str} {s : ResSt} {x : Str × Nat} {w : List (Str × Nat)}
    (hl : Loop net A files root s) (hw : s.work = x :: w) (hn : x.1 ∈ keys net.repo) :
    ∃ s', resolveStep net x { s with work := w } = .ok s' ∧ Loop net A files root s' ∧
      (∃ t : Multiset (Str × Nat), (s'.work : Multiset (Str × Nat)) = w + t ∧ ∀ d ∈ t, Asks net A x.1 d) ∧
      (∀ d, d ∈ s'.work ↔ d ∈ w ∨ Asks net A x.1 d) := by
  have hx := hl.unsat x (by rw [hw]; simp)
  have hxr := hl.workNeeded x (by rw [hw]; simp)
  obtain ⟨s', h1, h2, h3, h4, h5⟩ := step_fine (s := { s with work := w }) ho ⟨hl.fine.files, hl.fine.cached⟩ hn hx
    (fun y hy => hl.unsat y (by rw [hw]; exact List.mem_cons_of_mem _ hy))
  simp only at h3 h4 h5
  refine ⟨s', h1, ⟨h2, ?_, ?_, ?_, ?_, ?_⟩, h4, h5⟩
  · intro y hy
    rcases (h5 y).1 hy with hy | hy
    · exact hl.unsat y (by rw [hw]; exact List.mem_cons_of_mem _ hy)
    · exact notSame_iff.2 hy.2.2.2.2
  · intro y hy
    rcases (h5 y).1 hy with hy | hy
    · exact hl.workNeeded y (by rw [hw]; exact List.mem_cons_of_mem _ hy)
    · exact hxr.tail ⟨y.2, hy⟩
  · intro y hy
    rw [h3] at hy
    rcases List.mem_append.1 hy with hy | hy
    · exact hl.outNeeded y hy
    · rw [List.mem_singleton.1 hy]; exact hxr
  · intro a n t b hout hnb d hd
    rw [h3] at hout
    rcases List.eq_nil_or_concat b with rfl | ⟨b', y, rfl⟩
    · obtain ⟨_, hh⟩ := List.append_inj' hout (by simp)
      simp only [List.cons.injEq, and_true] at hh
      subst hh
      exact Or.inr ((h5 d).2 (Or.inr hd))
    · rw [List.concat_eq_append, ← List.cons_append, ← List.append_assoc] at hout
      obtain ⟨ha, hh⟩ := List.append_inj' hout (by simp)
      simp only [List.cons.injEq, and_true] at hh
      subst hh
      have hnb' : n ∉ b'.map (·.1) := fun h => hnb (by simp [List.concat_eq_append] at h ⊢; tauto)
      rw [List.concat_eq_append]
      rcases hl.order a n t b' ha hnb' d hd with h | h
      · exact Or.inl (by simp [h])
      · rw [hw] at h
        rcases List.mem_cons.1 h with rfl | h
        · exact Or.inl (by simp)
        · exact Or.inr ((h5 d).2 (Or.inl h))
  · rcases hl.root with h | h
    · exact Or.inl (by rw [h3]; simp [h])
    · rw [hw] at h
      rcases List.mem_cons.1 h with h | h
      · exact Or.inl (by rw [h3, h]; simp)
      · exact Or.inr ((h5 _).2 (Or.inl h))

theorem step_missing {files : List (Str × Str)} {s : ResSt} (hs : Fine net A files s) {x : Str × Nat} (hn : x.1 ∉ keys net.repo) :
    resolveStep net x s = .error (.missing x.1) := by
  unfold resolveStep directDeps
  have hc : ¬ s.cached.contains x.1 = true := fun h => hn (hs.cached x.1 (by simpa using h)).1
  rw [if_neg hc, mget_none_iff.2 hn]
  rfl

theorem depLoop_cons (fuel : Nat) {s : ResSt} {x : Str × Nat} {w : List (Str × Nat)} (hw : s.work = x :: w) :
    depLoop net (fuel + 1) s = resolveStep net x { s with work := w } >>= depLoop net fuel := by
  rw [depLoop]
  rw [hw]

/-- The end of the loop, if it is reached. -/
theorem loop_end {files : List (Str × Str)} (ho : InOrder net files A) {root : Str} (fuel : Nat) (s s' : ResSt)
    (hl : Loop net A files root s) (h : depLoop net fuel s = .ok s') :
    Loop net A files root s' ∧ s'.work = [] := by
  induction fuel generalizing s with
  | zero => simp [depLoop] at h
  | succ fuel ih =>
    cases hw : s.work with
    | nil =>
      rw [depLoop, hw] at h
      injection h with h
      subst h
      exact ⟨hl, hw⟩
    | cons x w =>
      rw [depLoop_cons fuel hw] at h
      by_cases hn : x.1 ∈ keys net.repo
      · obtain ⟨s1, h1, h2, _⟩ := loop_step ho hl hw hn
        rw [h1] at h
        exact ih s1 h2 h
      · rw [step_missing (files := files) (A := A) (s := { s with work := w }) ⟨hl.fine.files, hl.fine.cached⟩ hn] at h
        simp [bind, Except.bind] at h

/-- All needed packages are popped. -/
theorem loop_complete {files : List (Str × Str)} {root : Str} {s : ResSt} (hl : Loop net A files root s) (hw : s.work = []) (m : Str) :
    m ∈ s.out.map (·.1) ↔ NeededFor net A root m := by
  constructor
  · intro h
    obtain ⟨x, hx, rfl⟩ := List.mem_map.1 h
    exact hl.outNeeded x hx
  · intro h
    induction h with
    | refl =>
      rcases hl.root with h | h
      · exact List.mem_map.2 ⟨_, h, rfl⟩
      · rw [hw] at h; simp at h
    | tail _ hd ih =>
      obtain ⟨a, t, b, e, hb⟩ := last_occ _ _ ih
      obtain ⟨t', hd⟩ := hd
      rcases hl.order a _ t b e hb _ hd with h | h
      · rw [e]; exact List.mem_map.2 ⟨_, List.mem_append_right a (List.mem_cons_of_mem _ h), rfl⟩
      · rw [hw] at h; simp at h

theorem loop_start {files : List (Str × Str)} (root : Str) (cached : List Str) (clock : Nat)
    (hc : ∀ n ∈ cached, n ∈ keys net.repo ∧ ¬ Current net.db (A n)) :
    Loop net A files root { work := [(root, 0)], cached := cached, out := [], files := files, clock := clock } where
  fine := ⟨rfl, hc⟩
  unsat := by intro x hx; simp at hx; subst hx; rfl
  workNeeded := by intro x hx; simp at hx; subst hx; exact Relation.ReflTransGen.refl
  outNeeded := by intro x hx; simp at hx
  order := by intro a n t b h; simp at h
  root := Or.inr (by simp)

/-! ### The list handed to the installer -/

theorem merge_step (list : List (Str × Nat)) (rev : List (Str × Nat)) :
    ∃ new, rev.foldl (fun l x => if l.any (fun y => y.1 = x.1) then l else l ++ [x]) list = list ++ new ∧
      (∀ x ∈ new, x ∈ rev) ∧ ∀ m, m ∈ (list ++ new).map (·.1) ↔ m ∈ list.map (·.1) ∨ m ∈ rev.map (·.1) := by
  induction rev generalizing list with
  | nil => exact ⟨[], by simp, by simp, by simp⟩
  | cons x rev ih =>
    rw [List.foldl_cons]
    by_cases hx : list.any (fun y => y.1 = x.1) = true
    · rw [if_pos hx]
      obtain ⟨new, h1, h2, h3⟩ := ih list
      refine ⟨new, h1, fun y hy => List.mem_cons_of_mem _ (h2 y hy), fun m => ?_⟩
      rw [h3, List.map_cons, List.mem_cons]
      obtain ⟨y, hy, e⟩ := List.any_eq_true.1 hx
      constructor
      · tauto
      · rintro (h | rfl | h)
        · exact Or.inl h
        · exact Or.inl (List.mem_map.2 ⟨y, hy, by simpa using e⟩)
        · exact Or.inr h
    · rw [if_neg hx]
      obtain ⟨new, h1, h2, h3⟩ := ih (list ++ [x])
      refine ⟨x :: new, by rw [h1]; simp, ?_, fun m => ?_⟩
      · intro y hy
        rcases List.mem_cons.1 hy with rfl | hy
        · simp
        · exact List.mem_cons_of_mem _ (h2 y hy)
      · have := h3 m
        rw [List.append_assoc, List.singleton_append] at this
        rw [this]
        simp only [List.map_append, List.map_cons, List.map_nil, List.mem_append, List.mem_cons]
        tauto

theorem ordered_snoc {list : List (Str × Nat)} {x : Str × Nat} (h : Ordered net A list) (hx : x.1 ∉ list.map (·.1))
    (hd : ∀ d, Asks net A x.1 d → d.1 ∈ list.map (·.1)) : Ordered net A (list ++ [x]) := by
  refine ⟨?_, ?_⟩
  · rw [List.map_append, List.nodup_append]
    refine ⟨h.1, by simp, ?_⟩
    intro a ha b hb
    simp only [List.map_cons, List.map_nil, List.mem_singleton] at hb
    subst hb
    rintro rfl
    exact hx ha
  · intro pre n t post he d hdn
    rcases List.eq_nil_or_concat post with rfl | ⟨post', y, rfl⟩
    · obtain ⟨rfl, hh⟩ := List.append_inj' he (by simp)
      simp only [List.cons.injEq, and_true] at hh
      subst hh
      exact hd d hdn
    · rw [List.concat_eq_append, ← List.cons_append, ← List.append_assoc] at he
      obtain ⟨ha, _⟩ := List.append_inj' he (by simp)
      exact h.2 pre n t post' ha d hdn

theorem merge_ordered (rev : List (Str × Nat)) (done list : List (Str × Nat)) (h : Ordered net A list)
    (hdone : ∀ m ∈ done.map (·.1), m ∈ list.map (·.1))
    (ho : ∀ a n t b, done ++ rev = a ++ (n, t) :: b → n ∉ a.map (·.1) → ∀ d, Asks net A n d → d ∈ a) :
    Ordered net A (rev.foldl (fun l x => if l.any (fun y => y.1 = x.1) then l else l ++ [x]) list) := by
  induction rev generalizing done list with
  | nil => exact h
  | cons x rev ih =>
    rw [List.foldl_cons]
    have hassoc : done ++ x :: rev = (done ++ [x]) ++ rev := by simp
    by_cases hx : list.any (fun y => y.1 = x.1) = true
    · rw [if_pos hx]
      refine ih (done ++ [x]) list h ?_ (by rw [← hassoc]; exact ho)
      intro m hm
      simp only [List.map_append, List.map_cons, List.map_nil, List.mem_append, List.mem_singleton] at hm
      rcases hm with hm | rfl
      · exact hdone m hm
      · obtain ⟨y, hy, e⟩ := List.any_eq_true.1 hx
        exact List.mem_map.2 ⟨y, hy, by simpa using e⟩
    · rw [if_neg hx]
      have hx' : x.1 ∉ list.map (·.1) := by
        intro hm
        obtain ⟨y, hy, e⟩ := List.mem_map.1 hm
        exact hx (List.any_eq_true.2 ⟨y, hy, by simpa using e⟩)
      refine ih (done ++ [x]) (list ++ [x]) ?_ ?_ (by rw [← hassoc]; exact ho)
      · refine ordered_snoc h hx' ?_
        intro d hd
        have := ho done x.1 x.2 rev rfl (fun hm => hx' (hdone _ hm)) d hd
        exact hdone _ (List.mem_map.2 ⟨d, this, rfl⟩)
      · intro m hm
        simp only [List.map_append, List.map_cons, List.map_nil, List.mem_append, List.mem_singleton] at hm ⊢
        rcases hm with hm | rfl
        · exact Or.inl (hdone m hm)
        · exact Or.inr rfl

theorem reverse_order {out : List (Str × Nat)} (h : ∀ a n t b, out = a ++ (n, t) :: b → n ∉ b.map (·.1) → ∀ d, Asks net A n d → d ∈ b) :
    ∀ a n t b, out.reverse = a ++ (n, t) :: b → n ∉ a.map (·.1) → ∀ d, Asks net A n d → d ∈ a := by
  intro a n t b he hn d hd
  have : out = b.reverse ++ (n, t) :: a.reverse := by
    rw [← List.reverse_reverse out, he]; simp
  have := h b.reverse n t a.reverse this (by rw [List.map_reverse, List.mem_reverse]; exact hn) d hd
  simpa using this

/-- The session between two calls: what was seen is known to be outdated. -/
def SessOk (net : Net) (A : Str → ArchMeta) (r : RepoSess) : Prop := ∀ n ∈ r.cached, n ∈ keys net.repo ∧ ¬ Current net.db (A n)

/-- **C22, what is resolved.** In a repository in order, a call that ends adds to the list exactly the packages needed for `root` that are not in it
yet, each once, and what a package asks for always stands before it. -/
theorem C22_resolved_partial (files : List (Str × Str)) (ho : InOrder net files A) (fuel : Nat) (root : Str) (r r' : RepoSess) (hr : SessOk net A r)
    (hf : r.files = files) (hl : Ordered net A r.list) (h : generateDeps net fuel root r = .ok r') :
    SessOk net A r' ∧ r'.files = files ∧ Ordered net A r'.list ∧ (∃ new, r'.list = r.list ++ new) ∧
    ∀ m, m ∈ r'.list.map (·.1) ↔ m ∈ r.list.map (·.1) ∨ NeededFor net A root m := by
  unfold generateDeps at h
  cases hs : depLoop net fuel { work := [(root, 0)], cached := r.cached, out := [], files := r.files, clock := r.clock } with
  | error e => rw [hs] at h; simp at h
  | ok s =>
    rw [hs] at h
    injection h with h
    subst h
    subst hf
    obtain ⟨h1, h2⟩ := loop_end ho fuel _ s (loop_start root r.cached r.clock hr) hs
    simp only
    refine ⟨h1.fine.cached, h1.fine.files, ?_, ?_, ?_⟩
    · unfold mergeDeps
      refine merge_ordered s.out.reverse [] r.list hl (by simp) ?_
      rw [List.nil_append]
      refine reverse_order ?_
      intro a n t b he hb d hd
      rcases h1.order a n t b he hb d hd with h | h
      · exact h
      · rw [h2] at h; simp at h
    · obtain ⟨new, e, _⟩ := merge_step r.list s.out.reverse
      exact ⟨new, e⟩
    · intro m
      obtain ⟨new, e, _, h3⟩ := merge_step r.list s.out.reverse
      unfold mergeDeps
      rw [e, h3, List.map_reverse, List.mem_reverse, loop_complete h1 h2]

/-! ### Termination -/

open Classical in
/-- The number of packages of the repository a package leads to. -/
noncomputable def reachRank (net : Net) (A : Str → ArchMeta) (n : Str) : Nat :=
  ((keys net.repo).toFinset.filter (fun m => Relation.TransGen (LeadsTo net A) n m)).card

open Classical in
theorem reachRank_lt {root n m : Str} (hc : ¬ Cyclic net A root) (hn : NeededFor net A root n) (h : LeadsTo net A n m) (hm : m ∈ keys net.repo) :
    reachRank net A m < reachRank net A n := by
  unfold reachRank
  apply Finset.card_lt_card
  rw [Finset.ssubset_iff_of_subset]
  · refine ⟨m, ?_, ?_⟩
    · rw [Finset.mem_filter]
      exact ⟨by simpa using hm, Relation.TransGen.single h⟩
    · rw [Finset.mem_filter]
      rintro ⟨_, hmm⟩
      exact hc ⟨m, hn.tail h, hmm⟩
  · intro x hx
    rw [Finset.mem_filter] at hx ⊢
    exact ⟨hx.1, Relation.TransGen.head h hx.2⟩

theorem loop_terminates {files : List (Str × Str)} (ho : InOrder net files A) {root : Str} (hc : ¬ Cyclic net A root)
    (hall : ∀ m, NeededFor net A root m → m ∈ keys net.repo) (s : ResSt) (hl : Loop net A files root s) :
    ∃ fuel s', depLoop net fuel s = .ok s' := by
  have wf : WellFounded (Relation.CutExpand (fun a b : Str × Nat => reachRank net A a.1 < reachRank net A b.1)) :=
    WellFounded.cutExpand (InvImage.wf (fun a : Str × Nat => reachRank net A a.1) Nat.lt_wfRel.wf)
  generalize hM : (s.work : Multiset (Str × Nat)) = M
  induction M using wf.induction generalizing s with
  | _ M ih =>
    cases hw : s.work with
    | nil => exact ⟨1, s, by rw [depLoop, hw]⟩
    | cons x w =>
      have hx := hl.workNeeded x (by rw [hw]; simp)
      obtain ⟨s1, h1, h2, ⟨t, h3, h4⟩, _⟩ := loop_step ho hl hw (hall _ hx)
      obtain ⟨fuel, s', h⟩ := ih (s1.work : Multiset (Str × Nat)) (by
        refine ⟨t, x, ?_, ?_⟩
        · intro d hd
          have hd := h4 d hd
          have hl' : LeadsTo net A x.1 d.1 := ⟨d.2, hd⟩
          exact reachRank_lt hc hx hl' (hall _ (hx.tail hl'))
        · rw [← hM, hw, h3, ← Multiset.cons_coe, ← Multiset.singleton_add]; ac_rfl) s1 h2 rfl
      refine ⟨fuel + 1, s', ?_⟩
      rw [depLoop_cons fuel hw, h1]
      exact h

theorem depLoop_mono (fuel k : Nat) (s s' : ResSt) (h : depLoop net fuel s = .ok s') : depLoop net (fuel + k) s = .ok s' := by
  induction fuel generalizing s with
  | zero => simp [depLoop] at h
  | succ fuel ih =>
    cases hw : s.work with
    | nil =>
      rw [depLoop, hw] at h
      rw [show fuel + 1 + k = (fuel + k) + 1 by omega, depLoop, hw]
      exact h
    | cons x w =>
      rw [depLoop_cons fuel hw] at h
      rw [show fuel + 1 + k = (fuel + k) + 1 by omega, depLoop_cons _ hw]
      cases he : resolveStep net x { s with work := w } with
      | error e => rw [he] at h; simp [bind, Except.bind] at h
      | ok s1 =>
        rw [he] at h
        exact ih s1 h

/-- A pending package that leads to a package needing itself. -/
def Trap (net : Net) (A : Str → ArchMeta) (n : Str) : Prop := ∃ c, Relation.ReflTransGen (LeadsTo net A) n c ∧ Relation.TransGen (LeadsTo net A) c c

theorem trap_next {n : Str} (h : Trap net A n) : ∃ t m, Asks net A n (m, t) ∧ Trap net A m := by
  obtain ⟨c, h1, h2⟩ := h
  rcases Relation.ReflTransGen.cases_head h1 with rfl | ⟨m, ⟨t, hm⟩, h3⟩
  · obtain ⟨m, ⟨t, hm⟩, h4⟩ := Relation.TransGen.head'_iff.1 h2
    exact ⟨t, m, hm, n, h4, h2⟩
  · exact ⟨t, m, hm, c, h3, h2⟩

theorem loop_hangs {files : List (Str × Str)} (ho : InOrder net files A) {root : Str} (fuel : Nat) (s : ResSt) (hl : Loop net A files root s)
    (ht : ∃ x ∈ s.work, Trap net A x.1) : (∃ n, depLoop net fuel s = .error (.missing n) ∧ NeededFor net A root n ∧ n ∉ keys net.repo) ∨
      depLoop net fuel s = .error .hang := by
  induction fuel generalizing s with
  | zero => exact Or.inr rfl
  | succ fuel ih =>
    obtain ⟨y, hy, htrap⟩ := ht
    cases hw : s.work with
    | nil => rw [hw] at hy; simp at hy
    | cons x w =>
      rw [depLoop_cons fuel hw]
      by_cases hn : x.1 ∈ keys net.repo
      · obtain ⟨s1, h1, h2, _, h4⟩ := loop_step ho hl hw hn
        rw [h1]
        apply ih s1 h2
        rw [hw] at hy
        rcases List.mem_cons.1 hy with rfl | hy
        · obtain ⟨t, m, ha, hm⟩ := trap_next htrap
          exact ⟨(m, t), (h4 _).2 (Or.inr ha), hm⟩
        · exact ⟨y, (h4 _).2 (Or.inl hy), htrap⟩
      · rw [step_missing (files := files) (A := A) (s := { s with work := w }) ⟨hl.fine.files, hl.fine.cached⟩ hn]
        exact Or.inl ⟨x.1, rfl, hl.workNeeded x (by rw [hw]; simp), hn⟩

/-- **C22, termination.** In a repository in order that has every needed package, resolution ends exactly when no needed package needs itself. -/
theorem C22_terminates_iff (files : List (Str × Str)) (ho : InOrder net files A) (root : Str) (r : RepoSess) (hr : SessOk net A r)
    (hf : r.files = files) (hall : ∀ m, NeededFor net A root m → m ∈ keys net.repo) :
    (∃ fuel, ∀ k, ∃ r', generateDeps net (fuel + k) root r = .ok r') ↔ ¬ Cyclic net A root := by
  subst hf
  constructor
  · rintro ⟨fuel, h⟩ ⟨c, h1, h2⟩
    obtain ⟨r', h⟩ := h 0
    unfold generateDeps at h
    rcases loop_hangs ho (fuel + 0) _ (loop_start root r.cached r.clock hr) ⟨(root, 0), by simp, c, h1, h2⟩ with ⟨n, hh, h3, h4⟩ | hh
    · exact h4 (hall n h3)
    · rw [hh] at h; simp at h
  · intro hc
    obtain ⟨fuel, s', h⟩ := loop_terminates ho hc hall _ (loop_start root r.cached r.clock hr)
    refine ⟨fuel, fun k => ?_⟩
    unfold generateDeps
    rw [depLoop_mono fuel k _ _ h]
    exact ⟨_, rfl⟩

/-- **C22, cycles.** When a needed package needs itself, resolution never ends, however long it runs. -/
theorem C22_cycle_never_ends (files : List (Str × Str)) (ho : InOrder net files A) (root : Str) (r : RepoSess) (hr : SessOk net A r)
    (hf : r.files = files) (hall : ∀ m, NeededFor net A root m → m ∈ keys net.repo) (hc : Cyclic net A root) (fuel : Nat) :
    generateDeps net fuel root r = .error .hang := by
  subst hf
  obtain ⟨c, h1, h2⟩ := hc
  unfold generateDeps
  rcases loop_hangs ho fuel _ (loop_start root r.cached r.clock hr) ⟨(root, 0), by simp, c, h1, h2⟩ with ⟨n, hh, h3, h4⟩ | hh
  · exact absurd (hall n h3) h4
  · rw [hh]

/-- **C22, missing packages.** A call that ends normally found every needed package in the repository. -/
theorem C22_missing (files : List (Str × Str)) (ho : InOrder net files A) (fuel : Nat) (root : Str) (r r' : RepoSess) (hr : SessOk net A r)
    (hf : r.files = files) (h : generateDeps net fuel root r = .ok r') : ∀ m, NeededFor net A root m → m ∈ keys net.repo := by
  subst hf
  have popped : ∀ (fuel : Nat) (s s' : ResSt), Loop net A r.files root s → (∀ x ∈ s.out, x.1 ∈ keys net.repo) → depLoop net fuel s = .ok s' →
      ∀ x ∈ s'.out, x.1 ∈ keys net.repo := by
    intro fuel
    induction fuel with
    | zero => intro s s' _ _ h; simp [depLoop] at h
    | succ fuel ih =>
      intro s s' hl hout h
      cases hw : s.work with
      | nil => rw [depLoop, hw] at h; injection h with h; subst h; exact hout
      | cons x w =>
        rw [depLoop_cons fuel hw] at h
        by_cases hn : x.1 ∈ keys net.repo
        · obtain ⟨s1, h1, h2, h3, h4, _⟩ := step_fine (s := { s with work := w }) ho ⟨hl.fine.files, hl.fine.cached⟩ hn
            (hl.unsat x (by rw [hw]; simp)) (fun y hy => hl.unsat y (by rw [hw]; exact List.mem_cons_of_mem _ hy))
          obtain ⟨s1', h1', hl1, _⟩ := loop_step ho hl hw hn
          rw [h1] at h1'
          injection h1' with h1'
          subst h1'
          rw [h1] at h
          refine ih s1 s' hl1 ?_ h
          intro y hy
          rw [h3] at hy
          rcases List.mem_append.1 hy with hy | hy
          · exact hout y hy
          · rw [List.mem_singleton.1 hy]; exact hn
        · rw [step_missing (files := r.files) (A := A) (s := { s with work := w }) ⟨hl.fine.files, hl.fine.cached⟩ hn] at h
          simp [bind, Except.bind] at h
  unfold generateDeps at h
  cases hs : depLoop net fuel { work := [(root, 0)], cached := r.cached, out := [], files := r.files, clock := r.clock } with
  | error e => rw [hs] at h; simp at h
  | ok s =>
    obtain ⟨h1, h2⟩ := loop_end ho fuel _ s (loop_start root r.cached r.clock hr) hs
    have := popped fuel _ s (loop_start root r.cached r.clock hr) (by simp) hs
    intro m hm
    rw [← loop_complete h1 h2] at hm
    obtain ⟨x, hx, rfl⟩ := List.mem_map.1 hm
    exact this x hx

end

/-! ### A concrete repository -/

/-- An entry of the example repository: the dependencies the repository file lists. -/
def xPkg (n : Str) (deps : List (Str × Nat)) : RepoPkg := { defaultPkg with dirName := "/r".toList, fileName := n, deps := deps }

/-- A repository without URL: the content of each file is the name of the package. -/
def xNet (listed archs : List (Str × List (Str × Nat))) : Net :=
  { url := [], repo := listed.map (fun p => (p.1, xPkg p.1 p.2)), db := xDb, hash := id, verify := fun _ _ _ => none,
    opens := fun c => (mget archs c).map (fun ds => ⟨c, "1".toList, 1, 5, [], ds⟩), fetch := fun _ _ => .failed }

def xFiles (archs : List (Str × List (Str × Nat))) : List (Str × Str) := archs.map (fun p => ("/r/".toList ++ p.1, p.1))

def xSess (archs : List (Str × List (Str × Nat))) : RepoSess := ⟨[], [], xFiles archs, 0⟩

/-- `mutt` needs `zlib`, `ncurses` and the installed `glibc`; `ncurses` needs `zlib`. -/
def xDeps : List (Str × List (Str × Nat)) := [("mutt".toList, [("glibc".toList, 7), ("ncurses".toList, 5), ("zlib".toList, 5)]),
  ("ncurses".toList, [("zlib".toList, 5)]), ("zlib".toList, [])]

def resolved (net : Net) (fuel : Nat) (root : Str) (r : RepoSess) : Option (List Str) := (generateDeps net fuel root r).toOption.map (fun r => r.list.map (·.1))

example : resolved (xNet xDeps xDeps) 10 "mutt".toList (xSess xDeps) = some ["zlib".toList, "ncurses".toList, "mutt".toList] := by decide +kernel

def rArch (archs : List (Str × List (Str × Nat))) (n : Str) : ArchMeta := ⟨n, "1".toList, 1, 5, [], (mget archs n).getD []⟩

theorem mget_map_val {α β : Type} (f : Str → α → β) (m : List (Str × α)) (n : Str) :
    mget (m.map (fun p => (p.1, f p.1 p.2))) n = (mget m n).map (f n) := by
  induction m with
  | nil => rfl
  | cons x m ih =>
    simp only [List.map_cons, mget]
    split
    · rename_i h; subst h; rfl
    · exact ih

theorem xFiles_get (archs : List (Str × List (Str × Nat))) (n : Str) (h : n ∈ keys archs) : mget (xFiles archs) ("/r/".toList ++ n) = some n := by
  induction archs with
  | nil => simp [keys] at h
  | cons x archs ih =>
    simp only [xFiles, List.map_cons, mget]
    by_cases hx : x.1 = n
    · simp [hx]
    · rw [if_neg (by simpa using hx)]
      apply ih
      simp only [keys, List.map_cons, List.mem_cons] at h
      exact h.resolve_left (Ne.symm hx)

/-- The example repositories are in order when the repository file lists the dependencies of the archives. -/
theorem xNet_inOrder (archs : List (Str × List (Str × Nat))) : InOrder (xNet archs archs) (xFiles archs) (rArch archs) := by
  intro n p hp
  simp only [xNet] at hp
  rw [mget_map_val (f := xPkg)] at hp
  cases hg : mget archs n with
  | none => rw [hg] at hp; simp at hp
  | some ds =>
    rw [hg] at hp
    simp only [Option.map_some, Option.some.injEq] at hp
    subst hp
    refine ⟨n, xFiles_get archs n (mem_keys_iff.2 ⟨_, hg⟩), ?_, ?_, rfl, ?_⟩
    · intro h; simp [xNet] at h
    · simp [xNet, rArch, hg]
    · intro d _; simp [xPkg, rArch, hg]

/-- The hypotheses of `C22_resolved_partial` and `C22_terminates_iff` are met. -/
example : SessOk (xNet xDeps xDeps) (rArch xDeps) (xSess xDeps) ∧ Ordered (xNet xDeps xDeps) (rArch xDeps) (xSess xDeps).list :=
  ⟨by intro n hn; simp [xSess] at hn, by simp [Ordered, xSess]⟩

/-- `aaaa` and `bbbb` need each other. -/
def xLoop : List (Str × List (Str × Nat)) := [("aaaa".toList, [("bbbb".toList, 5)]), ("bbbb".toList, [("aaaa".toList, 5)])]

/-- **C22** is false with packages that need each other: `cards install` never ends. -/
theorem C22_cycle_counterexample (fuel : Nat) : generateDeps (xNet xLoop xLoop) fuel "aaaa".toList (xSess xLoop) = .error .hang := by
  have hd : ∀ t, ¬ Satisfied xDb ("aaaa".toList, t) ∧ ¬ Satisfied xDb ("bbbb".toList, t) := by
    intro t
    constructor <;> · rintro ⟨_, i, hi, _⟩; revert hi; simp [xDb, mget]
  have hk : keys (xNet xLoop xLoop).repo = ["aaaa".toList, "bbbb".toList] := by decide +kernel
  have ha : LeadsTo (xNet xLoop xLoop) (rArch xLoop) "aaaa".toList "bbbb".toList := by
    refine ⟨5, by rw [hk]; simp, ?_, by simp [rArch, xLoop, mget], by decide, (hd 5).2⟩
    rw [← C25_uptodate]; decide +kernel
  have hb : LeadsTo (xNet xLoop xLoop) (rArch xLoop) "bbbb".toList "aaaa".toList := by
    refine ⟨5, by rw [hk]; simp, ?_, by simp [rArch, xLoop, mget], by decide, (hd 5).1⟩
    rw [← C25_uptodate]; decide +kernel
  refine C22_cycle_never_ends (A := rArch xLoop) (xFiles xLoop) (xNet_inOrder xLoop) _ _ (by intro n hn; simp [xSess] at hn) rfl ?_
    ⟨"aaaa".toList, Relation.ReflTransGen.refl, (Relation.TransGen.single ha).tail hb⟩ fuel
  intro m hm
  induction hm with
  | refl => rw [hk]; simp
  | tail _ h _ =>
    obtain ⟨t, h1, _, h2, _⟩ := h
    rw [hk] at h1 ⊢
    simp only [List.mem_cons, List.not_mem_nil, or_false] at h1
    rcases h1 with rfl | rfl <;> · simp [rArch, xLoop, mget] at h2; simp [h2.1]

/-- `root` needs `aaaa` and `cccc`, `cccc` needs `aaaa`, `aaaa` needs `vim`. -/
def xShortArch : List (Str × List (Str × Nat)) := [("aaaa".toList, [("vim".toList, 5)]), ("cccc".toList, [("aaaa".toList, 5)]),
  ("root".toList, [("aaaa".toList, 5), ("cccc".toList, 5)]), ("vim".toList, [])]
/-- The repository file as `pkgrepo::parse` reads it: the dependency with a name of three characters is dropped (C26). -/
def xShortMeta : List (Str × List (Str × Nat)) := [("aaaa".toList, []), ("cccc".toList, [("aaaa".toList, 5)]),
  ("root".toList, [("aaaa".toList, 5), ("cccc".toList, 5)]), ("vim".toList, [])]

/-- **C22** is false for dependencies with a name of less than four characters: `aaaa` is installed before `vim`, which it needs. -/
theorem C22_short_name_counterexample : resolved (xNet xShortMeta xShortArch) 10 "root".toList (xSess xShortArch) =
    some ["aaaa".toList, "vim".toList, "cccc".toList, "root".toList] := by decide +kernel

end Cards.Props
