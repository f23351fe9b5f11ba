import Verif.Spec.Ports
import Verif.Lemmas.Levels
import Mathlib.Data.Fintype.Card
import Mathlib.Data.Set.Finite.Basic
/-!
# C19, C18, C20, C21: levels and dependency listings of the ports tree
-/
namespace Cards.Props
open Cards Relation

theorem getValueBeforeLast_names (d b : Str) : getValueBeforeLast d '.' = b ↔ Names d b := by
  unfold getValueBeforeLast Names
  by_cases h : '.' ∈ d
  · rw [if_pos h]
    obtain ⟨x, g, hg, hn⟩ : ∃ x g, d = x ++ '.' :: g ∧ '.' ∉ g := by
      have hr : '.' ∈ d.reverse := by simpa using h
      have hdw : ∀ l : Str, '.' ∈ l → ∃ a r, l = a ++ '.' :: r ∧ '.' ∉ a := by
        intro l
        induction l with
        | nil => simp
        | cons c l ih =>
          intro hm
          by_cases hc : c = '.'
          · exact ⟨[], l, by simp [hc], by simp⟩
          · obtain ⟨a, r, e, hn⟩ := ih (by simpa [Ne.symm hc] using hm)
            exact ⟨c :: a, r, by simp [e], by simp [Ne.symm hc, hn]⟩
      obtain ⟨a, r, e, hn⟩ := hdw d.reverse hr
      refine ⟨r.reverse, a.reverse, ?_, by simpa using hn⟩
      have := congrArg List.reverse e
      simpa using this
    subst hg
    have hval : (((x ++ '.' :: g).reverse.dropWhile (fun c => c ≠ '.')).drop 1).reverse = x := by
      have : ∀ a r : Str, '.' ∉ a → (a ++ '.' :: r).dropWhile (fun c => c ≠ '.') = '.' :: r := by
        intro a r
        induction a with
        | nil => intro _; simp
        | cons c a ih =>
          intro hc
          simp only [List.mem_cons, not_or] at hc
          simp [Ne.symm hc.1]
          simpa using ih hc.2
      have e : (x ++ '.' :: g).reverse = g.reverse ++ '.' :: x.reverse := by simp
      rw [e, this _ _ (by simpa using hn)]
      simp
    rw [hval]
    constructor
    · rintro rfl
      exact Or.inr ⟨g, hn, rfl⟩
    · rintro (⟨e, hb⟩ | ⟨g', hg', e⟩)
      · exact absurd (e ▸ h) hb
      · -- the last dot is unique
        have uniq : ∀ (x y g g' : Str), '.' ∉ g → '.' ∉ g' → x ++ '.' :: g = y ++ '.' :: g' → x = y := by
          intro x
          induction x with
          | nil =>
            intro y g g' h1 h2 e
            cases y with
            | nil => rfl
            | cons c y =>
              simp only [List.nil_append, List.cons_append, List.cons.injEq] at e
              exact absurd (e.2 ▸ (by simp : '.' ∈ y ++ '.' :: g')) h1
          | cons c x ih =>
            intro y g g' h1 h2 e
            cases y with
            | nil =>
              simp only [List.nil_append, List.cons_append, List.cons.injEq] at e
              exact absurd (e.2 ▸ (by simp : '.' ∈ x ++ '.' :: g)) h2
            | cons c' y =>
              simp only [List.cons_append, List.cons.injEq] at e
              rw [e.1, ih y g g' h1 h2 e.2]
        exact uniq _ _ _ _ hn hg' e
  · rw [if_neg h]
    constructor
    · rintro rfl; exact Or.inl ⟨rfl, h⟩
    · rintro (⟨e, _⟩ | ⟨g, _, e⟩)
      · exact e
      · exact absurd (by rw [e]; simp) h

/-! ### The confirmation of the dependencies -/

theorem confirmLoop_spec (T : Ports) (own : Nat) (js : List Str) (idx : List Nat) (dc : Int) (bad : List Str) (h : dc = idx.length) :
    let r := confirmLoop T own js idx (idx.length + 1) dc bad
    r.2.1 = r.1.length ∧ ∀ k, k ∈ r.1 ↔ k ∈ idx ∨ ∃ d ∈ js, ∃ q, mget T (getValueBeforeLast d '.') = some q ∧ q.index = k ∧ own ≠ k := by
  induction js generalizing idx dc bad with
  | nil => simp [confirmLoop, h]
  | cons j js ih =>
    simp only [confirmLoop]
    cases hg : mget T (getValueBeforeLast j '.') with
    | none =>
      simp only
      obtain ⟨h1, h2⟩ := ih idx dc (bad ++ [getValueBeforeLast j '.']) h
      refine ⟨h1, fun k => ?_⟩
      rw [h2 k]
      simp [hg]
    | some q =>
      simp only
      by_cases he : own = q.index
      · rw [if_pos he]
        obtain ⟨h1, h2⟩ := ih idx dc bad h
        refine ⟨h1, fun k => ?_⟩
        rw [h2 k]
        simp only [List.mem_cons, exists_eq_or_imp, hg, Option.some.injEq, exists_eq_left']
        constructor
        · rintro (h | h)
          · exact Or.inl h
          · exact Or.inr (Or.inr h)
        · rintro (h | ⟨h, h'⟩ | h)
          · exact Or.inl h
          · exact absurd (he.trans h) h'
          · exact Or.inr h
      · rw [if_neg he]
        have := ih (idx ++ [q.index]) (idx.length + 1) bad (by simp)
        simp only [List.length_append, List.length_cons, List.length_nil] at this
        obtain ⟨h1, h2⟩ := this
        have hcast : ((idx.length + 1 : Nat) : Int) = (idx.length : Int) + 1 := by simp
        rw [hcast]
        refine ⟨h1, fun k => ?_⟩
        rw [h2 k]
        simp only [List.mem_cons, exists_eq_or_imp, hg, Option.some.injEq, exists_eq_left', List.mem_append, List.not_mem_nil, or_false]
        constructor
        · rintro ((h | rfl) | h)
          · exact Or.inl h
          · exact Or.inr (Or.inl ⟨rfl, he⟩)
          · exact Or.inr (Or.inr h)
        · rintro (h | ⟨h, _⟩ | h)
          · exact Or.inl (Or.inl h)
          · exact Or.inl (Or.inr h.symm)
          · exact Or.inr h

/-- The port after `confirmDependencies`. -/
def confirmed (T : Ports) (p : Port) : Port :=
  let r := confirmLoop T p.index p.deps [] 1 p.decount []
  { p with indexes := r.1, decount := r.2.1 }

theorem confirmed_spec {T : Ports} {p : Port} (h : p.decount = 0) :
    (confirmed T p).decount = (confirmed T p).indexes.length ∧
    ∀ k, k ∈ (confirmed T p).indexes ↔ ∃ d ∈ p.deps, ∃ q, mget T (getValueBeforeLast d '.') = some q ∧ q.index = k ∧ p.index ≠ k := by
  have := confirmLoop_spec T p.index p.deps [] p.decount [] (by simp [h])
  simp only [List.length_nil, Nat.zero_add, List.not_mem_nil, false_or] at this
  exact this

theorem mem_confirm {T : Ports} {p : Str × Port} (h : p ∈ confirmDependencies T) : ∃ q ∈ T, p = (q.1, confirmed T q.2) := by
  obtain ⟨q, hq, rfl⟩ := List.mem_map.1 h
  exact ⟨q, hq, rfl⟩

theorem confirm_mem {T : Ports} {p : Str × Port} (h : p ∈ T) : (p.1, confirmed T p.2) ∈ confirmDependencies T :=
  List.mem_map.2 ⟨p, h, rfl⟩

theorem confirm_inv {T : Ports} (h : FreshPorts T) : LInv (confirmDependencies T) 0 := by
  refine ⟨⟨?_, ?_, ?_, ?_⟩, ?_, ?_⟩
  · have : keys (confirmDependencies T) = keys T := by simp [keys, confirmDependencies]
    unfold MSorted; rw [this]; exact h.sorted
  · unfold DistinctIndex confirmDependencies
    rw [List.pairwise_map]
    exact h.distinct
  · intro p hp
    obtain ⟨q, hq, rfl⟩ := mem_confirm hp
    exact h.decrement q hq
  · intro p hp
    obtain ⟨q, hq, rfl⟩ := mem_confirm hp
    intro hm
    have := ((confirmed_spec (h.decount q hq)).2 _).1 hm
    obtain ⟨d, _, r, _, _, hne⟩ := this
    exact hne rfl
  · intro p hp hd
    obtain ⟨q, hq, rfl⟩ := mem_confirm hp
    have := (confirmed_spec (T := T) (h.decount q hq)).1
    simp only at hd
    omega
  · intro p hp hd
    obtain ⟨q, hq, rfl⟩ := mem_confirm hp
    refine ⟨?_, h.level q hq, Or.inl rfl⟩
    simp only
    rw [(confirmed_spec (h.decount q hq)).1]
    congr 1
    unfold openDeps
    symm
    rw [List.countP_eq_length]
    intro k hk
    obtain ⟨d, _, r, hr, rfl, _⟩ := ((confirmed_spec (h.decount q hq)).2 _).1 hk
    rw [List.any_eq_true]
    refine ⟨_, confirm_mem (mget_some_mem hr), ?_⟩
    have := (confirmed_spec (T := T) (h.decount _ (mget_some_mem hr))).1
    simp only at this
    simp only [ne_eq, Bool.and_eq_true, decide_eq_true_eq]
    exact ⟨rfl, by omega⟩

/-- The indexes of a confirmed port are those of the ports it needs. -/
theorem confirmed_needs {T : Ports} (h : FreshPorts T) {p q : Str × Port} (hp : p ∈ T) (hq : q ∈ T) :
    q.2.index ∈ (confirmed T p.2).indexes ↔ Needs T p.1 q.1 := by
  rw [(confirmed_spec (h.decount p hp)).2]
  constructor
  · rintro ⟨d, hd, r, hr, hi, hne⟩
    have hrm := mget_some_mem hr
    have : (_, r) = q := DistinctIndex.inj h.distinct hrm hq hi
    subst this
    refine ⟨?_, List.mem_map.2 ⟨_, hq, rfl⟩, d, ⟨p.2, hp, hd⟩, (getValueBeforeLast_names _ _).1 rfl⟩
    rintro e
    have h1 := mem_mget_of_sorted h.sorted hp
    rw [show p.1 = getValueBeforeLast d '.' from e, hr] at h1
    exact hne (by rw [← hi, Option.some.inj h1])
  · rintro ⟨hne, _, d, ⟨p', hp', hd⟩, hn⟩
    have : p' = p.2 := by
      have h1 := mem_mget_of_sorted h.sorted hp
      have h2 := mem_mget_of_sorted h.sorted hp'
      rw [h1] at h2
      exact (Option.some.inj h2).symm
    subst this
    refine ⟨d, hd, q.2, ?_, rfl, ?_⟩
    · rw [(getValueBeforeLast_names _ _).2 hn]
      exact mem_mget_of_sorted h.sorted hq
    · intro e
      exact hne (congrArg Prod.fst (DistinctIndex.inj h.distinct hp hq e))

/-- The tree every command works on, by names. -/
structure Loaded (T T' : Ports) (done : Str → Prop) : Prop where
  names : keys T' = keys T
  port : ∀ n p', (n, p') ∈ T' → ∃ p, (n, p) ∈ T ∧ p'.deps = p.deps ∧ p'.collection = p.collection ∧ p'.version = p.version ∧
    p'.release = p.release
  done_lt : ∀ a b, done a → Needs T a b → done b ∧ portLevel T' b < portLevel T' a
  done_next : ∀ a, done a → portLevel T' a = 0 ∨ ∃ b, Needs T a b ∧ portLevel T' b + 1 = portLevel T' a
  stuck : ∀ a ∈ keys T, ¬ done a → portLevel T' a = 0 ∧ ∃ b, Needs T a b ∧ ¬ done b

theorem loadPorts_spec {T : Ports} (h : FreshPorts T) : ∃ T' done, loadPorts T = some T' ∧ Loaded T T' done := by
  obtain ⟨T', e, l⟩ := generateLevel_spec (T.length + 1) (confirmDependencies T) 0 (confirm_inv h) (by
    have h1 : todoCount (confirmDependencies T) ≤ (confirmDependencies T).length := List.countP_le_length
    have h2 : (confirmDependencies T).length = T.length := by simp [confirmDependencies]
    omega)
  have hlen : ∀ n p', (n, p') ∈ T' → ∃ p, (n, p) ∈ T ∧ p'.core = (confirmed T p).core := by
    intro n p' hp
    have : (n, p'.core) ∈ T'.map (fun p => (p.1, p.2.core)) := List.mem_map.2 ⟨_, hp, rfl⟩
    rw [l.same] at this
    obtain ⟨q, hq, e⟩ := List.mem_map.1 this
    obtain ⟨r, hr, rfl⟩ := mem_confirm hq
    simp only [Prod.mk.injEq] at e
    obtain ⟨rfl, e⟩ := e
    exact ⟨r.2, hr, e.symm⟩
  have hback : ∀ n p, (n, p) ∈ T → ∃ p', (n, p') ∈ T' ∧ p'.core = (confirmed T p).core := by
    intro n p hp
    have : (n, (confirmed T p).core) ∈ (confirmDependencies T).map (fun p => (p.1, p.2.core)) :=
      List.mem_map.2 ⟨_, confirm_mem hp, rfl⟩
    rw [← l.same] at this
    obtain ⟨q, hq, e⟩ := List.mem_map.1 this
    simp only [Prod.mk.injEq] at e
    obtain ⟨rfl, e⟩ := e
    exact ⟨q.2, hq, e⟩
  have hkeys : keys T' = keys T := by
    have h1 := congrArg (List.map Prod.fst) l.same
    rw [List.map_map, List.map_map] at h1
    have h2 : keys T' = keys (confirmDependencies T) := h1
    rw [h2]
    simp [keys, confirmDependencies]
  have hs' : MSorted T' := by unfold MSorted; rw [hkeys]; exact h.sorted
  have hidx : ∀ {p q p' q' : Port} {a b : Str}, (a, p) ∈ T → (b, q) ∈ T → p'.core = (confirmed T p).core → q'.core = (confirmed T q).core →
      (q'.index ∈ p'.indexes ↔ Needs T a b) := by
    intro p q p' q' a b hp hq e1 e2
    have i1 : p'.indexes = (confirmed T p).indexes := by have := congrArg Port.indexes e1; exact this
    have i2 : q'.index = q.index := by have := congrArg Port.index e2; exact this
    rw [i1, i2]
    exact confirmed_needs h hp hq
  have hlev : ∀ {n p'}, (n, p') ∈ T' → portLevel T' n = p'.level := by
    intro n p' hp
    unfold portLevel
    rw [mem_mget_of_sorted hs' hp]
  refine ⟨T', fun n => ∃ p', (n, p') ∈ T' ∧ p'.decount = -1, e, hkeys, ?_, ?_, ?_, ?_⟩
  · intro n p' hp
    obtain ⟨p, hp0, ec⟩ := hlen n p' hp
    have e1 := congrArg Port.deps ec
    have e2 := congrArg Port.collection ec
    have e3 := congrArg Port.version ec
    have e4 := congrArg Port.release ec
    exact ⟨p, hp0, e1, e2, e3, e4⟩
  · rintro a b ⟨p', hp', hd⟩ hn
    obtain ⟨p, hp, ep⟩ := hlen a p' hp'
    obtain ⟨⟨b', q⟩, hq, rfl⟩ := List.mem_map.1 hn.2.1
    obtain ⟨q', hq', eq⟩ := hback b' q hq
    have := (l.done _ hp' hd).1 _ hq' ((hidx hp hq ep eq).2 hn)
    exact ⟨⟨q', hq', this.1⟩, by rw [hlev hp', hlev hq']; exact this.2⟩
  · rintro a ⟨p', hp', hd⟩
    obtain ⟨p, hp, ep⟩ := hlen a p' hp'
    rw [hlev hp']
    rcases (l.done _ hp' hd).2 with h0 | ⟨q', hq', hi, hl⟩
    · exact Or.inl h0
    · obtain ⟨q, hq, eq⟩ := hlen q'.1 q'.2 hq'
      exact Or.inr ⟨q'.1, (hidx hp hq ep eq).1 hi, by rw [hlev (show (q'.1, q'.2) ∈ T' from hq')]; exact hl⟩
  · intro a ha hnd
    obtain ⟨⟨a', p⟩, hp, rfl⟩ := List.mem_map.1 ha
    obtain ⟨p', hp', ep⟩ := hback a' p hp
    have hne : p'.decount ≠ -1 := fun hd => hnd ⟨p', hp', hd⟩
    obtain ⟨h0, q', hq', hi, hqd⟩ := l.stuck _ hp' hne
    obtain ⟨q, hq, eq⟩ := hlen q'.1 q'.2 hq'
    refine ⟨by rw [hlev hp']; exact h0, q'.1, (hidx hp hq ep eq).1 hi, ?_⟩
    rintro ⟨r, hr, hrd⟩
    have h1 := mem_mget_of_sorted hs' hr
    rw [mem_mget_of_sorted hs' (show (q'.1, q'.2) ∈ T' from hq')] at h1
    exact hqd (by rw [Option.some.inj h1]; exact hrd)

/-- Exactly the ports from which no cycle can be reached get a proper level. -/
theorem Loaded.done_iff {T T' : Ports} {done : Str → Prop} (h : Loaded T T' done) {a : Str} (ha : a ∈ keys T) :
    done a ↔ CycleFree T a := by
  constructor
  · rintro hd ⟨c, hac, hcc⟩
    have hdc : done c := by
      clear hcc
      induction hac with
      | refl => exact hd
      | tail _ hn ih => exact (h.done_lt _ _ ih hn).1
    have : ∀ x, TransGen (Needs T) c x → done x ∧ portLevel T' x < portLevel T' c := by
      intro x hx
      induction hx with
      | single hn => exact h.done_lt _ _ hdc hn
      | tail _ hn ih =>
        have := h.done_lt _ _ ih.1 hn
        exact ⟨this.1, by omega⟩
    have := (this c hcc).2
    omega
  · intro hcf
    let α := {x : Str // x ∈ keys T}
    let R : α → α → Prop := fun y x => ReflTransGen (Needs T) a x.1 ∧ TransGen (Needs T) x.1 y.1
    have : IsTrans α R := ⟨fun z y x hzy hyx => ⟨hyx.1, hyx.2.trans hzy.2⟩⟩
    have : Std.Irrefl R := ⟨fun x hx => hcf ⟨x.1, hx.1, hx.2⟩⟩
    have : Finite α := (List.finite_toSet (keys T)).to_subtype
    have wf : WellFounded R := Finite.wellFounded_of_trans_of_irrefl R
    have key : ∀ x : α, ReflTransGen (Needs T) a x.1 → done x.1 := by
      intro x
      induction x using wf.induction with
      | _ x ih =>
        intro hx
        by_contra hnd
        obtain ⟨_, b, hb, hbd⟩ := h.stuck x.1 x.2 hnd
        exact hbd (ih ⟨b, hb.2.1⟩ ⟨hx, .single hb⟩ (hx.tail hb))
    exact key ⟨a, ha⟩ .refl

/-! ### C19: levels -/

/-- **C19.** Level computation ends for every tree. A port from which no cycle of needs can be reached gets a level above the
level of every port it needs, and no higher than that requires (0 when it needs none). All other ports stay at level 0. -/
theorem C19_levels (T : Ports) (h : FreshPorts T) :
    ∃ T', loadPorts T = some T' ∧ keys T' = keys T ∧
      (∀ a ∈ keys T, CycleFree T a → (∀ b, Needs T a b → portLevel T' b < portLevel T' a) ∧
        (portLevel T' a = 0 ∨ ∃ b, Needs T a b ∧ portLevel T' b + 1 = portLevel T' a)) ∧
      (∀ a ∈ keys T, ¬ CycleFree T a → portLevel T' a = 0) := by
  obtain ⟨T', done, e, l⟩ := loadPorts_spec h
  refine ⟨T', e, l.names, ?_, ?_⟩
  · intro a ha hc
    have hd := (l.done_iff ha).2 hc
    exact ⟨fun b hb => (l.done_lt a b hd hb).2, l.done_next a hd⟩
  · intro a ha hc
    exact (l.stuck a ha (fun hd => hc ((l.done_iff ha).1 hd))).1

/-- **C19, as the user reads it.** In a tree without cycles whose ports and dependencies have no dot in their names, a port gets a
level above that of every other port it lists as dependency; a port that lists none gets level 0. Missing for the full property:
port names with a dot (C19_dotted_name_counterexample). -/
theorem C19_build_order_partial (T : Ports) (h : FreshPorts T) (hc : ∀ a, CycleFree T a) :
    ∃ T', loadPorts T = some T' ∧
      (∀ a d, Declares T a d → d ∈ keys T → d ≠ a → '.' ∉ d → portLevel T' d < portLevel T' a) ∧
      (∀ a ∈ keys T, (∀ d, ¬ Declares T a d) → portLevel T' a = 0) := by
  obtain ⟨T', e, _, h1, _⟩ := C19_levels T h
  refine ⟨T', e, ?_, ?_⟩
  · intro a d hd hk hne hdot
    have ha : a ∈ keys T := by
      obtain ⟨p, hp, _⟩ := hd
      exact List.mem_map.2 ⟨_, hp, rfl⟩
    exact (h1 a ha (hc a)).1 d ⟨Ne.symm hne, hk, d, hd, Or.inl ⟨rfl, hdot⟩⟩
  · intro a ha hnone
    rcases (h1 a ha (hc a)).2 with h0 | ⟨b, ⟨_, _, d, hd, _⟩, _⟩
    · exact h0
    · exact absurd hd (hnone d)

/-- No level below a level in use is empty. -/
theorem Loaded.contiguous {T T' : Ports} {done : Str → Prop} (h : Loaded T T' done) (l : Nat) :
    ∀ a ∈ keys T, portLevel T' a = l → ∀ m ≤ l, ∃ b ∈ keys T, portLevel T' b = m := by
  induction l with
  | zero =>
    intro a ha hl m hm
    exact ⟨a, ha, by omega⟩
  | succ l ih =>
    intro a ha hl m hm
    by_cases hml : m = l + 1
    · exact ⟨a, ha, by omega⟩
    · by_cases hd : done a
      · rcases h.done_next a hd with h0 | ⟨b, hb, hbl⟩
        · omega
        · exact ih b hb.2.1 (by omega) m (by omega)
      · have := (h.stuck a ha hd).1
        omega

theorem portLevel_of_mem {T : Ports} (hs : MSorted T) {n : Str} {p : Port} (h : (n, p) ∈ T) : portLevel T n = p.level := by
  unfold portLevel; rw [mem_mget_of_sorted hs h]

theorem mem_of_key {T : Ports} (hs : MSorted T) {n : Str} (h : n ∈ keys T) : ∃ p, (n, p) ∈ T ∧ portLevel T n = p.level := by
  obtain ⟨⟨m, p⟩, hp, rfl⟩ := List.mem_map.1 h
  exact ⟨p, hp, portLevel_of_mem hs hp⟩

/-- The levels of the tree have no gap. -/
def NoGap (T : Ports) : Prop := ∀ p ∈ T, ∀ m ≤ p.2.level, ∃ q ∈ T, q.2.level = m

theorem Loaded.sorted {T T' : Ports} {done : Str → Prop} (h : Loaded T T' done) (hf : FreshPorts T) : MSorted T' := by
  unfold MSorted; rw [h.names]; exact hf.sorted

theorem Loaded.noGap {T T' : Ports} {done : Str → Prop} (h : Loaded T T' done) (hf : FreshPorts T) : NoGap T' := by
  have hs := h.sorted hf
  rintro ⟨n, p⟩ hp m hm
  have hk : n ∈ keys T' := List.mem_map.2 ⟨_, hp, rfl⟩
  obtain ⟨b, hb, hl⟩ := h.contiguous p.level n (h.names ▸ hk) (portLevel_of_mem hs hp) m hm
  obtain ⟨q, hq, e⟩ := mem_of_key hs (h.names ▸ hb)
  exact ⟨_, hq, by rw [← hl, e]⟩

/-- The ports at level `lvl` or above. -/
def aboveCount (T : Ports) (lvl : Nat) : Nat := T.countP (fun p => lvl ≤ p.2.level)

theorem aboveCount_lt {T : Ports} {lvl : Nat} (h : ∃ p ∈ T, p.2.level = lvl) : aboveCount T (lvl + 1) < aboveCount T lvl := by
  obtain ⟨p, hp, hl⟩ := h
  unfold aboveCount
  induction T with
  | nil => simp at hp
  | cons q T ih =>
    have mono : T.countP (fun p => lvl + 1 ≤ p.2.level) ≤ T.countP (fun p => lvl ≤ p.2.level) := by
      apply List.countP_mono_left
      intro x _ hx
      simp only [decide_eq_true_eq] at hx ⊢
      omega
    simp only [List.countP_cons]
    rcases List.mem_cons.1 hp with rfl | hp
    · have h1 : decide (lvl + 1 ≤ p.2.level) = false := by simp; omega
      have h2 : decide (lvl ≤ p.2.level) = true := by simp; omega
      rw [h1, h2]
      simp only [Bool.false_eq_true, if_false, if_true]
      omega
    · have := ih hp
      by_cases h2 : lvl ≤ q.2.level
      · by_cases h1 : lvl + 1 ≤ q.2.level <;> simp [h1, h2] <;> omega
      · have h1 : ¬ lvl + 1 ≤ q.2.level := by omega
        simp [h1, h2]; omega

/-- The lines of one level. -/
def linesAt (T : Ports) (l : Nat) : List (Nat × Str × Str) := (T.filter (fun p => p.2.level = l)).map (fun p => (l, p.2.collection, p.1))

theorem levelPrint_spec (T : Ports) (hg : NoGap T) (fuel lvl : Nat) (hf : aboveCount T lvl < fuel) :
    ∃ lines m, levelPrint T fuel lvl = some lines ∧ lines = (List.range m).flatMap (fun i => linesAt T (lvl + i)) ∧
      (∀ p ∈ T, p.2.level < lvl + m) := by
  induction fuel generalizing lvl with
  | zero => omega
  | succ f ih =>
    simp only [levelPrint]
    by_cases he : ∃ p ∈ T, p.2.level = lvl
    · have hne : ((T.filter (fun p => p.2.level = lvl)).map (fun p => (lvl, p.2.collection, p.1))).isEmpty = false := by
        obtain ⟨p, hp, hl⟩ := he
        rw [List.isEmpty_eq_false_iff]
        intro h0
        rw [List.map_eq_nil_iff, List.filter_eq_nil_iff] at h0
        exact h0 p hp (by simp [hl])
      have := aboveCount_lt he
      obtain ⟨lines, m, e, hl, hm⟩ := ih (lvl + 1) (by omega)
      rw [hne, e]
      refine ⟨_, m + 1, rfl, ?_, fun p hp => by have := hm p hp; omega⟩
      rw [List.range_succ_eq_map, List.flatMap_cons, hl, List.flatMap_map]
      congr 1
      apply List.flatMap_congr
      intro i _
      congr 1
      omega
    · have hem : ((T.filter (fun p => p.2.level = lvl)).map (fun p => (lvl, p.2.collection, p.1))).isEmpty = true := by
        rw [List.isEmpty_iff, List.map_eq_nil_iff, List.filter_eq_nil_iff]
        intro p hp hl
        exact he ⟨p, hp, by simpa using hl⟩
      rw [hem]
      refine ⟨[], 0, rfl, rfl, ?_⟩
      intro p hp
      by_contra hlt
      exact he (hg p hp lvl (by omega))

theorem nodup_of_sorted_keys {T : Ports} (hs : MSorted T) : T.Nodup := by
  have := hs.nodup
  unfold keys at this
  exact List.Nodup.of_map _ this

/-- **C19 (`cards level`).** Every port of the tree is printed exactly once, with its collection and its level, level by level. -/
theorem C19_level_print (T : Ports) (h : FreshPorts T) :
    ∃ T' lines, loadPorts T = some T' ∧ levelPrint T' (T'.length + 1) 0 = some lines ∧
      (∀ l c n, (l, c, n) ∈ lines ↔ ∃ p, (n, p) ∈ T' ∧ p.collection = c ∧ p.level = l) ∧
      (lines.map (fun x => x.2.2)).Nodup ∧ lines.Pairwise (fun x y => x.1 ≤ y.1) := by
  obtain ⟨T', done, e, l⟩ := loadPorts_spec h
  have hs := l.sorted h
  have hle : aboveCount T' 0 < T'.length + 1 := by
    have : aboveCount T' 0 ≤ T'.length := List.countP_le_length
    omega
  obtain ⟨lines, m, e2, hl, hm⟩ := levelPrint_spec T' (l.noGap h) (T'.length + 1) 0 hle
  simp only [Nat.zero_add] at hl hm
  have hmem : ∀ l c n, (l, c, n) ∈ lines ↔ ∃ p, (n, p) ∈ T' ∧ p.collection = c ∧ p.level = l := by
    intro l c n
    rw [hl, List.mem_flatMap]
    constructor
    · rintro ⟨i, _, hi⟩
      obtain ⟨p, hp, e⟩ := List.mem_map.1 hi
      simp only [Prod.mk.injEq] at e
      obtain ⟨rfl, rfl, rfl⟩ := e
      rw [List.mem_filter] at hp
      exact ⟨p.2, hp.1, rfl, by simpa using hp.2⟩
    · rintro ⟨p, hp, rfl, rfl⟩
      refine ⟨p.level, List.mem_range.2 (hm _ hp), List.mem_map.2 ⟨_, List.mem_filter.2 ⟨hp, by simp⟩, rfl⟩⟩
  refine ⟨T', lines, e, e2, hmem, ?_, ?_⟩
  · rw [hl, List.map_flatMap]
    rw [List.nodup_flatMap]
    refine ⟨?_, ?_⟩
    · intro i _
      unfold linesAt
      rw [List.map_map]
      have : (T'.filter (fun p => p.2.level = i)).map (fun p => p.1) = (T'.filter (fun p => p.2.level = i)).map Prod.fst := rfl
      show ((T'.filter (fun p => p.2.level = i)).map (fun p => p.1)).Nodup
      exact List.Sublist.nodup (List.Sublist.map _ List.filter_sublist) hs.nodup
    · rw [List.pairwise_iff_getElem]
      intro i j hi hj hij
      simp only [List.length_range] at hi hj
      simp only [List.getElem_range, Function.onFun]
      intro x hx hy
      obtain ⟨a, ha, rfl⟩ := List.mem_map.1 hx
      obtain ⟨b, hb, hab⟩ := List.mem_map.1 hy
      obtain ⟨p, hp, rfl⟩ := List.mem_map.1 ha
      obtain ⟨q, hq, rfl⟩ := List.mem_map.1 hb
      simp only at hab
      rw [List.mem_filter] at hp hq
      have h1 := portLevel_of_mem hs (show (p.1, p.2) ∈ T' from hp.1)
      have h2 := portLevel_of_mem hs (show (q.1, q.2) ∈ T' from hq.1)
      rw [hab, h1] at h2
      have h3 : p.2.level = i := by simpa using hp.2
      have h4 : q.2.level = j := by simpa using hq.2
      omega
  · rw [hl, List.pairwise_flatMap]
    refine ⟨?_, ?_⟩
    · intro i _
      unfold linesAt
      rw [List.pairwise_map]
      exact List.pairwise_of_forall (fun _ _ => by simp)
    · apply List.Pairwise.imp_of_mem _ (List.pairwise_lt_range (n := m))
      intro i j _ _ hij x hx y hy
      obtain ⟨p, _, rfl⟩ := List.mem_map.1 hx
      obtain ⟨q, _, rfl⟩ := List.mem_map.1 hy
      simp only
      omega

/-- Elements listed level by level. -/
def byLevel {α : Type} (L : List α) (lev : α → Nat) (m : Nat) : List α := (List.range m).flatMap (fun l => L.filter (fun a => lev a = l))

theorem mem_byLevel {α : Type} {L : List α} {lev : α → Nat} {m : Nat} {a : α} : a ∈ byLevel L lev m ↔ a ∈ L ∧ lev a < m := by
  unfold byLevel
  rw [List.mem_flatMap]
  constructor
  · rintro ⟨l, hl, ha⟩
    rw [List.mem_filter] at ha
    have : lev a = l := by simpa using ha.2
    exact ⟨ha.1, this ▸ List.mem_range.1 hl⟩
  · rintro ⟨h1, h2⟩
    exact ⟨lev a, List.mem_range.2 h2, List.mem_filter.2 ⟨h1, by simp⟩⟩

theorem nodup_byLevel {α : Type} {L : List α} {lev : α → Nat} {m : Nat} (h : L.Nodup) : (byLevel L lev m).Nodup := by
  unfold byLevel
  rw [List.nodup_flatMap]
  refine ⟨fun i _ => List.Sublist.nodup List.filter_sublist h, ?_⟩
  apply List.Pairwise.imp_of_mem _ (List.pairwise_lt_range (n := m))
  intro i j _ _ hij x hx hy
  rw [List.mem_filter] at hx hy
  have h1 : lev x = i := by simpa using hx.2
  have h2 : lev x = j := by simpa using hy.2
  omega

theorem sorted_byLevel {α : Type} (L : List α) (lev : α → Nat) (m : Nat) : (byLevel L lev m).Pairwise (fun x y => lev x ≤ lev y) := by
  unfold byLevel
  rw [List.pairwise_flatMap]
  refine ⟨?_, ?_⟩
  · intro i _
    rw [List.pairwise_iff_forall_sublist]
    intro a b hab
    have ha : a ∈ L.filter (fun a => lev a = i) := hab.subset (by simp)
    have hb : b ∈ L.filter (fun a => lev a = i) := hab.subset (by simp)
    rw [List.mem_filter] at ha hb
    have h1 : lev a = i := by simpa using ha.2
    have h2 : lev b = i := by simpa using hb.2
    omega
  · apply List.Pairwise.imp_of_mem _ (List.pairwise_lt_range (n := m))
    intro i j _ _ hij x hx y hy
    rw [List.mem_filter] at hx hy
    have h1 : lev x = i := by simpa using hx.2
    have h2 : lev y = j := by simpa using hy.2
    omega

theorem levelMax_spec (T : Ports) (hg : NoGap T) (fuel lvl : Nat) (hf : aboveCount T lvl < fuel) :
    ∃ m, levelMax T fuel lvl = some m ∧ ∀ p ∈ T, p.2.level < m := by
  induction fuel generalizing lvl with
  | zero => omega
  | succ f ih =>
    simp only [levelMax]
    by_cases he : ∃ p ∈ T, p.2.level = lvl
    · have ht : T.any (fun p => p.2.level = lvl) = true := by
        obtain ⟨p, hp, hl⟩ := he
        rw [List.any_eq_true]
        exact ⟨p, hp, by simp [hl]⟩
      have := aboveCount_lt he
      rw [if_pos ht]
      exact ih (lvl + 1) (by omega)
    · have ht : ¬ T.any (fun p => p.2.level = lvl) = true := by
        rw [List.any_eq_true]
        rintro ⟨p, hp, hl⟩
        exact he ⟨p, hp, by simpa using hl⟩
      rw [if_neg ht]
      refine ⟨lvl, rfl, ?_⟩
      intro p hp
      by_contra hlt
      exact he (hg p hp lvl (by omega))

/-- **C19 (building a collection).** The build list of a collection, in the first call, contains exactly its ports, each once, and
no port comes before one it needs unless a cycle can be reached from it. -/
theorem C19_collection_order (T : Ports) (h : FreshPorts T) (coll : Str) :
    ∃ T' L, loadPorts T = some T' ∧ portsOfCollection T' coll [] = some L ∧
      (∀ n, n ∈ L ↔ ∃ p, (n, p) ∈ T ∧ p.collection = coll) ∧ L.Nodup ∧
      L.Pairwise (fun x y => CycleFree T x → ¬ Needs T x y) := by
  obtain ⟨T', done, e, l⟩ := loadPorts_spec h
  have hs := l.sorted h
  have hle : aboveCount T' 0 < T'.length + 1 := by
    have : aboveCount T' 0 ≤ T'.length := List.countP_le_length
    omega
  obtain ⟨m, e2, hm⟩ := levelMax_spec T' (l.noGap h) (T'.length + 1) 0 hle
  -- the ports of the collection, by level
  let P := T'.filter (fun p => p.2.collection = coll)
  have hL : (List.range (m + 1)).flatMap (fun l => (T'.filter (fun p => p.2.collection = coll ∧ p.2.level = l)).map (·.1)) =
      (byLevel P (fun p => p.2.level) (m + 1)).map (·.1) := by
    unfold byLevel
    rw [List.map_flatMap]
    apply List.flatMap_congr
    intro i _
    congr 1
    show _ = List.filter _ (T'.filter _)
    rw [List.filter_filter]
    apply List.filter_congr
    intro p _
    rw [Bool.eq_iff_iff]
    simp only [decide_eq_true_eq, Bool.and_eq_true]
    exact And.comm
  have hback : ∀ n p', (n, p') ∈ T' → ∃ p, (n, p) ∈ T ∧ p'.collection = p.collection := by
    intro n p' hp
    obtain ⟨p, hp, _, hc, _⟩ := l.port n p' hp
    exact ⟨p, hp, hc⟩
  have hsubP : P.Sublist T' := List.filter_sublist
  have hnd : ((byLevel P (fun p => p.2.level) (m + 1)).map (·.1)).Nodup := by
    rw [List.nodup_map_iff_inj_on (nodup_byLevel (hsubP.nodup (nodup_of_sorted_keys hs)))]
    rintro ⟨a, p⟩ ha ⟨b, q⟩ hb hab
    simp only at hab
    subst hab
    have h1 := mem_mget_of_sorted hs (hsubP.subset (mem_byLevel.1 ha).1)
    have h2 := mem_mget_of_sorted hs (hsubP.subset (mem_byLevel.1 hb).1)
    rw [h1] at h2
    rw [Option.some.inj h2]
  refine ⟨T', (byLevel P (fun p => p.2.level) (m + 1)).map (·.1), e, by
    unfold portsOfCollection; rw [e2]; simp only [Option.map_some, List.nil_append]; rw [hL], ?_, ?_, ?_⟩
  · intro n
    rw [List.mem_map]
    constructor
    · rintro ⟨⟨a, p'⟩, hp, rfl⟩
      have hp1 := (mem_byLevel.1 hp).1
      rw [List.mem_filter] at hp1
      obtain ⟨p, hp0, hc⟩ := hback a p' hp1.1
      exact ⟨p, hp0, by rw [← hc]; simpa using hp1.2⟩
    · rintro ⟨p, hp, hc⟩
      have hk : n ∈ keys T' := by rw [l.names]; exact List.mem_map.2 ⟨_, hp, rfl⟩
      obtain ⟨⟨n', p'⟩, hp', rfl⟩ := List.mem_map.1 hk
      obtain ⟨p2, hp2, hc2⟩ := hback n' p' hp'
      have h1 := mem_mget_of_sorted h.sorted hp
      have h2 := mem_mget_of_sorted h.sorted hp2
      simp only at h1
      rw [h2] at h1
      refine ⟨(n', p'), mem_byLevel.2 ⟨List.mem_filter.2 ⟨hp', ?_⟩, ?_⟩, rfl⟩
      · simp only [decide_eq_true_eq]
        rw [hc2, Option.some.inj h1]
        exact hc
      · have := hm _ hp'
        simp only at this ⊢
        omega
  · exact hnd
  · rw [List.pairwise_map]
    apply List.Pairwise.imp_of_mem _ (sorted_byLevel P (fun p => p.2.level) (m + 1))
    intro x y hx hy hxy hc hn
    have hx' := hsubP.subset (mem_byLevel.1 hx).1
    have hy' := hsubP.subset (mem_byLevel.1 hy).1
    have hk : x.1 ∈ keys T := by rw [← l.names]; exact List.mem_map.2 ⟨_, hx', rfl⟩
    have := (l.done_lt x.1 y.1 ((l.done_iff hk).2 hc) hn).2
    rw [portLevel_of_mem hs (show (x.1, x.2) ∈ T' from hx'), portLevel_of_mem hs (show (y.1, y.2) ∈ T' from hy')] at this
    omega

/-- The list is a member that is never cleared: asking for a second collection gives the ports of the first one again. -/
theorem C19_second_call_counterexample (T : Ports) (coll coll' : Str) (L L' : List Str) (_h : portsOfCollection T coll [] = some L)
    (h' : portsOfCollection T coll' L = some L') : ∀ n ∈ L, n ∈ L' := by
  intro n hn
  unfold portsOfCollection at h'
  cases hm : levelMax T (T.length + 1) 0 with
  | none => rw [hm] at h'; simp at h'
  | some m =>
    rw [hm] at h'
    simp only [Option.map_some, Option.some.injEq] at h'
    rw [← h']
    exact List.mem_append_left _ hn

/-- A tree used in the examples: `app` needs `lib` and the sub-package `gcc.lib`, `lib` needs `gcc`; `loop1` and `loop2` need each
other. -/
def sampleTree : Ports :=
  [("app".toList, mkPort "c".toList "1".toList 1 0 ["gcc.lib".toList, "lib".toList]),
   ("gcc".toList, mkPort "c".toList "9".toList 2 1 []),
   ("lib".toList, mkPort "c".toList "2".toList 1 2 ["gcc".toList]),
   ("loop1".toList, mkPort "d".toList "1".toList 1 3 ["loop2".toList]),
   ("loop2".toList, mkPort "d".toList "1".toList 1 4 ["loop1".toList])]

example : FreshPorts sampleTree := by
  refine ⟨by unfold Sorted; decide +kernel, by decide, ?_, ?_, ?_⟩ <;> decide

example : (loadPorts sampleTree).map (fun T => T.map (fun p => (p.1, p.2.level))) =
    some [("app".toList, 2), ("gcc".toList, 0), ("lib".toList, 1), ("loop1".toList, 0), ("loop2".toList, 0)] := by decide +kernel

/-- A port whose name has a dot is not recognised: `app` needs the port `py3.11`, which is in the tree, and gets the same level 0;
the port is reported missing as `py3`. -/
theorem C19_dotted_name_counterexample :
    let T : Ports := [("app".toList, mkPort "c".toList "1".toList 1 0 ["py3.11".toList]),
      ("py3.11".toList, mkPort "c".toList "1".toList 1 1 [])]
    FreshPorts T ∧ Declares T "app".toList "py3.11".toList ∧ "py3.11".toList ∈ keys T ∧
      (loadPorts T).map (fun T => T.map (fun p => p.2.level)) = some [0, 0] ∧
      badDependencies T = [("app".toList, "py3".toList)] := by
  refine ⟨⟨by unfold Sorted; decide +kernel, by decide, by decide, by decide, by decide⟩,
    ⟨_, List.mem_cons_self .., by simp [mkPort]⟩, by decide, by decide +kernel, by decide +kernel⟩

/-- Two ports with the same index, as an unreadable Pkgfile leaves them, break the levels: `b`
is counted down twice, past 0, and stays at level 0 like the port it needs. -/
theorem C19_same_index_counterexample :
    let T : Ports := [("a".toList, mkPort "c".toList "1".toList 1 0 []), ("a2".toList, mkPort "c".toList "1".toList 1 0 []),
      ("b".toList, mkPort "c".toList "1".toList 1 1 ["a".toList])]
    (loadPorts T).map (fun T => T.map (fun p => (p.2.level, p.2.decount))) = some [(0, -1), (0, -1), (0, -1)] := by decide +kernel

/-! ### C18: `cards depends` -/

/-- The number of ports not listed yet. -/
def unlisted (T : Ports) (list : List Str) : Nat := ((keys T).filter (fun n => !list.contains n)).length

theorem unlisted_mono {T : Ports} {a b : List Str} (h : ∀ x ∈ a, x ∈ b) : unlisted T b ≤ unlisted T a := by
  unfold unlisted
  rw [← List.countP_eq_length_filter, ← List.countP_eq_length_filter]
  apply List.countP_mono_left
  intro n _ hn
  simp only [Bool.not_eq_true', List.contains_eq_mem, decide_eq_false_iff_not] at hn ⊢
  exact fun hm => hn (h n hm)

theorem unlisted_lt {T : Ports} {a b : List Str} {n : Str} (h : ∀ x ∈ a, x ∈ b) (hk : n ∈ keys T) (ha : n ∉ a) (hb : n ∈ b) :
    unlisted T b < unlisted T a := by
  unfold unlisted
  generalize keys T = ks at hk
  induction ks with
  | nil => simp at hk
  | cons k ks ih =>
    have mono : (ks.filter (fun n => !b.contains n)).length ≤ (ks.filter (fun n => !a.contains n)).length := by
      rw [← List.countP_eq_length_filter, ← List.countP_eq_length_filter]
      apply List.countP_mono_left
      intro n _ hn
      simp only [Bool.not_eq_true', List.contains_eq_mem, decide_eq_false_iff_not] at hn ⊢
      exact fun hm => hn (h n hm)
    simp only [List.filter_cons]
    by_cases hkn : k = n
    · subst hkn
      have e1 : (!a.contains k) = true := by simp [ha]
      have e2 : (!b.contains k) = false := by simp [hb]
      rw [e1, e2]
      simp only [Bool.false_eq_true, if_false, if_true, List.length_cons]
      omega
    · have := ih (by simpa [Ne.symm hkn] using hk)
      by_cases h1 : k ∈ a
      · have e1 : (!a.contains k) = false := by simp [h1]
        have e2 : (!b.contains k) = false := by simp [h k h1]
        rw [e1, e2]
        simpa only [Bool.false_eq_true, if_false] using this
      · have e1 : (!a.contains k) = true := by simp [h1]
        rw [e1]
        by_cases h2 : k ∈ b
        · have e2 : (!b.contains k) = false := by simp [h2]
          rw [e2]
          simp only [Bool.false_eq_true, if_false, if_true, List.length_cons]
          omega
        · have e2 : (!b.contains k) = true := by simp [h2]
          rw [e2]
          simp only [if_true, List.length_cons]
          omega

theorem unlisted_le (T : Ports) (l : List Str) : unlisted T l ≤ T.length := by
  have : (keys T).length = T.length := by simp [keys]
  unfold unlisted
  rw [← this]
  exact List.length_filter_le _ _

/-- What a search from `n` gives. -/
structure Found (T : Ports) (roots : Str → Prop) (a b : List Str) : Prop where
  sub : ∀ x ∈ a, x ∈ b
  reach : ∀ x ∈ b, x ∈ a ∨ ∃ n, roots n ∧ ReflTransGen (Declares T) n x
  closed : ∀ x ∈ b, x ∉ a → ∀ y, Declares T x y → y ∈ b

theorem declares_iff {T : Ports} (hs : MSorted T) {n d : Str} : Declares T n d ↔ d ∈ portDeps T n := by
  unfold Declares portDeps
  constructor
  · rintro ⟨p, hp, hd⟩
    rw [mem_mget_of_sorted hs hp]; exact hd
  · intro h
    cases hg : mget T n with
    | none => rw [hg] at h; simp at h
    | some p => rw [hg] at h; exact ⟨p, mget_some_mem hg, h⟩

theorem dependsList_spec (T : Ports) (hs : MSorted T) (fuel : Nat) : ∀ (n : Str) (a : List Str), Sorted a → unlisted T a < fuel →
    ∃ b, dependsList T fuel n a = some b ∧ n ∈ b ∧ Sorted b ∧ Found T (· = n) a b := by
  induction fuel with
  | zero => intro n a _ h; omega
  | succ f ih =>
    intro n a hsa hu
    simp only [dependsList]
    by_cases hn : n ∈ a
    · exact ⟨a, by simp [hn], hn, hsa, fun x h => h, fun x h => Or.inl h, fun x h h' => absurd h h'⟩
    · simp only [List.contains_iff_mem, hn, if_false]
      have hsub : ∀ x ∈ a, x ∈ sinsert n a := fun x hx => by simp [hx]
      cases hg : mget T n with
      | none =>
        refine ⟨sinsert n a, rfl, by simp, sorted_sinsert hsa, hsub, ?_, ?_⟩
        · intro x hx
          rcases mem_sinsert.1 hx with h | h
          · exact Or.inr ⟨n, rfl, h ▸ .refl⟩
          · exact Or.inl h
        · intro x hx hx' y hy
          rcases mem_sinsert.1 hx with h | h
          · subst h
            rw [declares_iff hs] at hy
            unfold portDeps at hy
            rw [hg] at hy
            simp at hy
          · exact absurd h hx'
      | some p =>
        have hkey : n ∈ keys T := List.mem_map.2 ⟨_, mget_some_mem hg, rfl⟩
        have hlt : unlisted T (sinsert n a) < unlisted T a := unlisted_lt hsub hkey hn (by simp)
        have loop : ∀ (es : List Str) (v : List Str), Sorted v → unlisted T v < f →
            ∃ w, es.foldlM (fun list d => dependsList T f d list) v = some w ∧ Sorted w ∧ (∀ d ∈ es, d ∈ w) ∧ Found T (· ∈ es) v w := by
          intro es
          induction es with
          | nil => intro v hv _; exact ⟨v, rfl, hv, by simp, fun x h => h, fun x h => Or.inl h, fun x h h' => absurd h h'⟩
          | cons d es ihe =>
            intro v hv huv
            obtain ⟨v1, e1, m1, s1, f1⟩ := ih d v hv huv
            obtain ⟨w, e2, s2, m2, f2⟩ := ihe v1 s1 (Nat.lt_of_le_of_lt (unlisted_mono f1.sub) huv)
            refine ⟨w, by simp [List.foldlM_cons, e1, e2], s2, ?_, fun x h => f2.sub x (f1.sub x h), ?_, ?_⟩
            · intro x hx
              rcases List.mem_cons.1 hx with h | h
              · exact h ▸ f2.sub d m1
              · exact m2 x h
            · intro x hx
              rcases f2.reach x hx with h | ⟨m, hm, hr⟩
              · rcases f1.reach x h with h | ⟨m, hm, hr⟩
                · exact Or.inl h
                · exact Or.inr ⟨m, hm ▸ List.mem_cons_self .., hr⟩
              · exact Or.inr ⟨m, List.mem_cons_of_mem _ hm, hr⟩
            · intro x hx hx' y hy
              by_cases h : x ∈ v1
              · exact f2.sub y (f1.closed x h hx' y hy)
              · exact f2.closed x hx h y hy
        obtain ⟨w, e, sw, mw, fw⟩ := loop p.deps (sinsert n a) (sorted_sinsert hsa) (by omega)
        refine ⟨w, e, fw.sub n (by simp), sw, fun x h => fw.sub x (hsub x h), ?_, ?_⟩
        · intro x hx
          rcases fw.reach x hx with h | ⟨m, hm, hr⟩
          · rcases mem_sinsert.1 h with h | h
            · exact Or.inr ⟨n, rfl, h ▸ .refl⟩
            · exact Or.inl h
          · exact Or.inr ⟨n, rfl, .head ⟨p, mget_some_mem hg, hm⟩ hr⟩
        · intro x hx hx' y hy
          by_cases h : x = n
          · subst h
            rw [declares_iff hs] at hy
            unfold portDeps at hy
            rw [hg] at hy
            exact mw y hy
          · exact fw.closed x hx (by simp [h, hx']) y hy

/-- **C18 (the set).** Whatever the tree, cyclic or not, the search ends and gathers exactly the names reachable through the
listed dependencies, each once. -/
theorem C18_list (T : Ports) (hs : Sorted (keys T)) (name : Str) :
    ∃ l, dependsList T (T.length + 1) name [] = some l ∧ l.Nodup ∧ ∀ x, x ∈ l ↔ ReflTransGen (Declares T) name x := by
  obtain ⟨l, e, hn, hsl, f⟩ := dependsList_spec T hs (T.length + 1) name [] (by simp [Sorted])
    (by have := unlisted_le T []; omega)
  refine ⟨l, e, hsl.imp (fun {a b} hab => by rintro rfl; exact str_lt_irrefl a hab), fun x => ⟨?_, ?_⟩⟩
  · intro hx
    rcases f.reach x hx with h | ⟨m, rfl, hr⟩
    · simp at h
    · exact hr
  · intro hr
    induction hr with
    | refl => exact hn
    | tail _ hd ih => exact f.closed _ ih (by simp) _ hd

theorem Loaded.declares {T T' : Ports} {done : Str → Prop} (h : Loaded T T' done) (hf : FreshPorts T) (a d : Str) :
    Declares T' a d ↔ Declares T a d := by
  constructor
  · rintro ⟨p', hp', hd⟩
    obtain ⟨p, hp, e, _⟩ := h.port a p' hp'
    exact ⟨p, hp, e ▸ hd⟩
  · rintro ⟨p, hp, hd⟩
    have hk : a ∈ keys T' := by rw [h.names]; exact List.mem_map.2 ⟨_, hp, rfl⟩
    obtain ⟨⟨a', p'⟩, hp', rfl⟩ := List.mem_map.1 hk
    obtain ⟨p2, hp2, e, _⟩ := h.port a' p' hp'
    have h1 := mem_mget_of_sorted hf.sorted hp
    rw [show a' = (a', p').1 from rfl, mem_mget_of_sorted hf.sorted hp2] at h1
    refine ⟨p', hp', ?_⟩
    rw [e, Option.some.inj h1]
    exact hd

/-- **C18 (the output).** When every dependency below the port is a port of the tree whose name has no dot, and no cycle can be
reached, `cards depends` prints exactly the ports reachable from it (itself included), each once with its level, and every
port after the ports it lists as dependencies. -/
theorem C18_printed_partial (T : Ports) (h : FreshPorts T) (name : Str) (hn : name ∈ keys T) (hc : CycleFree T name)
    (hd : ∀ x d, ReflTransGen (Declares T) name x → Declares T x d → d ∈ keys T ∧ '.' ∉ d) :
    ∃ T' lines, loadPorts T = some T' ∧ dependsPrint T' name = some lines ∧
      (∀ l n, (l, n) ∈ lines ↔ ReflTransGen (Declares T) name n ∧ l = portLevel T' n) ∧
      (lines.map (·.2)).Nodup ∧
      lines.Pairwise (fun x y => ¬ (Declares T x.2 y.2 ∧ x.2 ≠ y.2)) := by
  obtain ⟨T', done, e, l⟩ := loadPorts_spec h
  have hs := l.sorted h
  obtain ⟨list, el, hnd, hmem⟩ := C18_list T' hs name
  have hdecl : ∀ a d, Declares T' a d ↔ Declares T a d := l.declares h
  have hrefl : ∀ x, ReflTransGen (Declares T') name x ↔ ReflTransGen (Declares T) name x := by
    intro x
    have : Declares T' = Declares T := by funext a d; exact propext (hdecl a d)
    rw [this]
  have hdone0 : done name := (l.done_iff hn).2 hc
  -- everything reachable has a proper level, below the one of the port
  have hbelow : ∀ x, ReflTransGen (Declares T) name x → x ∈ keys T ∧ done x ∧ (x = name ∨ portLevel T' x < portLevel T' name) := by
    intro x hx
    induction hx with
    | refl => exact ⟨hn, hdone0, Or.inl rfl⟩
    | @tail b c hb hbc ih =>
      obtain ⟨hk, hdot⟩ := hd b c hb hbc
      by_cases hcb : b = c
      · exact hcb ▸ ih
      · have hneed : Needs T b c := ⟨hcb, hk, c, hbc, Or.inl ⟨rfl, hdot⟩⟩
        have := l.done_lt b c ih.2.1 hneed
        refine ⟨hk, this.1, Or.inr ?_⟩
        rcases ih.2.2 with rfl | hlt
        · exact this.2
        · omega
  have horder : ∀ x y, ReflTransGen (Declares T) name x → Declares T x y → x ≠ y → portLevel T' y < portLevel T' x := by
    intro x y hx hxy hne
    obtain ⟨hk, hdot⟩ := hd x y hx hxy
    exact (l.done_lt x y (hbelow x hx).2.1 ⟨hne, hk, y, hxy, Or.inl ⟨rfl, hdot⟩⟩).2
  let lev := portLevel T' name
  have hlines : (List.range (portLevel T' name)).flatMap (fun l => (list.filter (fun i => portLevel T' i = l)).map (fun i => (l, i))) =
      (byLevel list (portLevel T') (portLevel T' name)).map (fun i => (portLevel T' i, i)) := by
    unfold byLevel
    rw [List.map_flatMap]
    apply List.flatMap_congr
    intro i _
    apply List.map_congr_left
    intro x hx
    rw [List.mem_filter] at hx
    have : portLevel T' x = i := by simpa using hx.2
    rw [this]
  refine ⟨T', _, e, by unfold dependsPrint; rw [el]; simp only [Option.map_some]; rw [hlines], ?_, ?_, ?_⟩
  · intro l n
    rw [List.mem_append, List.mem_map, List.mem_singleton]
    constructor
    · rintro (⟨x, hx, he⟩ | he)
      · simp only [Prod.mk.injEq] at he
        obtain ⟨rfl, rfl⟩ := he
        exact ⟨(hrefl x).1 ((hmem x).1 (mem_byLevel.1 hx).1), rfl⟩
      · simp only [Prod.mk.injEq] at he
        obtain ⟨rfl, rfl⟩ := he
        exact ⟨.refl, rfl⟩
    · rintro ⟨hr, rfl⟩
      rcases (hbelow n hr).2.2 with rfl | hlt
      · exact Or.inr rfl
      · exact Or.inl ⟨n, mem_byLevel.2 ⟨(hmem n).2 ((hrefl n).2 hr), hlt⟩, rfl⟩
  · rw [List.map_append, List.map_map]
    have : ((fun x : Nat × Str => x.2) ∘ fun i => (portLevel T' i, i)) = id := rfl
    rw [this, List.map_id, List.nodup_append]
    refine ⟨nodup_byLevel hnd, by simp, ?_⟩
    intro a ha b hb
    simp only [List.map_cons, List.map_nil, List.mem_singleton] at hb
    rintro rfl
    subst hb
    have := (mem_byLevel.1 ha).2
    omega
  · rw [List.pairwise_append]
    refine ⟨?_, by simp, ?_⟩
    · rw [List.pairwise_map]
      apply List.Pairwise.imp_of_mem _ (sorted_byLevel list (portLevel T') (portLevel T' name))
      rintro x y hx hy hxy ⟨h1, h2⟩
      have := horder x y ((hrefl x).1 ((hmem x).1 (mem_byLevel.1 hx).1)) h1 h2
      omega
    · intro x hx y hy
      rw [List.mem_singleton] at hy
      subst hy
      obtain ⟨i, hi, rfl⟩ := List.mem_map.1 hx
      rintro ⟨h1, h2⟩
      have := horder i name ((hrefl i).1 ((hmem i).1 (mem_byLevel.1 hi).1)) h1 h2
      have := (mem_byLevel.1 hi).2
      omega

/-- **C18 (the output, exactly).** Whatever the tree, `cards depends` ends; it prints the reachable names whose level is below that of the port, each once with its level, in the order of levels,
and the port itself last. So a reachable name is missing exactly when its level is not below that of the port (and it is not the port). -/
theorem C18_printed_exact (T : Ports) (hs : Sorted (keys T)) (name : Str) :
    ∃ lines, dependsPrint T name = some lines ∧ lines.Nodup ∧ lines.Pairwise (fun x y => x.1 ≤ y.1) ∧ lines.getLast? = some (portLevel T name, name) ∧
      ∀ l n, (l, n) ∈ lines ↔ (l = portLevel T name ∧ n = name) ∨ (ReflTransGen (Declares T) name n ∧ l = portLevel T n ∧ portLevel T n < portLevel T name) := by
  obtain ⟨list, h1, h2, h3⟩ := C18_list T hs name
  refine ⟨_, by rw [dependsPrint, h1]; rfl, ?_, ?_, by simp, ?_⟩
  · rw [List.nodup_append]
    refine ⟨?_, by simp, ?_⟩
    · rw [List.nodup_flatMap]
      constructor
      · intro l _
        exact (h2.filter _).map (fun a b h => (Prod.mk.inj h).2)
      · refine List.Nodup.pairwise_of_forall_ne List.nodup_range ?_
        intro a _ b _ hab x hx hy
        simp only [List.mem_map, List.mem_filter] at hx hy
        obtain ⟨i, _, rfl⟩ := hx
        obtain ⟨j, _, e⟩ := hy
        exact hab (Prod.mk.inj e).1.symm
    · rintro ⟨l, n⟩ hx y hy e
      simp only [List.mem_singleton] at hy
      rw [hy] at e
      simp only [List.mem_flatMap, List.mem_range, List.mem_map] at hx
      obtain ⟨a, ha, i, _, hi⟩ := hx
      rw [← hi] at e
      have := (Prod.mk.inj e).1
      omega
  · rw [List.pairwise_append]
    refine ⟨?_, by simp, ?_⟩
    · rw [List.pairwise_flatMap]
      constructor
      · intro l _
        rw [List.pairwise_map]
        exact List.pairwise_of_forall fun _ _ => Nat.le_refl _
      · refine List.pairwise_lt_range.imp ?_
        intro a b hab x hx y hy
        simp only [List.mem_map] at hx hy
        obtain ⟨i, _, rfl⟩ := hx
        obtain ⟨j, _, rfl⟩ := hy
        exact Nat.le_of_lt hab
    · intro x hx y hy
      simp only [List.mem_singleton] at hy
      simp only [List.mem_flatMap, List.mem_range, List.mem_map] at hx
      obtain ⟨a, ha, i, _, hi⟩ := hx
      rw [hy, ← hi]
      exact Nat.le_of_lt ha
  · intro l n
    simp only [List.mem_append, List.mem_flatMap, List.mem_range, List.mem_map, List.mem_filter, decide_eq_true_eq, List.mem_singleton, Prod.mk.injEq]
    constructor
    · rintro (⟨a, ha, i, ⟨hi, hl⟩, rfl, rfl⟩ | h)
      · exact Or.inr ⟨(h3 _).mp hi, hl.symm, hl ▸ ha⟩
      · exact Or.inl h
    · rintro (h | ⟨hr, rfl, hlt⟩)
      · exact Or.inr h
      · exact Or.inl ⟨_, hlt, n, ⟨(h3 _).mpr hr, rfl⟩, rfl, rfl⟩

/-- With a cycle the output is not what is reachable: `loop1` needs `loop2`, which is not printed. -/
theorem C18_cycle_counterexample :
    (loadPorts sampleTree).bind (fun T => dependsPrint T "loop1".toList) = some [(0, "loop1".toList)] ∧
    Declares sampleTree "loop1".toList "loop2".toList := by
  refine ⟨by decide +kernel, ⟨mkPort "d".toList "1".toList 1 3 ["loop2".toList], ?_, ?_⟩⟩
  · simp [sampleTree]
  · simp [mkPort]

/-- A dependency on a sub-package is printed as such, at level 0, and the port it belongs to is not followed: `cards depends a`
shows `g.lib` but neither `g` nor what `g` needs. -/
theorem C18_subpackage_counterexample :
    let T : Ports := [("a".toList, mkPort "c".toList "1".toList 1 0 ["g.lib".toList]),
      ("g".toList, mkPort "c".toList "1".toList 1 1 ["z".toList]), ("z".toList, mkPort "c".toList "1".toList 1 2 [])]
    (loadPorts T).bind (fun T => dependsPrint T "a".toList) = some [(0, "g.lib".toList), (2, "a".toList)] := by decide +kernel

example : (loadPorts sampleTree).bind (fun T => dependsPrint T "lib".toList) = some [(0, "gcc".toList), (1, "lib".toList)] := by
  decide +kernel

/-! ### C21: `cards dependent` -/

theorem mem_describe_fold (name : Str) (s x : Str) (ds : List Str) (acc : List Str) :
    x ∈ ds.foldl (fun acc d => if d = name then sinsert s acc else acc) acc ↔ x ∈ acc ∨ (name ∈ ds ∧ x = s) := by
  induction ds generalizing acc with
  | nil => simp
  | cons d ds ih =>
    rw [List.foldl_cons, ih]
    by_cases hd : d = name
    · simp [hd]; tauto
    · simp [hd, Ne.symm hd]

/-- **C21.** `cards dependent` prints exactly the ports that list the name, as written, among their dependencies. A dependency on a
sub-package of the port does not count (C21_subpackage_counterexample). -/
theorem C21_dependent (T : Ports) (name s : Str) :
    s ∈ dependentList T name ↔ ∃ n p, (n, p) ∈ T ∧ name ∈ p.deps ∧
      s = "(".toList ++ p.collection ++ ") ".toList ++ n ++ " ".toList ++ p.version ++ "-".toList ++ itos p.release := by
  unfold dependentList
  have key : ∀ acc : List Str, s ∈ T.foldl (fun acc p => p.2.deps.foldl (fun acc d => if d = name then sinsert (describe p.1 p.2) acc else acc) acc) acc ↔
      s ∈ acc ∨ ∃ n p, (n, p) ∈ T ∧ name ∈ p.deps ∧ s = describe n p := by
    induction T with
    | nil => simp
    | cons q T ih =>
      intro acc
      rw [List.foldl_cons, ih, mem_describe_fold]
      constructor
      · rintro ((h | ⟨h1, h2⟩) | ⟨n, p, hp, h1, h2⟩)
        · exact Or.inl h
        · exact Or.inr ⟨q.1, q.2, by simp, h1, h2⟩
        · exact Or.inr ⟨n, p, by simp [hp], h1, h2⟩
      · rintro (h | ⟨n, p, hp, h1, h2⟩)
        · exact Or.inl (Or.inl h)
        · rcases List.mem_cons.1 hp with e | hp
          · exact Or.inl (Or.inr ⟨e ▸ h1, e ▸ h2⟩)
          · exact Or.inr ⟨n, p, hp, h1, h2⟩
  rw [key]
  simp only [List.not_mem_nil, false_or]
  rfl

/-- `app` needs `gcc.lib`, hence the port `gcc` (it is built after it), but is not listed as dependent on `gcc`. -/
theorem C21_subpackage_counterexample :
    Needs sampleTree "app".toList "gcc".toList ∧
    ∀ s ∈ dependentList sampleTree "gcc".toList, s ≠ describe "app".toList (mkPort "c".toList "1".toList 1 0 ["gcc.lib".toList, "lib".toList]) := by
  refine ⟨⟨by decide, by decide, "gcc.lib".toList, ⟨_, List.mem_cons_self .., by simp [mkPort]⟩, Or.inr ⟨"lib".toList, by decide, by decide⟩⟩, ?_⟩
  intro s hs
  rw [C21_dependent] at hs
  obtain ⟨n, p, hp, hd, rfl⟩ := hs
  simp only [sampleTree, List.mem_cons, Prod.mk.injEq, List.not_mem_nil, or_false] at hp
  rcases hp with ⟨rfl, rfl⟩ | ⟨rfl, rfl⟩ | ⟨rfl, rfl⟩ | ⟨rfl, rfl⟩ | ⟨rfl, rfl⟩
  · simp [mkPort] at hd
  · simp [mkPort] at hd
  · simp [mkPort, describe]
  · simp [mkPort] at hd
  · simp [mkPort] at hd

/-! ### C20: `cards deptree` -/

/-- The dependencies of a port listed before the port itself, if it lists itself. -/
def Walks (T : Ports) (a b : Str) : Prop := b ∈ beforeSelf a (portDeps T a)

/-- The number of lines that show `x` without the mark `-->`. -/
def plainLines (x : Str) (lines : List TreeLine) : Nat := lines.countP (fun l => l.name = x && !l.arrow)

/-- What the printer does from `n` with the ports `a` already expanded. -/
structure Printed (T : Ports) (roots : Str → Prop) (a b : List Str) (lines : List TreeLine) : Prop where
  sub : ∀ x ∈ a, x ∈ b
  nodup : a.Nodup → b.Nodup
  reach : ∀ x ∈ b, x ∈ a ∨ ∃ n, roots n ∧ ReflTransGen (Walks T) n x
  closed : ∀ x ∈ b, x ∉ a → ∀ y, Walks T x y → y ∈ b
  shown : ∀ x ∈ b, x ∉ a → ∃ l ∈ lines, l.name = x
  listed : ∀ l ∈ lines, l.name ∈ b
  once : ∀ x, portDeps T x ≠ [] → plainLines x lines = if x ∈ b ∧ x ∉ a then 1 else 0

theorem plainLines_append (x : Str) (a b : List TreeLine) : plainLines x (a ++ b) = plainLines x a + plainLines x b :=
  List.countP_append

theorem deptree_spec (T : Ports) (fuel : Nat) : ∀ (n : Str) (lvl : Nat) (a : List Str), unlisted T a < fuel →
    ∃ b lines, deptree T fuel n lvl a = some (b, lines) ∧ n ∈ b ∧ lines ≠ [] ∧ Printed T (· = n) a b lines ∧
      (∀ l ∈ lines, lvl ≤ l.level) := by
  induction fuel with
  | zero => intro n lvl a h; omega
  | succ f ih =>
    intro n lvl a hu
    simp only [deptree]
    by_cases hn : n ∈ a
    · refine ⟨a, [⟨lvl, n, !(portDeps T n).isEmpty⟩], by simp [hn], hn, by simp,
        ⟨fun x h => h, id, fun x h => Or.inl h, fun x h h' => absurd h h', fun x h h' => absurd h h', ?_, ?_⟩, by simp⟩
      · intro l hl
        rw [List.mem_singleton] at hl
        rw [hl]; exact hn
      · intro x hx
        rw [if_neg (by tauto)]
        unfold plainLines
        rw [List.countP_eq_zero]
        intro l hl
        rw [List.mem_singleton] at hl
        subst hl
        simp only [Bool.and_eq_true, decide_eq_true_eq, Bool.not_not, List.isEmpty_iff, not_and]
        rintro rfl
        exact hx
    · have hcn : a.contains n = false := by simpa using hn
      rw [hcn]
      simp only [Bool.false_eq_true, if_false]
      have hsub : ∀ x ∈ a, x ∈ a ++ [n] := fun x hx => by simp [hx]
      -- the loop over the dependencies
      have loop : ∀ (es : List Str) (v : List Str) (ls : List TreeLine), unlisted T v < f →
          ∃ w ls', es.foldlM (fun s d => (deptree T f d (lvl + 1) s.1).map (fun r => (r.1, s.2 ++ r.2))) (v, ls) = some (w, ls ++ ls') ∧
            (∀ d ∈ es, d ∈ w) ∧ Printed T (· ∈ es) v w ls' ∧ (∀ l ∈ ls', lvl ≤ l.level) := by
        intro es
        induction es with
        | nil =>
          intro v ls _
          refine ⟨v, [], by simp, by simp, ⟨fun x h => h, id, fun x h => Or.inl h, fun x h h' => absurd h h', fun x h h' => absurd h h', by simp, ?_⟩, by simp⟩
          intro x _
          rw [if_neg (by tauto)]
          rfl
        | cons d es ihe =>
          intro v ls huv
          obtain ⟨v1, l1, e1, m1, _, p1, lv1⟩ := ih d (lvl + 1) v huv
          obtain ⟨w, l2, e2, m2, p2, lv2⟩ := ihe v1 (ls ++ l1) (Nat.lt_of_le_of_lt (unlisted_mono p1.sub) huv)
          refine ⟨w, l1 ++ l2, by simp [List.foldlM_cons, e1, e2], ?_, ⟨fun x h => p2.sub x (p1.sub x h), fun h => p2.nodup (p1.nodup h), ?_, ?_, ?_, ?_, ?_⟩, ?_⟩
          · intro x hx
            rcases List.mem_cons.1 hx with h | h
            · exact h ▸ p2.sub d m1
            · exact m2 x h
          · intro x hx
            rcases p2.reach x hx with h | ⟨m, hm, hr⟩
            · rcases p1.reach x h with h | ⟨m, hm, hr⟩
              · exact Or.inl h
              · exact Or.inr ⟨m, hm ▸ List.mem_cons_self .., hr⟩
            · exact Or.inr ⟨m, List.mem_cons_of_mem _ hm, hr⟩
          · intro x hx hx' y hy
            by_cases h : x ∈ v1
            · exact p2.sub y (p1.closed x h hx' y hy)
            · exact p2.closed x hx h y hy
          · intro x hx hx'
            by_cases h : x ∈ v1
            · obtain ⟨l, hl, e⟩ := p1.shown x h hx'
              exact ⟨l, by simp [hl], e⟩
            · obtain ⟨l, hl, e⟩ := p2.shown x hx h
              exact ⟨l, by simp [hl], e⟩
          · intro l hl
            rcases List.mem_append.1 hl with h | h
            · exact p2.sub _ (p1.listed l h)
            · exact p2.listed l h
          · intro x hx
            rw [plainLines_append, p1.once x hx, p2.once x hx]
            have := p1.sub x
            have := p2.sub x
            by_cases h1 : x ∈ v <;> by_cases h2 : x ∈ v1 <;> by_cases h3 : x ∈ w <;> simp_all
          · intro l hl
            rcases List.mem_append.1 hl with h | h
            · have := lv1 l h; omega
            · exact lv2 l h
      by_cases hdeps : portDeps T n = []
      · -- nothing below
        have hb : beforeSelf n (portDeps T n) = [] := by rw [hdeps]; rfl
        rw [hb]
        refine ⟨a ++ [n], [⟨lvl, n, false⟩], rfl, by simp, by simp, ⟨hsub, ?_, ?_, ?_, ?_, ?_, ?_⟩, by simp⟩
        · intro hnd
          rw [List.nodup_append]
          refine ⟨hnd, by simp, ?_⟩
          intro x hx y hy
          rw [List.mem_singleton] at hy
          rintro rfl
          exact hn (hy ▸ hx)
        · intro x hx
          rcases List.mem_append.1 hx with h | h
          · exact Or.inl h
          · rw [List.mem_singleton] at h
            exact Or.inr ⟨n, rfl, h ▸ .refl⟩
        · intro x hx hx' y hy
          rcases List.mem_append.1 hx with h | h
          · exact absurd h hx'
          · rw [List.mem_singleton] at h
            subst h
            unfold Walks at hy
            rw [hb] at hy
            simp at hy
        · intro x hx hx'
          rcases List.mem_append.1 hx with h | h
          · exact absurd h hx'
          · rw [List.mem_singleton] at h
            exact ⟨_, List.mem_singleton.2 rfl, h.symm⟩
        · intro l hl
          rw [List.mem_singleton] at hl
          subst hl
          simp
        · intro x hx
          have hxn : x ≠ n := by rintro rfl; exact hx hdeps
          rw [if_neg (by simp [hxn])]
          unfold plainLines
          rw [List.countP_eq_zero]
          intro l hl
          rw [List.mem_singleton] at hl
          subst hl
          simp [Ne.symm hxn]
      · have hkey : n ∈ keys T := by
          unfold portDeps at hdeps
          cases hg : mget T n with
          | none => rw [hg] at hdeps; simp at hdeps
          | some p => exact List.mem_map.2 ⟨_, mget_some_mem hg, rfl⟩
        have hlt : unlisted T (a ++ [n]) < unlisted T a := unlisted_lt hsub hkey hn (by simp)
        obtain ⟨w, ls', e, mw, pw, lw⟩ := loop (beforeSelf n (portDeps T n)) (a ++ [n]) [⟨lvl, n, false⟩] (by omega)
        refine ⟨w, _, e, pw.sub n (by simp), by simp, ⟨fun x h => pw.sub x (hsub x h), ?_, ?_, ?_, ?_, ?_, ?_⟩, ?_⟩
        · intro hnd
          apply pw.nodup
          rw [List.nodup_append]
          refine ⟨hnd, by simp, ?_⟩
          intro x hx y hy
          rw [List.mem_singleton] at hy
          rintro rfl
          exact hn (hy ▸ hx)
        · intro x hx
          rcases pw.reach x hx with h | ⟨m, hm, hr⟩
          · rcases List.mem_append.1 h with h | h
            · exact Or.inl h
            · rw [List.mem_singleton] at h
              exact Or.inr ⟨n, rfl, h ▸ .refl⟩
          · exact Or.inr ⟨n, rfl, .head hm hr⟩
        · intro x hx hx' y hy
          by_cases h : x = n
          · subst h
            exact mw y hy
          · exact pw.closed x hx (by simp [h, hx']) y hy
        · intro x hx hx'
          by_cases h : x = n
          · exact ⟨_, List.mem_append_left _ (List.mem_singleton.2 rfl), h.symm⟩
          · obtain ⟨l, hl, e⟩ := pw.shown x hx (by simp [h, hx'])
            exact ⟨l, List.mem_append_right _ hl, e⟩
        · intro l hl
          rcases List.mem_append.1 hl with h | h
          · rw [List.mem_singleton] at h
            subst h
            exact pw.sub n (by simp)
          · exact pw.listed l h
        · intro x hx
          rw [plainLines_append, pw.once x hx]
          by_cases hxn : x = n
          · subst hxn
            have hw : x ∈ w := pw.sub x (by simp)
            simp [plainLines, hw, hn]
          · simp [plainLines, hxn, Ne.symm hxn]
        · intro l hl
          rcases List.mem_append.1 hl with h | h
          · rw [List.mem_singleton] at h
            subst h
            exact Nat.le_refl _
          · exact lw l h

/-- **C20.** Whatever the tree, the printer ends; it expands a port at most once: a port with dependencies has exactly one line without
the mark `-->`; and when no port lists itself it prints exactly the ports reachable from the name. Missing for the full property: ports that list themselves (C20_self_counterexample). -/
theorem C20_deptree_partial (T : Ports) (hs : Sorted (keys T)) (name : Str) :
    ∃ list lines, deptree T (T.length + 1) name 0 [] = some (list, lines) ∧ list.Nodup ∧
      (∀ x, (∃ l ∈ lines, l.name = x) → ReflTransGen (Declares T) name x) ∧
      (∀ x, portDeps T x ≠ [] → (∃ l ∈ lines, l.name = x) → (lines.filter (fun l => l.name = x ∧ l.arrow = false)).length = 1) ∧
      ((∀ x, ReflTransGen (Declares T) name x → ¬ Declares T x x) →
        ∀ x, ReflTransGen (Declares T) name x → ∃ l ∈ lines, l.name = x) := by
  obtain ⟨b, lines, e, hn, _, p, _⟩ := deptree_spec T (T.length + 1) name 0 [] (by have := unlisted_le T []; omega)
  have hw : ∀ x y, Walks T x y → Declares T x y := by
    intro x y h
    rw [declares_iff hs]
    exact (List.takeWhile_sublist _).subset h
  refine ⟨b, lines, e, p.nodup List.nodup_nil, ?_, ?_, ?_⟩
  · rintro x ⟨l, hl, rfl⟩
    rcases p.reach _ (p.listed l hl) with h | ⟨m, rfl, hr⟩
    · simp at h
    · exact ReflTransGen.mono (fun a b h => hw a b h) _ _ hr
  · rintro x hx ⟨l, hl, rfl⟩
    have h1 := p.once _ hx
    rw [if_pos ⟨p.listed l hl, by simp⟩] at h1
    rw [← h1]
    unfold plainLines
    rw [List.countP_eq_length_filter]
    congr 1
    apply List.filter_congr
    intro m _
    rw [Bool.eq_iff_iff]
    simp
  · intro hself x hx
    apply p.shown x _ (by simp)
    induction hx with
    | refl => exact hn
    | @tail y z hy hyz ih =>
      apply p.closed y ih (by simp) z
      have hns := hself y hy
      rw [declares_iff hs] at hyz hns
      unfold Walks beforeSelf
      have : (portDeps T y).takeWhile (fun d => d ≠ y) = portDeps T y := by
        have all : ∀ l : List Str, y ∉ l → l.takeWhile (fun d => d ≠ y) = l := by
          intro l
          induction l with
          | nil => intro _; rfl
          | cons d l ihl =>
            intro hnl
            simp only [List.mem_cons, not_or] at hnl
            rw [List.takeWhile_cons, if_pos (by simp [Ne.symm hnl.1]), ihl hnl.2]
        exact all _ hns
      rw [this]
      exact hyz

/-- `b` stands in the list of dependencies of `a`, and `a` itself does not stand before it. -/
def ListedBeforeSelf (T : Ports) (a b : Str) : Prop := ∃ pre post, portDeps T a = pre ++ b :: post ∧ a ∉ pre ∧ b ≠ a

theorem walks_iff (T : Ports) (a b : Str) : Walks T a b ↔ ListedBeforeSelf T a b := by
  unfold Walks ListedBeforeSelf beforeSelf
  generalize portDeps T a = l
  induction l with
  | nil => simp
  | cons x l ih =>
    rw [List.takeWhile_cons]
    by_cases hx : x = a
    · subst hx
      simp only [ne_eq, not_true_eq_false, decide_false, Bool.false_eq_true, if_false, List.not_mem_nil, false_iff]
      rintro ⟨pre, post, e, h1, h2⟩
      cases pre with
      | nil => exact h2 (List.cons.inj e).1.symm
      | cons y pre => exact h1 (by rw [← (List.cons.inj e).1]; exact List.mem_cons_self ..)
    · rw [if_pos (by simp [hx]), List.mem_cons, ih]
      constructor
      · rintro (rfl | ⟨pre, post, e, h1, h2⟩)
        · exact ⟨[], l, rfl, by simp, hx⟩
        · exact ⟨x :: pre, post, by rw [e]; rfl, by simp [h1, Ne.symm hx], h2⟩
      · rintro ⟨pre, post, e, h1, h2⟩
        cases pre with
        | nil => exact Or.inl (List.cons.inj e).1.symm
        | cons y pre =>
          exact Or.inr ⟨pre, post, (List.cons.inj e).2, fun h => h1 (List.mem_cons_of_mem _ h), h2⟩

/-- **C20, exactly.** Whatever the tree, a name is printed exactly when it can be reached from the port through dependencies that are not listed behind the port that lists them. -/
theorem C20_exact (T : Ports) (name : Str) :
    ∃ list lines, deptree T (T.length + 1) name 0 [] = some (list, lines) ∧
      ∀ x, (∃ l ∈ lines, l.name = x) ↔ ReflTransGen (ListedBeforeSelf T) name x := by
  obtain ⟨b, lines, e, hn, _, p, _⟩ := deptree_spec T (T.length + 1) name 0 [] (by have := unlisted_le T []; omega)
  have hw : Walks T = ListedBeforeSelf T := by funext a b; exact propext (walks_iff T a b)
  rw [← hw]
  refine ⟨b, lines, e, fun x => ⟨?_, ?_⟩⟩
  · rintro ⟨l, hl, rfl⟩
    rcases p.reach _ (p.listed l hl) with h | ⟨m, rfl, hr⟩
    · simp at h
    · exact hr
  · intro hx
    apply p.shown x _ (by simp)
    induction hx with
    | refl => exact hn
    | @tail y z hy hyz ih => exact p.closed y ih (by simp) z hyz

/-- A port that lists itself: the dependencies that come after its own name are not shown. -/
theorem C20_self_counterexample :
    let T : Ports := [("a".toList, mkPort "c".toList "1".toList 1 0 ["a".toList, "b".toList]), ("b".toList, mkPort "c".toList "1".toList 1 1 [])]
    Declares T "a".toList "b".toList ∧ deptree T (T.length + 1) "a".toList 0 [] = some (["a".toList], [⟨0, "a".toList, false⟩]) := by
  refine ⟨⟨_, List.mem_cons_self .., by simp [mkPort]⟩, by decide +kernel⟩

example : deptree sampleTree 6 "app".toList 0 [] = some (["app".toList, "gcc.lib".toList, "lib".toList, "gcc".toList],
    [⟨0, "app".toList, false⟩, ⟨1, "gcc.lib".toList, false⟩, ⟨1, "lib".toList, false⟩, ⟨2, "gcc".toList, false⟩]) := by decide +kernel

example : deptree sampleTree 6 "loop1".toList 0 [] = some (["loop1".toList, "loop2".toList],
    [⟨0, "loop1".toList, false⟩, ⟨1, "loop2".toList, false⟩, ⟨2, "loop1".toList, true⟩]) := by decide +kernel

end Cards.Props
