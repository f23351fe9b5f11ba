import Verif.Model.MybldClean
import Mathlib.Tactic.Common
/-!
# C119, C120: the clean up of mybld
-/
namespace Cards.Props
open Cards

/-! ## Commands in turn -/

/-- From a tree with `P`: wherever the commands end `J` holds, and `Q` if they all succeed. -/
def Tri (J P : BldTree → Prop) (ops : List (BldOp × List BldOp)) (Q : BldTree → Prop) : Prop :=
  ∀ k t, P t → J (runBld k ops t).2 ∧ ((runBld k ops t).1 = true → Q (runBld k ops t).2)

theorem tri_nil {J P Q : BldTree → Prop} (hj : ∀ t, P t → J t) (hq : ∀ t, P t → Q t) : Tri J P [] Q := by
  intro k t hp
  cases k <;> exact ⟨hj t hp, fun _ => hq t hp⟩

theorem tri_cons {J P R Q : BldTree → Prop} {op : BldOp} {h : List BldOp} {rest : List (BldOp × List BldOp)} (hj : ∀ t, P t → J t)
    (h1 : ∀ t, P t → (op t).1 = true → R (op t).2) (h2 : ∀ k t, P t → (op t).1 = false → J (runBld.runErr k h (op t).2).2) (h3 : Tri J R rest Q) :
    Tri J P ((op, h) :: rest) Q := by
  intro k t hp
  cases k with
  | zero => exact ⟨hj t hp, fun e => absurd e (by simp [runBld])⟩
  | succ k =>
    have a1 := h1 t hp
    have a2 := h2 k t hp
    rw [runBld]
    rcases he : op t with ⟨b, t'⟩
    rw [he] at a1 a2
    cases b
    · exact ⟨a2 rfl, fun e => absurd e (by simp)⟩
    · exact h3 k t' (a1 rfl)

theorem tri_append {J P R Q : BldTree → Prop} {a b : List (BldOp × List BldOp)} (h1 : Tri J P a R) (h2 : Tri J R b Q) : Tri J P (a ++ b) Q := by
  intro k t hp
  have key : ∀ (a : List (BldOp × List BldOp)) k t, ((runBld k a t).1 = true ∧ ∃ k', runBld k (a ++ b) t = runBld k' b (runBld k a t).2) ∨
      ((runBld k (a ++ b) t).1 = false ∧ (runBld k (a ++ b) t).2 = (runBld k a t).2) ∨ b = [] := by
    intro a
    induction a with
    | nil => intro k t; cases k <;> exact Or.inl ⟨rfl, _, rfl⟩
    | cons x a ih =>
      obtain ⟨op, h⟩ := x
      intro k t
      cases k with
      | zero => exact Or.inr (Or.inl ⟨rfl, rfl⟩)
      | succ k =>
        rw [List.cons_append]
        simp only [runBld]
        rcases op t with ⟨c, t'⟩
        cases c
        · exact Or.inr (Or.inl ⟨rfl, rfl⟩)
        · exact ih k t'
  obtain ⟨j1, q1⟩ := h1 k t hp
  rcases key a k t with ⟨e, k', e'⟩ | ⟨e, e'⟩ | rfl
  · rw [e']
    exact h2 k' _ (q1 e)
  · rw [e', e]
    exact ⟨j1, fun x => absurd x (by simp)⟩
  · rw [List.append_nil]
    refine ⟨j1, fun e => ?_⟩
    have := (h2 0 _ (q1 e)).2 (by simp [runBld])
    simpa [runBld] using this

theorem runErr_eq (k : Nat) (ops : List BldOp) (t : BldTree) : runBld.runErr k ops t = runBld k (orExit ops) t := by
  induction ops generalizing k t with
  | nil => cases k <;> rfl
  | cons op ops ih =>
    cases k with
    | zero => rfl
    | succ k =>
      rw [runBld.runErr, show orExit (op :: ops) = (op, []) :: orExit ops from rfl, runBld]
      rcases op t with ⟨b, t'⟩
      cases b
      · simp only; cases k <;> rfl
      · exact ih k t'

/-- One command that keeps `J`. -/
theorem tri_one {J P R : BldTree → Prop} {op : BldOp} (hj : ∀ t, P t → J t) (h1 : ∀ t, P t → (op t).1 = true → R (op t).2)
    (hr : ∀ t, P t → (op t).1 = true → J (op t).2) (h2 : ∀ t, P t → (op t).1 = false → J (op t).2) : Tri J P (orExit [op]) R := by
  refine tri_cons (R := fun t => R t ∧ J t) hj (fun t hp e => ⟨h1 t hp e, hr t hp e⟩) (fun k t hp e => ?_) (tri_nil (fun t h => h.2) (fun t h => h.1))
  have := h2 t hp e
  cases k <;> exact this

theorem orExit_append (a b : List BldOp) : orExit (a ++ b) = orExit a ++ orExit b := List.map_append

theorem tri_mono {J P P' Q Q' : BldTree → Prop} {ops : List (BldOp × List BldOp)} (h : Tri J P ops Q) (hp : ∀ t, P' t → P t) (hq : ∀ t, Q t → Q' t) : Tri J P' ops Q' := by
  intro k t hp'
  obtain ⟨a, b⟩ := h k t (hp t hp')
  exact ⟨a, fun e => hq _ (b e)⟩

/-! ## Paths -/

theorem below_iff {p q : CPath} : below p q = true ↔ p <+: q ∧ p ≠ q := by
  unfold below
  rw [Bool.and_eq_true, List.isPrefixOf_iff_prefix, bne_iff_ne]

theorem below_trans {p q r : CPath} (h : below p q = true) (h' : q <+: r) : below p r = true := by
  rw [below_iff] at *
  refine ⟨h.1.trans h', ?_⟩
  rintro rfl
  exact h.2 (h.1.eq_of_length (Nat.le_antisymm h.1.length_le h'.length_le))

theorem mem_umountR {p m : CPath} {t : BldTree} (h : m ∈ (umountR p t).mounts) : m ∈ t.mounts ∧ below p m = false := by
  have := List.mem_filter.mp h
  refine ⟨List.mem_of_mem_erase this.1, ?_⟩
  simpa using this.2

/-- Below a mount that `umount -R` leaves, it leaves all; a mount it leaves keeps those it lies below. -/
theorem umountR_keeps {p top m : CPath} {t : BldTree} (hm : m ∈ (umountR p t).mounts) (ht : top ∈ t.mounts) (hp : top <+: m) : top ∈ (umountR p t).mounts := by
  obtain ⟨h1, h2⟩ := mem_umountR hm
  by_cases e : top = m
  · rw [e]; exact hm
  · have hb : below top m = true := below_iff.mpr ⟨hp, e⟩
    refine List.mem_filter.mpr ⟨?_, ?_⟩
    · refine (List.mem_erase_of_ne ?_).mpr ht
      rintro rfl
      rw [hb] at h2
      exact absurd h2 (by decide)
    · by_contra hc
      have : below p top = true := by simpa using hc
      rw [below_trans this hp] at h2
      exact absurd h2 (by decide)

/-! ## The invariant -/

/-- Every mount in the tree is one of `points`, or lies at or below a mount directly in the tree (`/proc`, `/sys`, `/dev`...). -/
def Mounted (points : List CPath) (base : CPath) (t : BldTree) : Prop :=
  ∀ m ∈ t.mounts, base <+: m → (∃ p ∈ points, m = base ++ p) ∨ ∃ x, base ++ [x] <+: m ∧ base ++ [x] ∈ t.mounts

/-- What every run keeps: no content removed through a mount; in each build tree only the mounts of mybld for this project and those of install-nutyx; and the tree of each mount exists. -/
def BldKept (proj : Str) (t : BldTree) : Prop :=
  t.lost = [] ∧ ∀ v c, Mounted (mybldPoints proj) [v, c] t ∧ ∀ m ∈ t.mounts, [v, c] <+: m → [v, c] ∈ t.dirs

theorem mounted_umountR {points : List CPath} {base p : CPath} {t : BldTree} (h : Mounted points base t) : Mounted points base (umountR p t) := by
  intro m hm hb
  rcases h m (mem_umountR hm).1 hb with h | ⟨x, hx, hx'⟩
  · exact Or.inl h
  · exact Or.inr ⟨x, hx, umountR_keeps hm hx' hx⟩

theorem kept_umountR {proj : Str} {p : CPath} {t : BldTree} (h : BldKept proj t) : BldKept proj (umountR p t) :=
  ⟨h.1, fun v c => ⟨mounted_umountR (h.2 v c).1, fun m hm hb => (h.2 v c).2 m (mem_umountR hm).1 hb⟩⟩

/-- `umount -R` or nothing. -/
theorem opUmount_cases (env : BldEnv) (p : CPath) (t : BldTree) : (opUmount env p t).2 = t ∨ (opUmount env p t).2 = umountR p t := by
  unfold opUmount
  split
  · split
    · exact Or.inl rfl
    · exact Or.inr rfl
  · exact Or.inl rfl

theorem opSys_cases (env : BldEnv) (base arg i : CPath) (t : BldTree) : (opSys env base arg i t).2 = t ∨ (opSys env base arg i t).2 = umountR (arg ++ i) t := by
  unfold opSys
  split
  · exact opUmount_cases env _ t
  · exact Or.inl rfl

/-- What the clean up of `base` keeps from its beginning: the invariant, the mounts of the tree, and which points are no longer mounted. -/
def Cleaning (proj : Str) (points : List CPath) (base : CPath) (gone : List CPath) (t : BldTree) : Prop :=
  BldKept proj t ∧ Mounted points base t ∧ ∀ p ∈ gone, base ++ p ∉ t.mounts

theorem cleaning_umountR {proj : Str} {points : List CPath} {base : CPath} {gone : List CPath} {p : CPath} {t : BldTree} (h : Cleaning proj points base gone t) :
    Cleaning proj points base gone (umountR p t) :=
  ⟨kept_umountR h.1, mounted_umountR h.2.1, fun q hq hm => h.2.2 q hq (mem_umountR hm).1⟩

/-- A change of directories and files that leaves the directories of the trees with mounts. -/
theorem kept_dirs {proj : Str} {t t' : BldTree} (h : BldKept proj t) (hm : t'.mounts = t.mounts) (hl : t'.lost = t.lost)
    (hd : ∀ v c m, m ∈ t.mounts → [v, c] <+: m → [v, c] ∈ t.dirs → [v, c] ∈ t'.dirs) : BldKept proj t' := by
  refine ⟨hl.trans h.1, fun v c => ⟨?_, ?_⟩⟩
  · unfold Mounted
    rw [hm]
    exact (h.2 v c).1
  · rw [hm]
    intro m hmm hb
    exact hd v c m hmm hb ((h.2 v c).2 m hmm hb)

theorem cleaning_dirs {proj : Str} {points : List CPath} {base : CPath} {gone : List CPath} {t t' : BldTree} (h : Cleaning proj points base gone t)
    (hm : t'.mounts = t.mounts) (hl : t'.lost = t.lost) (hd : ∀ v c m, m ∈ t.mounts → [v, c] <+: m → [v, c] ∈ t.dirs → [v, c] ∈ t'.dirs) :
    Cleaning proj points base gone t' := by
  refine ⟨kept_dirs h.1 hm hl hd, ?_, ?_⟩
  · unfold Mounted; rw [hm]; exact h.2.1
  · rw [hm]; exact h.2.2

theorem opRmdir_cases (p : CPath) (t : BldTree) :
    ((opRmdir p t).1 = false ∧ (opRmdir p t).2 = t) ∨
    ((opRmdir p t).1 = true ∧ (opRmdir p t).2 = { t with dirs := t.dirs.filter (fun d => d ≠ p), files := t.files.filter (fun f => f ≠ p) } ∧ p ∉ t.mounts ∧
      (∀ m ∈ t.mounts, below p m = false) ∧ (∀ m ∈ t.dirs, below p m = false) ∧ (∀ m ∈ t.files, below p m = false)) := by
  unfold opRmdir
  split
  · exact Or.inl ⟨rfl, rfl⟩
  · next h =>
    simp only [not_or, List.any_eq_true, not_exists, not_and] at h
    exact Or.inr ⟨rfl, rfl, h.1, fun m hm => Bool.eq_false_iff.mpr (h.2.2.2 m hm), fun m hm => Bool.eq_false_iff.mpr (h.2.1 m hm), fun m hm => Bool.eq_false_iff.mpr (h.2.2.1 m hm)⟩

/-- `rm -d` of what is not mounted and has no mounts below keeps the invariant. -/
theorem cleaning_rmdir {proj : Str} {points : List CPath} {base : CPath} {gone : List CPath} {p : CPath} {t : BldTree} (h : Cleaning proj points base gone t) :
    Cleaning proj points base gone (opRmdir p t).2 := by
  rcases opRmdir_cases p t with ⟨_, e⟩ | ⟨_, e, h1, h2, _, _⟩
  · rw [e]; exact h
  · rw [e]
    refine cleaning_dirs h rfl rfl (fun v c m hm hb hd => ?_)
    refine List.mem_filter.mpr ⟨hd, decide_eq_true ?_⟩
    rintro rfl
    by_cases e : [v, c] = m
    · exact h1 (e ▸ hm)
    · have := h2 m hm
      rw [below_iff.mpr ⟨hb, e⟩] at this
      exact absurd this (by decide)

theorem tri_umountAll {env : BldEnv} {proj : Str} {points : List CPath} {base : CPath} (ps gone : List CPath) :
    Tri (BldKept proj) (Cleaning proj points base gone) (orExit (umountAll env base ps)) (Cleaning proj points base (gone ++ ps)) := by
  induction ps generalizing gone with
  | nil =>
    rw [List.append_nil]
    exact tri_nil (fun t h => h.1) (fun t h => h)
  | cons p ps ih =>
    have e : orExit (umountAll env base (p :: ps)) = orExit [opUmount env (base ++ p)] ++ (orExit [opRmdir (base ++ p)] ++ orExit (umountAll env base ps)) := rfl
    rw [e]
    have hu : ∀ t, Cleaning proj points base gone t → Cleaning proj points base gone (opUmount env (base ++ p) t).2 := by
      intro t h
      rcases opUmount_cases env (base ++ p) t with e | e
      · rw [e]; exact h
      · rw [e]; exact cleaning_umountR h
    refine tri_append (R := Cleaning proj points base gone) (tri_one (fun t h => h.1) (fun t h _ => hu t h) (fun t h _ => (hu t h).1) (fun t h _ => (hu t h).1)) ?_
    refine tri_append (R := Cleaning proj points base (gone ++ [p])) (tri_one (fun t h => h.1) (fun t h e => ?_) (fun t h _ => (cleaning_rmdir h).1) (fun t h _ => (cleaning_rmdir h).1)) ?_
    · refine ⟨(cleaning_rmdir h).1, (cleaning_rmdir h).2.1, ?_⟩
      rcases opRmdir_cases (base ++ p) t with ⟨e', _⟩ | ⟨_, e', h1, _⟩
      · rw [e'] at e; exact absurd e (by simp)
      · rw [e']
        intro q hq
        rcases List.mem_append.mp hq with hq | hq
        · exact h.2.2 q hq
        · rw [List.mem_singleton] at hq
          subst hq; exact h1
    · have := ih (gone ++ [p])
      rwa [List.append_assoc] at this

/-! ## The loop on the directories -/

theorem mem_topDirs {base d : CPath} {t : BldTree} (h : d ∈ topDirs base t) : d ∈ t.dirs ∧ ∃ x, d = base ++ [x] := by
  have := List.mem_filter.mp h
  refine ⟨this.1, ?_⟩
  have h2 := (Bool.and_eq_true _ _ ▸ this.2).1
  have h3 := of_decide_eq_true h2
  obtain ⟨e, hne⟩ := h3
  subst e
  exact ⟨d.getLast hne, (List.dropLast_concat_getLast hne).symm⟩

theorem rmr_clean {d : CPath} {t : BldTree} (h : ∀ m ∈ t.mounts, below d m = false) :
    rmr d t = (true, { t with dirs := t.dirs.filter (fun q => !d.isPrefixOf q), files := t.files.filter (fun q => !d.isPrefixOf q) }) := by
  have : t.mounts.filter (below d) = [] := by
    rw [List.filter_eq_nil_iff]
    intro m hm
    rw [h m hm]; decide
  unfold rmr
  simp only [this]
  rfl

theorem rmTops_cleaning {proj : Str} {points : List CPath} {v c : Str} (n : Nat) (ds : List CPath) (hd : ∀ d ∈ ds, ∃ x, d = [v, c] ++ [x]) (t : BldTree)
    (h : Cleaning proj points [v, c] points t) : Cleaning proj points [v, c] points (rmTops n ds t).2 := by
  induction ds generalizing n t with
  | nil => cases n <;> exact h
  | cons d ds ih =>
    cases n with
    | zero => exact h
    | succ n =>
      rw [rmTops]
      split
      · exact ih n (fun d hd' => hd d (by simp [hd'])) t h
      · next hm =>
        obtain ⟨x, rfl⟩ := hd d (by simp)
        have hb : ∀ m ∈ t.mounts, below ([v, c] ++ [x]) m = false := by
          intro m hmm
          by_contra hc
          have hc' : below ([v, c] ++ [x]) m = true := by simpa using hc
          obtain ⟨hp, hne⟩ := below_iff.mp hc'
          rcases h.2.1 m hmm ((List.prefix_append _ _).trans hp) with ⟨p, hp', e⟩ | ⟨y, hy, hy'⟩
          · exact h.2.2 p hp' (e ▸ hmm)
          · have e : [v, c] ++ [x] = [v, c] ++ [y] := by
              obtain ⟨a, ha⟩ := hp
              obtain ⟨b, hb⟩ := hy
              rw [← ha] at hb
              simp at hb
              simp [hb.1]
            exact hm (e ▸ hy')
        rw [rmr_clean hb]
        refine ih n (fun d hd' => hd d (by simp [hd'])) _ (cleaning_dirs h rfl rfl (fun v' c' m _ _ hd => ?_))
        refine List.mem_filter.mpr ⟨hd, ?_⟩
        rw [Bool.not_eq_true', Bool.eq_false_iff]
        intro hp
        have := (List.isPrefixOf_iff_prefix.mp hp).length_le
        simp at this

/-! ## The whole clean up -/

/-- No mount in the tree. -/
def Free (base : CPath) (t : BldTree) : Prop := ∀ m ∈ t.mounts, ¬ base <+: m

theorem tri_same {J P : BldTree → Prop} {ops : List BldOp} (hj : ∀ t, P t → J t) (h : ∀ o ∈ ops, ∀ t, P t → P (o t).2) : Tri J P (orExit ops) P := by
  induction ops with
  | nil => exact tri_nil hj (fun t h => h)
  | cons o ops ih =>
    rw [show orExit (o :: ops) = orExit [o] ++ orExit ops from rfl]
    exact tri_append (tri_one hj (fun t hp _ => h o (by simp) t hp) (fun t hp _ => hj _ (h o (by simp) t hp)) (fun t hp _ => hj _ (h o (by simp) t hp)))
      (ih (fun o' ho => h o' (by simp [ho])))

theorem tri_removeAll {env : BldEnv} {proj : Str} {points : List CPath} {v c : Str} (arg : CPath) :
    Tri (BldKept proj) (Cleaning proj points [v, c] points) (orExit (removeAll env [v, c] arg points)) (fun t => BldKept proj t ∧ Free [v, c] t) := by
  unfold removeAll
  rw [orExit_append, orExit_append, orExit_append, orExit_append]
  have same : ∀ ops : List BldOp, (∀ o ∈ ops, ∀ t, Cleaning proj points [v, c] points t → Cleaning proj points [v, c] points (o t).2) →
      Tri (BldKept proj) (Cleaning proj points [v, c] points) (orExit ops) (Cleaning proj points [v, c] points) := fun ops h => tri_same (fun t h => h.1) h
  refine tri_append (same _ ?_) (tri_append (same _ ?_) (tri_append (same _ ?_) (tri_append (same _ ?_) ?_)))
  · intro o ho t h
    obtain ⟨p, _, rfl⟩ := List.mem_map.mp ho
    exact h
  · intro o ho t h
    rw [List.mem_singleton] at ho
    subst ho
    exact h
  · intro o ho t h
    obtain ⟨i, _, rfl⟩ := List.mem_map.mp ho
    rcases opSys_cases env [v, c] arg i t with e | e
    · rw [e]; exact h
    · rw [e]; exact cleaning_umountR h
  · intro o ho t h
    simp only [List.mem_cons, List.not_mem_nil, or_false] at ho
    rcases ho with rfl | rfl
    · exact rmTops_cleaning _ _ (fun d hd => (mem_topDirs hd).2) t h
    · exact cleaning_dirs h rfl rfl (fun _ _ _ _ _ hd => hd)
  · refine tri_one (fun t h => h.1) (fun t h e => ⟨(cleaning_rmdir h).1, ?_⟩) (fun t h _ => (cleaning_rmdir h).1) (fun t h _ => (cleaning_rmdir h).1)
    rcases opRmdir_cases [v, c] t with ⟨e', _⟩ | ⟨_, e', h1, h2, _⟩
    · rw [e'] at e; exact absurd e (by simp)
    · rw [e']
      intro m hm hb
      by_cases em : [v, c] = m
      · exact h1 (em ▸ hm)
      · have := h2 m hm
        rw [below_iff.mpr ⟨hb, em⟩] at this
        exact absurd this (by decide)

theorem tri_error {env : BldEnv} {proj : Str} {points : List CPath} {v c : Str} (arg : CPath) :
    Tri (BldKept proj) (fun t => BldKept proj t ∧ Mounted points [v, c] t) (orExit (umountAll env [v, c] points ++ removeAll env [v, c] arg points)) (fun t => BldKept proj t ∧ Free [v, c] t) := by
  rw [orExit_append]
  exact tri_mono (tri_append (by simpa using tri_umountAll (env := env) points []) (tri_removeAll arg)) (fun t h => show Cleaning proj points [v, c] [] t from ⟨h.1, h.2, by simp⟩) (fun t h => h)

theorem error_kept {env : BldEnv} {proj : Str} {points : List CPath} {v c : Str} (k : Nat) (t : BldTree) (h : BldKept proj t) (hm : Mounted points [v, c] t) :
    BldKept proj (runBld.runErr k (errorOps env [v, c] points) t).2 := by
  rw [runErr_eq]
  exact (tri_error [] k t ⟨h, hm⟩).1

/-! ## The build -/

theorem mounted_free {points : List CPath} {base : CPath} {t : BldTree} (h : Free base t) : Mounted points base t := fun m hm hb => absurd hb (h m hm)

/-- In the tree are exactly mounts of `points`. -/
def Bound (points : List CPath) (base : CPath) (t : BldTree) : Prop := base ∈ t.dirs ∧ ∀ m ∈ t.mounts, base <+: m → ∃ p ∈ points, m = base ++ p

theorem kept_mkdir {proj : Str} {p : CPath} {t : BldTree} (h : BldKept proj t) : BldKept proj (opMkdir p t).2 :=
  kept_dirs h rfl rfl (fun _ _ _ _ _ hd => List.mem_append_left _ hd)

theorem mem_mkdir {p q : CPath} {t : BldTree} (h : q <+: p) : q ∈ (opMkdir p t).2.dirs := by
  unfold opMkdir
  simp only [List.mem_append, List.mem_filter, List.mem_map, List.mem_range]
  by_cases hq : q ∈ t.dirs
  · exact Or.inl hq
  · refine Or.inr ⟨⟨q.length, Nat.lt_succ_of_le h.length_le, (List.prefix_iff_eq_take.mp h).symm⟩, by simp [hq]⟩

theorem kept_mount {proj v c : Str} {p : CPath} {t : BldTree} (h : BldKept proj t) (hp : p ∈ mybldPoints proj) (hd : [v, c] ∈ t.dirs) :
    BldKept proj { t with mounts := ([v, c] ++ p) :: t.mounts } := by
  refine ⟨h.1, fun v' c' => ⟨?_, ?_⟩⟩
  · intro m hm hb
    rcases List.mem_cons.mp hm with rfl | hm
    · have e : [v', c'] = [v, c] := by
        obtain ⟨z, hz⟩ := hb
        simp at hz
        simp [hz.1, hz.2.1]
      rw [e]
      exact Or.inl ⟨p, hp, rfl⟩
    · rcases (h.2 v' c').1 m hm hb with h | ⟨x, hx, hx'⟩
      · exact Or.inl h
      · exact Or.inr ⟨x, hx, List.mem_cons_of_mem _ hx'⟩
  · intro m hm hb
    rcases List.mem_cons.mp hm with rfl | hm
    · have e : [v', c'] = [v, c] := by
        obtain ⟨z, hz⟩ := hb
        simp at hz
        simp [hz.1, hz.2.1]
      rw [e]
      exact hd
    · exact (h.2 v' c').2 m hm hb

theorem tri_mounts {env : BldEnv} {proj v c : Str} (ps pts : List CPath) (hp : ∀ p ∈ ps, p ∈ mybldPoints proj) :
    Tri (BldKept proj) (fun t => BldKept proj t ∧ Bound pts [v, c] t) (mountOps env [v, c] pts ps) (fun t => BldKept proj t ∧ Bound (pts ++ ps) [v, c] t) := by
  induction ps generalizing pts with
  | nil =>
    rw [List.append_nil]
    exact tri_nil (fun t h => h.1) (fun t h => h)
  | cons p ps ih =>
    rw [mountOps]
    have ih' := ih (pts ++ [p]) (fun q hq => hp q (by simp [hq]))
    rw [List.append_assoc, List.singleton_append] at ih'
    refine tri_cons (R := fun t => BldKept proj t ∧ Bound pts [v, c] t) (fun t h => h.1) (fun t h _ => ⟨kept_mkdir h.1, List.mem_append_left _ h.2.1, h.2.2⟩)
      (fun k t h e => absurd e (by simp [opMkdir])) ?_
    refine tri_cons (R := fun t => BldKept proj t ∧ Bound (pts ++ [p]) [v, c] t) (fun t h => h.1) (fun t h e => ?_) (fun k t h e => ?_) ih'
    · unfold opMount at e ⊢
      split at e
      · exact absurd e (by simp)
      · next hf =>
        rw [if_neg hf]
        refine ⟨kept_mount h.1 (hp p (by simp)) h.2.1, h.2.1, fun m hm hb => ?_⟩
        rcases List.mem_cons.mp hm with rfl | hm
        · exact ⟨p, by simp, rfl⟩
        · obtain ⟨q, hq, e⟩ := h.2.2 m hm hb
          exact ⟨q, by simp [hq], e⟩
    · unfold opMount at e ⊢
      split at e
      · next hf =>
        rw [if_pos hf]
        exact error_kept k t h.1 (fun m hm hb => Or.inl (h.2.2 m hm hb))
      · exact absurd e (by simp)

/-- The mounts that install-nutyx leaves: each lies at or below one directly in the tree (`proc`, `sys`, `dev` with `dev/pts`, `run`). -/
def NutyxMounts (env : BldEnv) : Prop := ∀ m ∈ env.newMounts, ∃ x r, m = x :: r ∧ [x] ∈ env.newMounts

theorem kept_install {env : BldEnv} {proj v c : Str} {t : BldTree} (hn : NutyxMounts env) (h : BldKept proj t) (hd : [v, c] ∈ t.dirs) :
    BldKept proj (opInstall env [v, c] t).2 := by
  refine ⟨h.1, fun v' c' => ⟨?_, ?_⟩⟩
  · intro m hm hb
    rcases List.mem_append.mp hm with hm | hm
    · obtain ⟨q, hq, rfl⟩ := List.mem_map.mp hm
      obtain ⟨x, r, rfl, hx⟩ := hn q hq
      have e : [v', c'] = [v, c] := by
        obtain ⟨z, hz⟩ := hb
        simp at hz
        simp [hz.1, hz.2.1]
      rw [e]
      exact Or.inr ⟨x, ⟨r, by simp⟩, List.mem_append_left _ (List.mem_map.mpr ⟨[x], hx, rfl⟩)⟩
    · rcases (h.2 v' c').1 m hm hb with h | ⟨x, hx, hx'⟩
      · exact Or.inl h
      · exact Or.inr ⟨x, hx, List.mem_append_right _ hx'⟩
  · intro m hm hb
    rcases List.mem_append.mp hm with hm | hm
    · obtain ⟨q, hq, rfl⟩ := List.mem_map.mp hm
      have e : [v', c'] = [v, c] := by
        obtain ⟨z, hz⟩ := hb
        simp at hz
        simp [hz.1, hz.2.1]
      rw [e]
      exact List.mem_append_left _ hd
    · exact List.mem_append_left _ ((h.2 v' c').2 m hm hb)

theorem tri_clean {env : BldEnv} {proj v c : Str} :
    Tri (BldKept proj) (BldKept proj) (orExit (cleanOps env [v, c] proj)) (fun t => BldKept proj t ∧ Free [v, c] t) :=
  tri_mono (tri_error [v, c]) (fun t h => ⟨h, (h.2 v c).1⟩) (fun t h => h)

theorem tri_build {env : BldEnv} {proj v c : Str} (hn : NutyxMounts env) (cleaned : Bool) :
    Tri (BldKept proj) (fun t => BldKept proj t ∧ Free [v, c] t) (buildOps env [v, c] proj cleaned) (fun t => BldKept proj t ∧ Free [v, c] t) := by
  unfold buildOps
  simp only
  refine tri_append (R := fun t => BldKept proj t ∧ Bound (mybldPoints proj) [v, c] t) (tri_append (R := fun t => BldKept proj t ∧ Bound [] [v, c] t) ?_ ?_) ?_
  · refine tri_one (fun t h => h.1) (fun t h _ => ⟨kept_mkdir h.1, mem_mkdir (List.prefix_append _ _), fun m hm hb => absurd hb (h.2 m hm)⟩) (fun t h _ => kept_mkdir h.1) (fun t h _ => kept_mkdir h.1)
  · have hfree : ∀ t, Bound [] [v, c] t → Free [v, c] t := by
      intro t h m hm hb
      obtain ⟨p, hp, _⟩ := h.2 m hm hb
      exact absurd hp (by simp)
    refine tri_cons (R := fun t => BldKept proj t ∧ Bound [] [v, c] t) (fun t h => h.1) (fun t h _ => ⟨kept_mkdir h.1, List.mem_append_left _ h.2.1, h.2.2⟩)
      (fun _ _ _ e => absurd e (by simp [opMkdir])) ?_
    refine tri_cons (R := fun t => BldKept proj t ∧ Bound [["DEPOT".toList]] [v, c] t) (fun t h => h.1) (fun t h e => ?_) (fun k t h e => ?_) ?_
    · unfold opMount at e ⊢
      split at e
      · exact absurd e (by simp)
      · next hf =>
        rw [if_neg hf]
        refine ⟨kept_mount h.1 (List.mem_cons_self ..) h.2.1, h.2.1, fun m hm hb => ?_⟩
        rcases List.mem_cons.mp hm with rfl | hm
        · exact ⟨_, List.mem_singleton.mpr rfl, rfl⟩
        · exact absurd hb (hfree t h.2 m hm)
    · unfold opMount at e ⊢
      split at e
      · next hf =>
        rw [if_pos hf]
        exact error_kept k t h.1 (mounted_free (hfree t h.2))
      · exact absurd e (by simp)
    · exact tri_mounts (mybldPoints proj).tail [["DEPOT".toList]] (fun p hp => List.mem_of_mem_tail hp)
  · refine tri_cons (R := BldKept proj) (fun t h => h.1) (fun t h _ => kept_install hn h.1 h.2.1) (fun k t h _ => ?_) tri_clean
    refine error_kept k _ (kept_install hn h.1 h.2.1) ?_
    exact ((kept_install hn h.1 h.2.1).2 v c).1

/-! ## C119 -/

/-- A command of the user: build in, or clean up, the tree of a version and a collection. -/
inductive BldCmd
  | build (env : BldEnv) (version collection : Str)
  | clean (env : BldEnv) (version collection : Str)

/-- What the command does to the tree, from the project `proj`. -/
def BldCmd.run (proj : Str) : BldCmd → BldTree → BldTree
  | .build env v c, t => (mybldBuild env [v, c] proj t).2
  | .clean env v c, t => (mybldClean env [v, c] proj t).2

/-- The environment of a command. -/
def BldCmd.env : BldCmd → BldEnv
  | .build env _ _ => env
  | .clean env _ _ => env

theorem kept_run {proj : Str} (cmd : BldCmd) (hn : NutyxMounts cmd.env) {t : BldTree} (h : BldKept proj t) : BldKept proj (cmd.run proj t) := by
  cases cmd with
  | build env v c =>
    show BldKept proj (mybldBuild env [v, c] proj t).2
    unfold mybldBuild
    split
    · exact (tri_append tri_clean (tri_build hn true) env.kill t h).1
    · next hd =>
      refine (tri_build hn false env.kill t ⟨h, fun m hm hb => hd ?_⟩).1
      unfold BldTree.isDir
      rw [decide_eq_true ((h.2 v c).2 m hm hb)]
      rfl
  | clean env v c => exact (tri_clean env.kill t h).1

/-- The commands in turn. -/
def runCmds (proj : Str) : List BldCmd → BldTree → BldTree
  | [], t => t
  | cmd :: cmds, t => runCmds proj cmds (cmd.run proj t)

/-- **C119, over all histories.** However many builds and clean ups, of whatever versions and collections, each ended by itself, by an error or by a kill at any command: if they were all
started from git projects of the same name, `rm -r` never went through a mount: nothing of the project, of the sources, the logs and the packages is removed. -/
theorem C119_safe_partial (proj : Str) (cmds : List BldCmd) (hn : ∀ cmd ∈ cmds, NutyxMounts cmd.env) (dirs files : List CPath) :
    (runCmds proj cmds ⟨dirs, files, [], [], []⟩).lost = [] := by
  have key : ∀ t, BldKept proj t → BldKept proj (runCmds proj cmds t) := by
    induction cmds with
    | nil => exact fun t h => h
    | cons cmd cmds ih => exact fun t h => ih (fun c hc => hn c (by simp [hc])) _ (kept_run cmd (hn cmd (by simp)) h)
  exact (key _ ⟨rfl, fun v c => ⟨fun _ hm => absurd hm (by simp), fun _ hm => absurd hm (by simp)⟩⟩).1

/-! ## C120: the clean up removes all of the tree and nothing else -/

/-- Nothing at or below `base`. -/
def TreeGone (base : CPath) (t : BldTree) : Prop := (∀ d ∈ t.dirs, ¬ base <+: d) ∧ (∀ f ∈ t.files, ¬ base <+: f) ∧ ∀ m ∈ t.mounts, ¬ base <+: m

theorem rmdir_gone {base : CPath} {t : BldTree} (h : (opRmdir base t).1 = true) : TreeGone base (opRmdir base t).2 := by
  rcases opRmdir_cases base t with ⟨e, _⟩ | ⟨_, e, h1, h2, h3, h4⟩
  · rw [e] at h; exact absurd h (by simp)
  · have key : ∀ (l : List CPath), (∀ m ∈ l, below base m = false) → base ∉ l → ∀ m ∈ l, ¬ base <+: m := by
      intro l hl hn m hm hb
      by_cases em : base = m
      · exact hn (em ▸ hm)
      · have := hl m hm
        rw [below_iff.mpr ⟨hb, em⟩] at this
        exact absurd this (by decide)
    rw [e]
    refine ⟨key _ (fun m hm => h3 m (List.mem_filter.mp hm).1) ?_, key _ (fun m hm => h4 m (List.mem_filter.mp hm).1) ?_, key _ h2 h1⟩
    · intro hm; exact of_decide_eq_true (List.mem_filter.mp hm).2 rfl
    · intro hm; exact of_decide_eq_true (List.mem_filter.mp hm).2 rfl

theorem tri_true {ops : List (BldOp × List BldOp)} : Tri (fun _ => True) (fun _ => True) ops (fun _ => True) := fun _ _ _ => ⟨trivial, fun _ => trivial⟩

theorem tri_gone (env : BldEnv) (base arg : CPath) (proj : Str) :
    Tri (fun _ => True) (fun _ => True) (orExit (umountAll env base (mybldPoints proj) ++ removeAll env base arg (mybldPoints proj))) (TreeGone base) := by
  have e : orExit (umountAll env base (mybldPoints proj) ++ removeAll env base arg (mybldPoints proj)) =
      orExit (umountAll env base (mybldPoints proj) ++ ((mybldPoints proj).map (fun p => opNotDir (base ++ p)) ++ ([opBase base] ++ (sysPoints.map (opSys env base arg) ++ [opTops env base, opAsk env base])))) ++
        orExit [opRmdir base] := by
    rw [← orExit_append]
    unfold removeAll
    simp only [List.append_assoc]
  rw [e]
  exact tri_append tri_true (tri_one (fun _ _ => trivial) (fun t _ h => rmdir_gone h) (fun _ _ _ => trivial) (fun _ _ _ => trivial))

/-- **C120, all of it.** If the clean up says it succeeded, no directory, no file and no mount is left in the tree; so after a build that ended by itself. -/
theorem C120_all (env : BldEnv) (base : CPath) (proj : Str) (t : BldTree) :
    ((mybldClean env base proj t).1 = true → TreeGone base (mybldClean env base proj t).2) ∧
    ((mybldBuild env base proj t).1 = true → TreeGone base (mybldBuild env base proj t).2) := by
  constructor
  · exact (tri_gone env base base proj env.kill t trivial).2
  · unfold mybldBuild buildOps
    simp only
    have hc : Tri (fun _ => True) (fun _ => True) (orExit (cleanOps env base proj)) (TreeGone base) := tri_gone env base base proj
    split
    · exact (tri_append tri_true (tri_append tri_true (tri_append tri_true hc)) env.kill t trivial).2
    · exact (tri_append tri_true (tri_append tri_true hc) env.kill t trivial).2

/-- `P`, whatever ends the commands. -/
theorem tri_keep {F : BldTree → Prop} {ops : List (BldOp × List BldOp)} (h : ∀ x ∈ ops, (∀ t, F t → F (x.1 t).2) ∧ ∀ o ∈ x.2, ∀ t, F t → F (o t).2) : Tri F F ops F := by
  induction ops with
  | nil => exact tri_nil (fun t h => h) (fun t h => h)
  | cons x ops ih =>
    obtain ⟨op, hd⟩ := x
    obtain ⟨h1, h2⟩ := h (op, hd) (by simp)
    refine tri_cons (fun t h => h) (fun t hp _ => h1 t hp) (fun k t hp _ => ?_) (ih (fun x hx => h x (by simp [hx])))
    rw [runErr_eq]
    exact (tri_same (J := F) (P := F) (fun t h => h) h2 k _ (h1 t hp)).1

/-- Outside of `base` the directories and files are those of `t0`; so are the mounts, but for those `sys` speaks of. -/
def Outside (base : CPath) (sys : CPath → Prop) (t0 t : BldTree) : Prop :=
  (∀ p, ¬ base <+: p → ((p ∈ t.files ↔ p ∈ t0.files) ∧ (p ∈ t0.dirs → p ∈ t.dirs))) ∧
  (∀ p, ¬ base <+: p → ¬ p <+: base → p ∈ t.dirs → p ∈ t0.dirs) ∧ ∀ m, ¬ base <+: m → ¬ sys m → (m ∈ t.mounts ↔ m ∈ t0.mounts)

theorem outside_umountR {base p : CPath} {sys : CPath → Prop} {t0 t : BldTree} (h : Outside base sys t0 t) (hp : ∀ m, p <+: m → base <+: m ∨ sys m) : Outside base sys t0 (umountR p t) := by
  refine ⟨h.1, h.2.1, fun m hb hs => ?_⟩
  rw [← h.2.2 m hb hs]
  refine ⟨fun hm => (mem_umountR hm).1, fun hm => ?_⟩
  have hn : ¬ p <+: m := fun hpm => (hp m hpm).elim hb hs
  refine List.mem_filter.mpr ⟨(List.mem_erase_of_ne (fun e => hn (by rw [e]; exact List.prefix_refl _))).mpr hm, ?_⟩
  rw [Bool.not_eq_true', Bool.eq_false_iff]
  intro hb'
  exact hn (below_iff.mp hb').1

/-- Removing directories and files in the tree. -/
theorem outside_nodes {base : CPath} {sys : CPath → Prop} {t0 t t' : BldTree} (h : Outside base sys t0 t) (hm : t'.mounts = t.mounts)
    (hd : ∀ p, ¬ base <+: p → (p ∈ t'.dirs ↔ p ∈ t.dirs)) (hf : ∀ p, ¬ base <+: p → (p ∈ t'.files ↔ p ∈ t.files)) : Outside base sys t0 t' := by
  refine ⟨fun p hp => ⟨(hf p hp).trans (h.1 p hp).1, fun hd0 => (hd p hp).mpr ((h.1 p hp).2 hd0)⟩, fun p hp hp' hd' => h.2.1 p hp hp' ((hd p hp).mp hd'), ?_⟩
  rw [hm]; exact h.2.2

theorem outside_rmdir {base p : CPath} {sys : CPath → Prop} {t0 t : BldTree} (h : Outside base sys t0 t) (hp : base <+: p) : Outside base sys t0 (opRmdir p t).2 := by
  rcases opRmdir_cases p t with ⟨_, e⟩ | ⟨_, e, _⟩
  · rw [e]; exact h
  · rw [e]
    have key : ∀ (l : List CPath) q, ¬ base <+: q → (q ∈ l.filter (fun d => d ≠ p) ↔ q ∈ l) := by
      intro l q hq
      refine ⟨fun h => (List.mem_filter.mp h).1, fun h => List.mem_filter.mpr ⟨h, decide_eq_true ?_⟩⟩
      rintro rfl; exact hq hp
    exact outside_nodes h rfl (key _) (key _)

theorem outside_rmr {base d : CPath} {sys : CPath → Prop} {t0 t : BldTree} (h : Outside base sys t0 t) (hd : base <+: d) : Outside base sys t0 (rmr d t).2 := by
  have key : ∀ (l : List CPath) (f : CPath → Bool) q, ¬ base <+: q → (q ∈ l.filter (fun q => !d.isPrefixOf q || f q) ↔ q ∈ l) := by
    intro l f q hq
    refine ⟨fun h => (List.mem_filter.mp h).1, fun h => List.mem_filter.mpr ⟨h, ?_⟩⟩
    rw [Bool.or_eq_true]
    left
    rw [Bool.not_eq_true', Bool.eq_false_iff]
    intro hp
    exact hq (hd.trans (List.isPrefixOf_iff_prefix.mp hp))
  have key' : ∀ (l : List CPath) q, ¬ base <+: q → (q ∈ l.filter (fun q => !d.isPrefixOf q) ↔ q ∈ l) := by
    intro l q hq
    have := key l (fun _ => false) q hq
    simpa only [Bool.or_false] using this
  unfold rmr
  simp only
  split
  · exact outside_nodes h rfl (key' _) (key' _)
  · exact outside_nodes h rfl (key _ _) (key' _)

theorem outside_tops {base : CPath} {sys : CPath → Prop} {t0 : BldTree} (n : Nat) (ds : List CPath) (hd : ∀ d ∈ ds, base <+: d) (t : BldTree) (h : Outside base sys t0 t) :
    Outside base sys t0 (rmTops n ds t).2 := by
  induction ds generalizing n t with
  | nil => cases n <;> exact h
  | cons d ds ih =>
    cases n with
    | zero => exact h
    | succ n =>
      rw [rmTops]
      split
      · exact ih n (fun d hd' => hd d (by simp [hd'])) t h
      · have := outside_rmr h (hd d (by simp))
        rcases he : rmr d t with ⟨b, t'⟩
        rw [he] at this
        cases b
        · exact this
        · exact ih n (fun d hd' => hd d (by simp [hd'])) t' this

theorem outside_clean {env : BldEnv} {base arg : CPath} {points : List CPath} {sys : CPath → Prop} {t0 : BldTree} (hs : ∀ i ∈ sysPoints, ∀ m, arg ++ i <+: m → base <+: m ∨ sys m) :
    ∀ o ∈ umountAll env base points ++ removeAll env base arg points, ∀ t, Outside base sys t0 t → Outside base sys t0 (o t).2 := by
  intro o ho t h
  have hu : ∀ p, (∀ m, p <+: m → base <+: m ∨ sys m) → Outside base sys t0 (opUmount env p t).2 := by
    intro p hp
    rcases opUmount_cases env p t with e | e
    · rw [e]; exact h
    · rw [e]; exact outside_umountR h hp
  unfold removeAll umountAll at ho
  simp only [List.mem_append, List.mem_flatMap, List.mem_map, List.mem_cons, List.not_mem_nil, or_false] at ho
  rcases ho with ⟨p, _, rfl | rfl⟩ | ⟨p, _, rfl⟩ | rfl | ⟨i, hi, rfl⟩ | (rfl | rfl) | rfl
  · exact hu _ (fun m hm => Or.inl ((List.prefix_append _ _).trans hm))
  · exact outside_rmdir h (List.prefix_append _ _)
  · exact h
  · exact h
  · unfold opSys
    split
    · exact hu _ (hs i hi)
    · exact h
  · refine outside_tops _ _ (fun d hd => ?_) t h
    obtain ⟨_, x, rfl⟩ := mem_topDirs hd
    exact List.prefix_append _ _
  · refine outside_nodes h rfl (fun _ _ => Iff.rfl) (fun p hp => ?_)
    refine ⟨fun h => (List.mem_filter.mp h).1, fun h => List.mem_filter.mpr ⟨h, ?_⟩⟩
    have : below base p = false := Bool.eq_false_iff.mpr (fun hb => hp (below_iff.mp hb).1)
    rw [this]; rfl
  · exact outside_rmdir h (List.prefix_refl _)

theorem outside_refl (base : CPath) (sys : CPath → Prop) (t : BldTree) : Outside base sys t t := ⟨fun _ _ => ⟨Iff.rfl, id⟩, fun _ _ _ h => h, fun _ _ _ => Iff.rfl⟩

/-- **C120, nothing else (clean up).** Every directory, file and mount outside of the tree stays, whatever ends the clean up, whatever the tree; and none appears. -/
theorem C120_only_clean (env : BldEnv) (base : CPath) (proj : Str) (t : BldTree) (p : CPath) (hp : ¬ base <+: p) :
    (p ∈ (mybldClean env base proj t).2.files ↔ p ∈ t.files) ∧ (p ∈ t.dirs → p ∈ (mybldClean env base proj t).2.dirs) ∧
    (p ∈ (mybldClean env base proj t).2.mounts ↔ p ∈ t.mounts) := by
  have h : Outside base (fun _ => False) t (mybldClean env base proj t).2 :=
    (tri_same (fun t h => h) (outside_clean (fun i _ m hm => Or.inl ((List.prefix_append _ _).trans hm))) env.kill t (outside_refl _ _ _)).1
  exact ⟨(h.1 p hp).1, (h.1 p hp).2, h.2.2 p hp (fun h => h)⟩

/-- A mount point of the system directly in `$ROOT`, or below. -/
def SysMount (m : CPath) : Prop := ∃ i ∈ sysPoints, i <+: m

theorem outside_mkdir {base p : CPath} {sys : CPath → Prop} {t0 t : BldTree} (h : Outside base sys t0 t) : Outside base sys t0 (opMkdir (base ++ p) t).2 := by
  refine ⟨fun q hq => ⟨(h.1 q hq).1, fun hd => List.mem_append_left _ ((h.1 q hq).2 hd)⟩, fun q hq hq' hd => ?_, h.2.2⟩
  rcases List.mem_append.mp hd with hd | hd
  · exact h.2.1 q hq hq' hd
  · obtain ⟨n, _, rfl⟩ := List.mem_map.mp (List.mem_filter.mp hd).1
    exfalso
    rcases List.prefix_or_prefix_of_prefix (List.take_prefix n (base ++ p)) (List.prefix_append base p) with h' | h'
    · exact hq' h'
    · exact hq h'

theorem outside_mount {env : BldEnv} {base p : CPath} {sys : CPath → Prop} {t0 t : BldTree} (h : Outside base sys t0 t) : Outside base sys t0 (opMount env (base ++ p) t).2 := by
  unfold opMount
  split
  · exact h
  · refine ⟨h.1, h.2.1, fun m hb hs => ?_⟩
    rw [← h.2.2 m hb hs]
    refine ⟨fun hm => (List.mem_cons.mp hm).resolve_left (fun e => hb (e ▸ List.prefix_append _ _)), List.mem_cons_of_mem _⟩

theorem outside_install {env : BldEnv} {base : CPath} {sys : CPath → Prop} {t0 t : BldTree} (h : Outside base sys t0 t) : Outside base sys t0 (opInstall env base t).2 := by
  have key : ∀ (l : List CPath) q, ¬ base <+: q → q ∉ l.map (base ++ ·) := by
    intro l q hq hm
    obtain ⟨x, _, rfl⟩ := List.mem_map.mp hm
    exact hq (List.prefix_append _ _)
  refine ⟨fun q hq => ⟨?_, fun hd => List.mem_append_left _ ((h.1 q hq).2 hd)⟩, fun q hq hq' hd => h.2.1 q hq hq' ((List.mem_append.mp hd).resolve_right (key _ q hq)), fun m hb hs => ?_⟩
  · rw [← (h.1 q hq).1]
    exact ⟨fun hf => (List.mem_append.mp hf).resolve_right (key _ q hq), List.mem_append_left _⟩
  · rw [← h.2.2 m hb hs]
    exact ⟨fun hf => (List.mem_append.mp hf).resolve_left (key _ m hb), List.mem_append_right _⟩

theorem outside_mounts {env : BldEnv} {base : CPath} {t0 : BldTree} (ps pts : List CPath) : ∀ x ∈ mountOps env base pts ps,
    (∀ t, Outside base SysMount t0 t → Outside base SysMount t0 (x.1 t).2) ∧ ∀ o ∈ x.2, ∀ t, Outside base SysMount t0 t → Outside base SysMount t0 (o t).2 := by
  induction ps generalizing pts with
  | nil => intro x hx; exact absurd hx (by simp [mountOps])
  | cons p ps ih =>
    intro x hx
    rw [mountOps] at hx
    rcases List.mem_cons.mp hx with rfl | hx
    · exact ⟨fun t h => outside_mkdir h, outside_clean (fun i hi m hm => Or.inr ⟨i, hi, hm⟩)⟩
    · rcases List.mem_cons.mp hx with rfl | hx
      · exact ⟨fun t h => outside_mount h, outside_clean (fun i hi m hm => Or.inr ⟨i, hi, hm⟩)⟩
      · exact ih _ x hx

/-- **C120, nothing else (build).** A build, however it ends, removes no directory and no file outside of its tree, and makes no other directory than those the tree lies in. It mounts
nothing and unmounts nothing outside of the tree, but for mounts `run`, `sys`, `proc`, `dev` directly in `$ROOT`, which the clean up after an error takes for those of the tree. -/
theorem C120_only_build_partial (env : BldEnv) (base : CPath) (proj : Str) (t : BldTree) : Outside base SysMount t (mybldBuild env base proj t).2 := by
  have herr : ∀ points, ∀ o ∈ errorOps env base points, ∀ t', Outside base SysMount t t' → Outside base SysMount t (o t').2 :=
    fun points => outside_clean (fun i hi m hm => Or.inr ⟨i, hi, hm⟩)
  have hclean : ∀ x ∈ orExit (cleanOps env base proj), (∀ t', Outside base SysMount t t' → Outside base SysMount t (x.1 t').2) ∧
      ∀ o ∈ x.2, ∀ t', Outside base SysMount t t' → Outside base SysMount t (o t').2 := by
    intro x hx
    obtain ⟨o, ho, rfl⟩ := List.mem_map.mp hx
    exact ⟨outside_clean (fun i _ m hm => Or.inl ((List.prefix_append _ _).trans hm)) o ho, by simp⟩
  have hbuild : ∀ b, ∀ x ∈ buildOps env base proj b, (∀ t', Outside base SysMount t t' → Outside base SysMount t (x.1 t').2) ∧
      ∀ o ∈ x.2, ∀ t', Outside base SysMount t t' → Outside base SysMount t (o t').2 := by
    intro b x hx
    unfold buildOps at hx
    simp only at hx
    rcases List.mem_append.mp hx with hx | hx
    · rcases List.mem_append.mp hx with hx | hx
      · rw [show orExit [opMkdir (base ++ ["etc".toList])] = [(opMkdir (base ++ ["etc".toList]), [])] from rfl, List.mem_singleton] at hx
        subst hx
        exact ⟨fun t h => outside_mkdir h, by simp⟩
      · rcases List.mem_cons.mp hx with rfl | hx
        · exact ⟨fun t h => outside_mkdir h, herr _⟩
        · rcases List.mem_cons.mp hx with rfl | hx
          · exact ⟨fun t h => outside_mount h, herr _⟩
          · exact outside_mounts _ _ x hx
    · rcases List.mem_append.mp hx with hx | hx
      · rw [List.mem_singleton] at hx
        subst hx
        exact ⟨fun t h => outside_install h, herr _⟩
      · exact hclean x hx
  unfold mybldBuild
  split
  · refine (tri_keep (F := Outside base SysMount t) (fun x hx => ?_) env.kill t (outside_refl _ _ _)).1
    rcases List.mem_append.mp hx with hx | hx
    · exact hclean x hx
    · exact hbuild true x hx
  · exact (tri_keep (F := Outside base SysMount t) (hbuild false) env.kill t (outside_refl _ _ _)).1

/-! ## The clean up can be done -/

/-- From a tree with `P` the commands all succeed, and lead to one with `Q`. -/
def Goes (P : BldTree → Prop) (ops : List BldOp) (Q : BldTree → Prop) : Prop :=
  ∀ t, P t → ∀ k, ops.length ≤ k → (runBld k (orExit ops) t).1 = true ∧ Q (runBld k (orExit ops) t).2

theorem goes_nil {P : BldTree → Prop} : Goes P [] P := fun t h k _ => by cases k <;> exact ⟨rfl, h⟩

theorem goes_cons {P R Q : BldTree → Prop} {op : BldOp} {ops : List BldOp} (h1 : ∀ t, P t → (op t).1 = true ∧ R (op t).2) (h2 : Goes R ops Q) : Goes P (op :: ops) Q := by
  intro t hp k hk
  cases k with
  | zero => exact absurd hk (by simp)
  | succ k =>
    obtain ⟨a, b⟩ := h1 t hp
    rw [show orExit (op :: ops) = (op, []) :: orExit ops from rfl, runBld]
    rcases he : op t with ⟨c, t'⟩
    rw [he] at a b
    simp only at a b
    subst a
    exact h2 t' b k (by simpa using hk)

theorem goes_append {P R Q : BldTree → Prop} {a b : List BldOp} (h1 : Goes P a R) (h2 : Goes R b Q) : Goes P (a ++ b) Q := by
  induction a generalizing P with
  | nil =>
    intro t hp k hk
    have := (h1 t hp k (by simp)).2
    have e : (runBld k (orExit []) t).2 = t := by cases k <;> rfl
    rw [e] at this
    exact h2 t this k hk
  | cons o a ih =>
    rw [List.cons_append]
    have key : ∀ t, P t → (o t).1 = true := by
      intro t hp
      have := (h1 t hp (a.length + 1) (by simp)).1
      rw [show orExit (o :: a) = (o, []) :: orExit a from rfl, runBld] at this
      rcases he : o t with ⟨c, t'⟩
      rw [he] at this
      cases c
      · exact absurd this (by simp)
      · rfl
    refine goes_cons (R := fun t' => ∃ t, P t ∧ t' = (o t).2) (fun t hp => ⟨key t hp, t, hp, rfl⟩) (ih ?_)
    rintro t' ⟨t, hp, rfl⟩ k hk
    have := h1 t hp (k + 1) (by simpa using hk)
    rw [show orExit (o :: a) = (o, []) :: orExit a from rfl, runBld] at this
    have hk' := key t hp
    rcases he : o t with ⟨c, t'⟩
    rw [he] at this hk'
    simp only at hk'
    subst hk'
    exact this

/-- The tree of a former run: in it only mounts of mybld for this project and of the system, each once; nothing in the directories under the first; everything else lies in directories at the
top that are not hidden, or is a file at whose removal the user agrees. -/
structure Leftover (env : BldEnv) (proj : Str) (base : CPath) (gone : List CPath) (t : BldTree) : Prop where
  nodup : t.mounts.Nodup
  mounts : ∀ m ∈ t.mounts, base <+: m → ∃ q ∈ mybldPoints proj ++ sysPoints, m = base ++ q
  gone : ∀ q ∈ gone, base ++ q ∉ t.mounts
  empty : ∀ p ∈ mybldPoints proj, ∀ d, d ∈ t.dirs ∨ d ∈ t.files → below (base ++ p) d = false
  home : base ∈ t.dirs
  len : t.dirs.length ≤ env.tops
  dirs : ∀ d ∈ t.dirs, below base d = true → ∃ x, x.head? ≠ some '.' ∧ base ++ [x] ∈ t.dirs ∧ base ++ [x] <+: d
  files : ∀ d ∈ t.files, below base d = true → env.yes d = true ∨ ∃ x, x.head? ≠ some '.' ∧ base ++ [x] ∈ t.dirs ∧ base ++ [x] <+: d

theorem leftover_umountR {env : BldEnv} {proj : Str} {base p : CPath} {gone : List CPath} {t : BldTree} (h : Leftover env proj base gone t) : Leftover env proj base (gone ++ [p]) (umountR (base ++ p) t) := by
  refine ⟨(h.nodup.erase _).filter _, fun m hm => h.mounts m (mem_umountR hm).1, ?_, h.empty, h.home, h.len, h.dirs, h.files⟩
  intro q hq hm
  rcases List.mem_append.mp hq with hq | hq
  · exact h.gone q hq (mem_umountR hm).1
  · rw [List.mem_singleton] at hq
    subst hq
    exact (h.nodup.not_mem_erase) (List.mem_filter.mp hm).1

theorem leftover_umount {env : BldEnv} (hb : ∀ p, env.busy p = false) {proj : Str} {base p : CPath} {gone : List CPath} {t : BldTree} (h : Leftover env proj base gone t) :
    (opUmount env (base ++ p) t).1 = true ∧ Leftover env proj base (gone ++ [p]) (opUmount env (base ++ p) t).2 := by
  unfold opUmount
  split
  · rw [if_neg (by rw [hb]; decide)]
    exact ⟨rfl, leftover_umountR h⟩
  · next hm =>
    refine ⟨rfl, h.nodup, h.mounts, ?_, h.empty, h.home, h.len, h.dirs, h.files⟩
    intro q hq
    rcases List.mem_append.mp hq with hq | hq
    · exact h.gone q hq
    · rw [List.mem_singleton] at hq
      subst hq; exact hm

theorem points_apart {proj : Str} {p q : CPath} (hp : p ∈ mybldPoints proj) (hq : q ∈ mybldPoints proj ++ sysPoints) : p <+: q → p = q := by
  intro h
  simp only [mybldPoints, sysPoints, List.mem_append, List.mem_cons, List.not_mem_nil, or_false] at hp hq
  rcases hp with rfl | rfl | rfl | rfl <;> rcases hq with (rfl | rfl | rfl | rfl) | (rfl | rfl | rfl | rfl | rfl | rfl) <;> first | rfl | (exfalso; revert h; simp)

theorem leftover_rmdir {env : BldEnv} {proj : Str} {base p : CPath} {gone : List CPath} {t : BldTree} (hp : p ∈ mybldPoints proj) (hg : p ∈ gone) (h : Leftover env proj base gone t) :
    (opRmdir (base ++ p) t).1 = true ∧ Leftover env proj base gone (opRmdir (base ++ p) t).2 ∧ base ++ p ∉ (opRmdir (base ++ p) t).2.dirs := by
  have hpne : p ≠ [] := by
    rintro rfl
    exact absurd hp (by simp [mybldPoints])
  have hc : ¬ (base ++ p ∈ t.mounts ∨ t.dirs.any (below (base ++ p)) = true ∨ t.files.any (below (base ++ p)) = true ∨ t.mounts.any (below (base ++ p)) = true) := by
    simp only [not_or, List.any_eq_true, not_exists, not_and]
    refine ⟨h.gone p hg, fun d hd => Bool.eq_false_iff.mp (h.empty p hp d (Or.inl hd)), fun d hd => Bool.eq_false_iff.mp (h.empty p hp d (Or.inr hd)), fun m hm hb => ?_⟩
    obtain ⟨h1, h2⟩ := below_iff.mp hb
    obtain ⟨q, hq, rfl⟩ := h.mounts m hm ((List.prefix_append _ _).trans h1)
    exact h2 (by rw [points_apart hp hq ((List.prefix_append_right_inj _).mp h1)])
  have key : ∀ d x, (d ∈ t.dirs ∨ d ∈ t.files) → d ≠ base ++ p → base ++ [x] ∈ t.dirs → base ++ [x] <+: d → base ++ [x] ∈ t.dirs.filter (fun d => d ≠ base ++ p) := by
    intro d x hd hne hx hxd
    refine List.mem_filter.mpr ⟨hx, decide_eq_true ?_⟩
    intro e
    have := h.empty p hp d hd
    rw [below_iff.mpr ⟨e ▸ hxd, Ne.symm hne⟩] at this
    exact absurd this (by decide)
  unfold opRmdir
  rw [if_neg hc]
  refine ⟨rfl, ⟨h.nodup, h.mounts, h.gone, ?_, ?_, Nat.le_trans (List.length_filter_le _ _) h.len, ?_, ?_⟩, ?_⟩
  · intro q hq d hd
    exact h.empty q hq d (hd.imp (fun x => (List.mem_filter.mp x).1) (fun x => (List.mem_filter.mp x).1))
  · refine List.mem_filter.mpr ⟨h.home, decide_eq_true ?_⟩
    intro e
    exact hpne (by simpa using e)
  · intro d hd hb
    obtain ⟨h1, h2⟩ := List.mem_filter.mp hd
    obtain ⟨x, hx, hx', hx''⟩ := h.dirs d h1 hb
    exact ⟨x, hx, key d x (Or.inl h1) (of_decide_eq_true h2) hx' hx'', hx''⟩
  · intro d hd hb
    obtain ⟨h1, h2⟩ := List.mem_filter.mp hd
    rcases h.files d h1 hb with hy | ⟨x, hx, hx', hx''⟩
    · exact Or.inl hy
    · exact Or.inr ⟨x, hx, key d x (Or.inr h1) (of_decide_eq_true h2) hx' hx'', hx''⟩
  · intro hm
    exact of_decide_eq_true (List.mem_filter.mp hm).2 rfl

theorem opUmount_dirs (env : BldEnv) (p : CPath) (t : BldTree) : (opUmount env p t).2.dirs = t.dirs := by
  rcases opUmount_cases env p t with e | e <;> rw [e] <;> rfl

theorem opRmdir_dirs {p q : CPath} {t : BldTree} (h : q ∉ t.dirs) : q ∉ (opRmdir p t).2.dirs := by
  rcases opRmdir_cases p t with ⟨_, e⟩ | ⟨_, e, _⟩
  · rw [e]; exact h
  · rw [e]; exact fun hm => h (List.mem_filter.mp hm).1

theorem goes_umountAll {env : BldEnv} (hb : ∀ p, env.busy p = false) {proj : Str} {base : CPath} (ps gone : List CPath) (hp : ∀ p ∈ ps, p ∈ mybldPoints proj) :
    Goes (fun t => Leftover env proj base gone t ∧ ∀ q ∈ gone, base ++ q ∉ t.dirs) (umountAll env base ps) (fun t => Leftover env proj base (gone ++ ps) t ∧ ∀ q ∈ gone ++ ps, base ++ q ∉ t.dirs) := by
  induction ps generalizing gone with
  | nil => rw [List.append_nil]; exact goes_nil
  | cons p ps ih =>
    rw [show umountAll env base (p :: ps) = opUmount env (base ++ p) :: opRmdir (base ++ p) :: umountAll env base ps from rfl]
    have ih' := ih (gone ++ [p]) (fun q hq => hp q (by simp [hq]))
    rw [List.append_assoc, List.singleton_append] at ih'
    refine goes_cons (R := fun t => Leftover env proj base (gone ++ [p]) t ∧ ∀ q ∈ gone, base ++ q ∉ t.dirs) (fun t h => ?_) (goes_cons (fun t h => ?_) ih')
    · obtain ⟨a, b⟩ := leftover_umount hb (p := p) h.1
      exact ⟨a, b, by rw [opUmount_dirs]; exact h.2⟩
    · obtain ⟨a, b, c⟩ := leftover_rmdir (hp p (by simp)) (List.mem_append_right _ (List.mem_singleton.mpr rfl)) h.1
      refine ⟨a, b, fun q hq => ?_⟩
      rcases List.mem_append.mp hq with hq | hq
      · exact opRmdir_dirs (h.2 q hq)
      · rw [List.mem_singleton] at hq
        subst hq; exact c

theorem goes_sys {env : BldEnv} (hb : ∀ p, env.busy p = false) {proj : Str} {base : CPath} (is gone : List CPath) :
    Goes (Leftover env proj base gone) (is.map (opSys env base base)) (Leftover env proj base (gone ++ is)) := by
  induction is generalizing gone with
  | nil => rw [List.append_nil]; exact goes_nil
  | cons i is ih =>
    have ih' := ih (gone ++ [i])
    rw [List.append_assoc, List.singleton_append] at ih'
    refine goes_cons (fun t h => ?_) ih'
    unfold opSys
    split
    · exact leftover_umount hb h
    · next hd =>
      refine ⟨rfl, h.nodup, h.mounts, ?_, h.empty, h.home, h.len, h.dirs, h.files⟩
      intro q hq
      rcases List.mem_append.mp hq with hq | hq
      · exact h.gone q hq
      · rw [List.mem_singleton] at hq
        subst hq
        intro hm
        refine hd ?_
        unfold BldTree.isDir
        rw [decide_eq_true hm, Bool.or_true]

theorem rmTops_all {base : CPath} (n : Nat) (ds : List CPath) (hn : ds.length ≤ n) (hd : ∀ d ∈ ds, base <+: d) (t : BldTree) (hf : Free base t) :
    (rmTops n ds t).1 = true ∧ (rmTops n ds t).2.mounts = t.mounts ∧
    (∀ q, q ∈ (rmTops n ds t).2.dirs ↔ q ∈ t.dirs ∧ ∀ d ∈ ds, ¬ d <+: q) ∧ (∀ q, q ∈ (rmTops n ds t).2.files ↔ q ∈ t.files ∧ ∀ d ∈ ds, ¬ d <+: q) := by
  induction ds generalizing n t with
  | nil => cases n <;> simp [rmTops]
  | cons d ds ih =>
    cases n with
    | zero => exact absurd hn (by simp)
    | succ n =>
      have h0 : d ∉ t.mounts := fun hm => hf d hm (hd d (by simp))
      rw [rmTops, if_neg h0, rmr_clean (fun m hm => Bool.eq_false_iff.mpr (fun hb => hf m hm ((hd d (by simp)).trans (below_iff.mp hb).1)))]
      obtain ⟨a, b, c, e⟩ := ih n (by simpa using hn) (fun d hd' => hd d (by simp [hd'])) { t with dirs := t.dirs.filter (fun q => !d.isPrefixOf q), files := t.files.filter (fun q => !d.isPrefixOf q) } hf
      have key : ∀ (l : List CPath) q, (q ∈ l.filter (fun q => !d.isPrefixOf q) ∧ ∀ d' ∈ ds, ¬ d' <+: q) ↔ (q ∈ l ∧ ∀ d' ∈ d :: ds, ¬ d' <+: q) := by
        intro l q
        rw [List.mem_filter, Bool.not_eq_true', Bool.eq_false_iff, ne_eq, List.isPrefixOf_iff_prefix, List.forall_mem_cons, and_assoc]
      exact ⟨a, b, fun q => (c q).trans (key _ q), fun q => (e q).trans (key _ q)⟩

/-- **C120, a clean up that can be done.** After a run that was killed, if no unmount fails, the user agrees to the removal of the files at the top, and no hidden directory is there:
the clean up succeeds (and by C120_all nothing is left). -/
theorem C120_recovers (env : BldEnv) (proj v c : Str) (t : BldTree) (hb : ∀ p, env.busy p = false) (hk : 100 ≤ env.kill)
    (h : Leftover env proj [v, c] [] t) : (mybldClean env [v, c] proj t).1 = true := by
  have g1 := goes_umountAll hb (base := [v, c]) (mybldPoints proj) [] (fun p hp => hp)
  have g2 : Goes (fun t => Leftover env proj [v, c] (mybldPoints proj) t ∧ ∀ q ∈ mybldPoints proj, [v, c] ++ q ∉ t.dirs)
      ((mybldPoints proj).map (fun p => opNotDir ([v, c] ++ p))) (fun t => Leftover env proj [v, c] (mybldPoints proj) t) := by
    have : ∀ ps : List CPath, (∀ p ∈ ps, p ∈ mybldPoints proj) → Goes (fun t => Leftover env proj [v, c] (mybldPoints proj) t ∧ ∀ q ∈ mybldPoints proj, [v, c] ++ q ∉ t.dirs)
        (ps.map (fun p => opNotDir ([v, c] ++ p))) (fun t => Leftover env proj [v, c] (mybldPoints proj) t ∧ ∀ q ∈ mybldPoints proj, [v, c] ++ q ∉ t.dirs) := by
      intro ps
      induction ps with
      | nil => exact fun _ => goes_nil
      | cons p ps ih =>
        intro hp
        refine goes_cons (fun t h => ⟨?_, h⟩) (ih (fun q hq => hp q (by simp [hq])))
        show (!BldTree.isDir t ([v, c] ++ p)) = true
        unfold BldTree.isDir
        rw [decide_eq_false (h.2 p (hp p (by simp))), decide_eq_false (h.1.gone p (hp p (by simp)))]
        rfl
    intro t ht k hk
    obtain ⟨a, b⟩ := this (mybldPoints proj) (fun p hp => hp) t ht k hk
    exact ⟨a, b.1⟩
  have g3 : Goes (fun t => Leftover env proj [v, c] (mybldPoints proj) t) [opBase [v, c]] (fun t => Leftover env proj [v, c] (mybldPoints proj) t) := by
    refine goes_cons (fun t h => ⟨?_, h⟩) goes_nil
    show BldTree.isDir t [v, c] = true
    unfold BldTree.isDir
    rw [decide_eq_true h.home]; rfl
  have g4 := goes_sys hb (proj := proj) (base := [v, c]) sysPoints (mybldPoints proj)
  have g5 : Goes (Leftover env proj [v, c] (mybldPoints proj ++ sysPoints)) [opTops env [v, c], opAsk env [v, c]]
      (fun t => Free [v, c] t ∧ (∀ d ∈ t.dirs, below [v, c] d = false) ∧ ∀ d ∈ t.files, below [v, c] d = false) := by
    refine goes_cons (R := fun t => Free [v, c] t ∧ (∀ d ∈ t.dirs, below [v, c] d = false) ∧ ∀ d ∈ t.files, below [v, c] d = true → env.yes d = true) (fun t h => ?_) (goes_cons (fun t h => ?_) goes_nil)
    · have hf : Free [v, c] t := by
        intro m hm hb'
        obtain ⟨q, hq, rfl⟩ := h.mounts m hm hb'
        exact h.gone q hq hm
      obtain ⟨a, b, e1, e2⟩ := rmTops_all env.tops (topDirs [v, c] t) (Nat.le_trans (List.length_filter_le _ _) h.len)
        (fun d hd => by obtain ⟨_, x, rfl⟩ := mem_topDirs hd; exact List.prefix_append _ _) t hf
      have top : ∀ x, x.head? ≠ some '.' → [v, c] ++ [x] ∈ t.dirs → [v, c] ++ [x] ∈ topDirs [v, c] t := by
        intro x hx hd
        refine List.mem_filter.mpr ⟨hd, ?_⟩
        simpa using hx
      refine ⟨a, ?_, fun d hd => ?_, fun d hd hb' => ?_⟩
      · intro m hm
        have hm' : m ∈ (rmTops env.tops (topDirs [v, c] t) t).2.mounts := hm
        rw [b] at hm'
        exact hf m hm'
      · obtain ⟨h1, h2⟩ := (e1 d).mp hd
        refine Bool.eq_false_iff.mpr (fun hb' => ?_)
        obtain ⟨x, hx, hx', hx''⟩ := h.dirs d h1 hb'
        exact h2 _ (top x hx hx') hx''
      · obtain ⟨h1, h2⟩ := (e2 d).mp hd
        rcases h.files d h1 hb' with hy | ⟨x, hx, hx', hx''⟩
        · exact hy
        · exact absurd hx'' (h2 _ (top x hx hx'))
    · refine ⟨rfl, h.1, h.2.1, fun d hd => ?_⟩
      obtain ⟨h1, h2⟩ := List.mem_filter.mp hd
      refine Bool.eq_false_iff.mpr (fun hb' => ?_)
      rw [hb', h.2.2 d h1 hb'] at h2
      exact absurd h2 (by decide)
  have g6 : Goes (fun t => Free [v, c] t ∧ (∀ d ∈ t.dirs, below [v, c] d = false) ∧ ∀ d ∈ t.files, below [v, c] d = false) [opRmdir [v, c]] (fun _ => True) := by
    refine goes_cons (R := fun _ => True) (fun t h => ⟨?_, trivial⟩) goes_nil
    unfold opRmdir
    rw [if_neg]
    simp only [not_or, List.any_eq_true, not_exists, not_and]
    exact ⟨fun hm => h.1 _ hm (List.prefix_refl _), fun d hd => Bool.eq_false_iff.mp (h.2.1 d hd), fun d hd => Bool.eq_false_iff.mp (h.2.2 d hd),
      fun m hm hb' => h.1 m hm (below_iff.mp hb').1⟩
  have all := goes_append g1 (goes_append g2 (goes_append g3 (goes_append g4 (goes_append g5 g6))))
  have := all t ⟨h, by simp⟩ env.kill (Nat.le_trans (by simp [umountAll, mybldPoints, sysPoints]) hk)
  exact this.1

/-! ## Examples and counterexamples -/

/-- Nothing fails; install-nutyx leaves a small system with its mounts. -/
def okBld : BldEnv := ⟨fun _ => false, fun _ => false, fun _ => false, [["dev".toList], ["proc".toList], ["usr".toList], ["usr".toList, "bin".toList]], [["usr".toList, "bin".toList, "ls".toList]],
  [["dev".toList, "pts".toList], ["dev".toList], ["proc".toList]], true, 1000, 1000⟩

/-- The directory of mybld, with nothing in it but the version. -/
def noBld : BldTree := ⟨[[], ["x".toList]], [], [], [], []⟩

theorem okBld_mounts : NutyxMounts okBld := by
  intro m hm
  simp only [okBld, List.mem_cons, List.not_mem_nil, or_false] at hm
  rcases hm with rfl | rfl | rfl
  · exact ⟨_, _, rfl, by simp [okBld]⟩
  · exact ⟨_, _, rfl, by simp [okBld]⟩
  · exact ⟨_, _, rfl, by simp [okBld]⟩

/-- A build from beginning to end. -/
example : (mybldBuild okBld ["x".toList, "cli".toList] "ports".toList noBld).1 = true ∧
    (mybldBuild okBld ["x".toList, "cli".toList] "ports".toList noBld).2.dirs = [[], ["x".toList]] := by decide +kernel

/-- A build killed in the chroot, and the next one that cleans up after it. -/
example : (mybldBuild { okBld with kill := 10 } ["x".toList, "cli".toList] "ports".toList noBld).2.mounts.length = 7 ∧
    (mybldBuild okBld ["x".toList, "cli".toList] "ports".toList (mybldBuild { okBld with kill := 10 } ["x".toList, "cli".toList] "ports".toList noBld).2).1 = true := by decide +kernel

/-- What a killed run leaves. -/
example : Leftover okBld "ports".toList ["x".toList, "cli".toList] [] (mybldBuild { okBld with kill := 10 } ["x".toList, "cli".toList] "ports".toList noBld).2 := by
  refine ⟨by decide +kernel, ?_, by simp, ?_, by decide +kernel, by decide +kernel, ?_, ?_⟩
  · have : ∀ m ∈ (mybldBuild { okBld with kill := 10 } ["x".toList, "cli".toList] "ports".toList noBld).2.mounts, ["x".toList, "cli".toList] <+: m →
        ∃ q ∈ mybldPoints "ports".toList ++ sysPoints, m = ["x".toList, "cli".toList] ++ q := by decide +kernel
    exact this
  · have : ∀ p ∈ mybldPoints "ports".toList, (∀ d ∈ (mybldBuild { okBld with kill := 10 } ["x".toList, "cli".toList] "ports".toList noBld).2.dirs, below (["x".toList, "cli".toList] ++ p) d = false) ∧
        ∀ d ∈ (mybldBuild { okBld with kill := 10 } ["x".toList, "cli".toList] "ports".toList noBld).2.files, below (["x".toList, "cli".toList] ++ p) d = false := by decide +kernel
    exact fun p hp d hd => hd.elim ((this p hp).1 d) ((this p hp).2 d)
  · have : ∀ d ∈ (mybldBuild { okBld with kill := 10 } ["x".toList, "cli".toList] "ports".toList noBld).2.dirs, below ["x".toList, "cli".toList] d = true →
        ∃ x ∈ ["etc".toList, "DEPOT".toList, "LOGS".toList, "sources".toList, "mybld".toList, "dev".toList, "proc".toList, "usr".toList], x.head? ≠ some '.' ∧
          ["x".toList, "cli".toList] ++ [x] ∈ (mybldBuild { okBld with kill := 10 } ["x".toList, "cli".toList] "ports".toList noBld).2.dirs ∧ ["x".toList, "cli".toList] ++ [x] <+: d := by decide +kernel
    intro d hd hb
    obtain ⟨x, _, h⟩ := this d hd hb
    exact ⟨x, h⟩
  · have : ∀ d ∈ (mybldBuild { okBld with kill := 10 } ["x".toList, "cli".toList] "ports".toList noBld).2.files, below ["x".toList, "cli".toList] d = true →
        "usr".toList.head? ≠ some '.' ∧
          ["x".toList, "cli".toList] ++ ["usr".toList] ∈ (mybldBuild { okBld with kill := 10 } ["x".toList, "cli".toList] "ports".toList noBld).2.dirs ∧ ["x".toList, "cli".toList] ++ ["usr".toList] <+: d := by decide +kernel
    intro d hd hb
    exact Or.inr ⟨_, this d hd hb⟩

example : (runCmds "ports".toList [.build { okBld with kill := 10 } "x".toList "cli".toList, .build { okBld with installOk := false } "x".toList "gui".toList,
    .clean okBld "x".toList "cli".toList] noBld).lost = [] :=
  C119_safe_partial _ _ (by
    intro cmd hc
    simp only [List.mem_cons, List.not_mem_nil, or_false] at hc
    rcases hc with rfl | rfl | rfl <;> exact okBld_mounts) _ _

/-- **C119 is false: another project.** A build from the project `ports` is killed; a build of the same version and collection from the project `extra` cleans up, and `sudo rm -r`
removes the whole content of the project `ports` through its mount. -/
theorem C119_counterexample_project :
    (mybldBuild okBld ["x".toList, "cli".toList] "extra".toList (mybldBuild { okBld with kill := 10 } ["x".toList, "cli".toList] "ports".toList noBld).2).2.lost =
      [["x".toList, "cli".toList, "mybld".toList, "ports".toList]] := by decide +kernel

/-- **C119 is false: the collection `.`.** While `cli` is being built, `mybld -c .` takes the directory of the version for a tree and removes the content of all that is mounted in the tree of `cli`. -/
theorem C119_counterexample_dot :
    (mybldClean okBld ["x".toList] "ports".toList (mybldBuild { okBld with kill := 9 } ["x".toList, "cli".toList] "ports".toList noBld).2).2.lost =
      [["x".toList, "cli".toList, "mybld".toList, "ports".toList], ["x".toList, "cli".toList, "sources".toList], ["x".toList, "cli".toList, "LOGS".toList], ["x".toList, "cli".toList, "DEPOT".toList]] := by decide +kernel

/-- **C120 is false: the mounts after an error.** When install-nutyx fails, `error` looks for the mounts of the system in the wrong place: they stay, their files are offered for removal
(`/dev` and `/proc` of the host), and the tree stays. -/
theorem C120_counterexample_error :
    let t := (mybldBuild { okBld with installOk := false } ["x".toList, "cli".toList] "ports".toList noBld).2
    t.mounts = [["x".toList, "cli".toList, "dev".toList, "pts".toList], ["x".toList, "cli".toList, "dev".toList], ["x".toList, "cli".toList, "proc".toList]] ∧ t.asked = t.mounts := by decide +kernel

/-- **C120 is false: a mount of somebody else.** After an error a mount `proc` directly in `$ROOT` is unmounted, which is not in the tree. -/
theorem C120_counterexample_other :
    (mybldBuild { okBld with installOk := false } ["x".toList, "cli".toList] "ports".toList { noBld with mounts := [["proc".toList]] }).2.mounts =
      [["x".toList, "cli".toList, "dev".toList, "pts".toList], ["x".toList, "cli".toList, "dev".toList], ["x".toList, "cli".toList, "proc".toList]] := by decide +kernel

/-- **C120 is false: a hidden directory.** With a directory `.cache` at the top of the tree no clean up ever ends well: the loop does not see it, `rm -i` does not remove it. -/
theorem C120_counterexample_hidden :
    (mybldClean okBld ["x".toList, "cli".toList] "ports".toList { noBld with dirs := [[], ["x".toList], ["x".toList, "cli".toList], ["x".toList, "cli".toList, ".cache".toList]] }).1 = false := by decide +kernel

/-- Commands that keep `P`, and one that fails and keeps it: all fails and keeps it. -/
theorem run_stops {P : BldTree → Prop} (A B : List BldOp) (o : BldOp) (hA : ∀ x ∈ A, ∀ t, P t → P (x t).2) (ho : ∀ t, P t → (o t).1 = false ∧ P (o t).2) (k : Nat) (t : BldTree) (h : P t) :
    (runBld k (orExit (A ++ o :: B)) t).1 = false ∧ P (runBld k (orExit (A ++ o :: B)) t).2 := by
  induction A generalizing k t with
  | nil =>
    show (runBld k ((o, []) :: orExit B) t).1 = false ∧ P (runBld k ((o, []) :: orExit B) t).2
    cases k with
    | zero => exact ⟨rfl, h⟩
    | succ k =>
      obtain ⟨h1, h2⟩ := ho t h
      unfold runBld
      rcases hx : o t with ⟨b, t'⟩
      rw [hx] at h1 h2
      simp only at h1
      subst h1
      exact ⟨rfl, by cases k <;> exact h2⟩
  | cons x A ih =>
    show (runBld k ((x, []) :: orExit (A ++ o :: B)) t).1 = false ∧ _
    cases k with
    | zero => exact ⟨rfl, h⟩
    | succ k =>
      have h2 := hA x (by simp) t h
      show (runBld (k + 1) ((x, []) :: orExit (A ++ o :: B)) t).1 = false ∧ P (runBld (k + 1) ((x, []) :: orExit (A ++ o :: B)) t).2
      unfold runBld
      rcases hx : x t with ⟨b, t'⟩
      rw [hx] at h2
      cases b with
      | true => exact ih (fun y hy => hA y (by simp [hy])) k t' h2
      | false => exact ⟨rfl, by cases k <;> exact h2⟩

/-- The mounts of the system are not below the mount points of mybld. -/
theorem sys_not_below (base : CPath) (proj : Str) : ∀ i ∈ sysPoints, ∀ p ∈ mybldPoints proj, ¬ (base ++ p) <+: (base ++ i) := by
  intro i hi p hp h
  have h' : p <+: i := (List.prefix_append_right_inj base).mp h
  have hhead : p.head? = i.head? := by
    obtain ⟨t, rfl⟩ := h'
    cases p with
    | nil => simp [mybldPoints] at hp
    | cons a p => rfl
  have h1 : p.head? ∈ [some "DEPOT".toList, some "LOGS".toList, some "sources".toList, some "mybld".toList] := by
    simp only [mybldPoints, List.mem_cons, List.not_mem_nil, or_false] at hp
    rcases hp with rfl | rfl | rfl | rfl <;> simp
  have h2 : ∀ i ∈ sysPoints, i.head? ∉ [some "DEPOT".toList, some "LOGS".toList, some "sources".toList, some "mybld".toList] := by decide +kernel
  rw [hhead] at h1
  exact h2 i hi h1

theorem umountR_others {p m : CPath} {t : BldTree} (hm : m ∈ t.mounts) (h : ¬ p <+: m) : m ∈ (umountR p t).mounts := by
  unfold umountR
  have hne : m ≠ p := fun e => h (e ▸ List.prefix_refl _)
  refine List.mem_filter.mpr ⟨(List.mem_erase_of_ne hne).mpr hm, ?_⟩
  cases hb : below p m with
  | false => rfl
  | true =>
    unfold below at hb
    rw [Bool.and_eq_true] at hb
    exact absurd (List.isPrefixOf_iff_prefix.mp hb.1) h

/-- **C120, a system mount that is busy**: the clean up fails, and every file of the tree is still there, apart from one in the place of a mount point. -/
theorem C120_busy (env : BldEnv) (base : CPath) (proj : Str) (t : BldTree) (i : CPath) (hi : i ∈ sysPoints) (hm : base ++ i ∈ t.mounts) (hb : env.busy (base ++ i) = true) :
    (mybldClean env base proj t).1 = false ∧ (∀ f ∈ t.files, f ∉ (mybldPoints proj).map (base ++ ·) → f ∈ (mybldClean env base proj t).2.files) ∧ base ++ i ∈ (mybldClean env base proj t).2.mounts := by
  obtain ⟨s1, s2, hs⟩ := List.append_of_mem hi
  have hbefore : ∀ j ∈ s1, ¬ j <+: i := by
    intro j hj hpre
    have hbig : ∀ i ∈ sysPoints, ∀ j ∈ sysPoints.takeWhile (fun x => x ≠ i), ¬ j <+: i := by decide +kernel
    have hnot : ∀ x ∈ s1, x ≠ i := by
      intro x hx e
      have hnd : sysPoints.Nodup := by decide +kernel
      rw [hs, List.nodup_append] at hnd
      exact hnd.2.2 x hx i (by simp) e
    have htw : sysPoints.takeWhile (fun x => x ≠ i) = s1 := by
      rw [hs, List.takeWhile_append_of_pos (by intro x hx; simpa using hnot x hx)]
      simp
    exact hbig i hi j (by rw [htw]; exact hj) hpre
  let P : BldTree → Prop := fun t' => base ++ i ∈ t'.mounts ∧ ∀ f ∈ t.files, f ∉ (mybldPoints proj).map (base ++ ·) → f ∈ t'.files
  have hum : ∀ p, ¬ p <+: base ++ i → ∀ t', P t' → P (opUmount env p t').2 := by
    intro p hp t' h
    unfold opUmount
    split
    · split
      · exact h
      · exact ⟨umountR_others h.1 hp, h.2⟩
    · exact h
  have hsplit : cleanOps env base proj = (umountAll env base (mybldPoints proj) ++ (mybldPoints proj).map (fun p => opNotDir (base ++ p)) ++ [opBase base] ++ s1.map (opSys env base base)) ++
      opSys env base base i :: (s2.map (opSys env base base) ++ ([opTops env base, opAsk env base] ++ [opRmdir base])) := by
    unfold cleanOps removeAll
    rw [hs]
    simp
  have key : (mybldClean env base proj t).1 = false ∧ P (mybldClean env base proj t).2 := by
    unfold mybldClean
    rw [hsplit]
    refine run_stops _ _ _ ?_ ?_ env.kill t ⟨hm, fun f hf _ => hf⟩
    · intro x hx t' h
      simp only [List.mem_append, List.mem_map, List.mem_singleton] at hx
      rcases hx with ((hx | ⟨p, _, rfl⟩) | rfl) | ⟨j, hj, rfl⟩
      · unfold umountAll at hx
        obtain ⟨p, hp, hx⟩ := List.mem_flatMap.mp hx
        simp only [List.mem_cons, List.not_mem_nil, or_false] at hx
        rcases hx with rfl | rfl
        · exact hum _ (sys_not_below base proj i hi p hp) t' h
        · unfold opRmdir
          split
          · exact h
          · refine ⟨h.1, fun f hf hn => List.mem_filter.mpr ⟨h.2 f hf hn, ?_⟩⟩
            have : f ≠ base ++ p := fun e => hn (List.mem_map.mpr ⟨p, hp, e.symm⟩)
            simpa using this
      · exact h
      · exact h
      · unfold opSys
        split
        · exact hum _ (fun hpre => hbefore j hj ((List.prefix_append_right_inj base).mp hpre)) t' h
        · exact h
    · intro t' h
      have hd : t'.isDir (base ++ i) = true := by
        unfold BldTree.isDir
        simp [h.1]
      have : opSys env base base i t' = (false, t') := by
        unfold opSys opUmount
        rw [if_pos hd, if_pos h.1, if_pos hb]
      rw [this]
      exact ⟨rfl, h⟩
  exact ⟨key.1, key.2.2, key.2.1⟩

/-- A busy `proc`. -/
example : (["x".toList, "cli".toList] ++ ["proc".toList] : CPath) ∈ ({ noBld with mounts := [["x".toList, "cli".toList, "proc".toList]] } : BldTree).mounts ∧ (["proc".toList] : CPath) ∈ sysPoints := by decide +kernel

end Cards.Props
