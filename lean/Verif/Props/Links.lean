import Verif.Model.Links
import Verif.Lemmas.Fs
import Mathlib.Tactic.Common
import Mathlib.Data.List.Induction
/-!
# C205–C209: packages on a tree with symbolic links
-/
namespace Cards.Props
open Cards

/-! ## Reading and writing the tree -/

theorem lfind_filter (fs : LFs) (x k : List Str) : LFs.find (fs.filter (fun e => e.1 ≠ x)) k = if k = x then none else fs.find k := by
  induction fs with
  | nil => simp [LFs.find]
  | cons e fs ih =>
    obtain ⟨j, v⟩ := e
    rw [List.filter_cons]
    by_cases hj : j = x
    · subst hj
      rw [if_neg (by simp), ih]
      by_cases hk : k = j
      · simp [hk]
      · simp [LFs.find, hk, Ne.symm hk]
    · rw [if_pos (by simp [hj])]
      simp only [LFs.find, ih]
      by_cases hk : j = k
      · subst hk
        simp [hj]
      · simp [hk]

theorem lget_set (fs : LFs) (x k : List Str) (v : LNode) (hx : x ≠ []) : (fs.set x v).get k = if k = x then some v else fs.get k := by
  unfold LFs.get LFs.set
  by_cases hk : k = []
  · subst hk
    simp [Ne.symm hx]
  · simp only [hk, if_false, LFs.find]
    by_cases he : x = k
    · simp [he]
    · have hd : LFs.find (LFs.del fs x) k = fs.find k := by
        unfold LFs.del
        rw [lfind_filter, if_neg (Ne.symm he)]
      rw [if_neg he, if_neg (Ne.symm he), hd]

theorem lget_del (fs : LFs) (x k : List Str) (hx : x ≠ []) : (fs.del x).get k = if k = x then none else fs.get k := by
  unfold LFs.get
  by_cases hk : k = []
  · subst hk
    simp [Ne.symm hx]
  · simp only [hk, if_false]
    unfold LFs.del
    rw [lfind_filter]

/-- Everything the first tree has the second has too. -/
def Keeps (fs fs' : LFs) : Prop := ∀ k v, fs.get k = some v → fs'.get k = some v

theorem Keeps.refl (fs : LFs) : Keeps fs fs := fun _ _ h => h
theorem Keeps.trans {a b c : LFs} (h : Keeps a b) (h' : Keeps b c) : Keeps a c := fun k v e => h' k v (h k v e)

/-! ## The walk -/

theorem hop_mono {fs fs' : LFs} (h : Keeps fs fs') (cur cs : List Str) (hl : hop fs cur cs ≠ .lost) : hop fs' cur cs = hop fs cur cs := by
  induction cs generalizing cur with
  | nil => rfl
  | cons c rest ih =>
    unfold hop at hl ⊢
    by_cases h1 : c = dotName
    · simp only [h1, if_true] at hl ⊢
      exact ih _ hl
    · by_cases h2 : c = dotdotName
      · simp only [h2, if_true] at hl ⊢
        have hd : dotdotName ≠ dotName := by decide
        simp only [hd, if_false] at hl ⊢
        exact ih _ hl
      · by_cases h3 : rest = []
        · simp [h1, h2, h3]
        · simp only [h1, h2, h3, if_false] at hl ⊢
          cases hg : fs.get (cur ++ [c]) with
          | none => rw [hg] at hl; exact absurd rfl hl
          | some v =>
            rw [hg] at hl
            rw [h _ _ hg]
            cases v with
            | file c => exact absurd rfl hl
            | link t => rfl
            | dir => exact ih _ hl

theorem walk_mono {fs fs' : LFs} (h : Keeps fs fs') (n : Nat) (cur cs q : List Str) (hw : fs.walk n cur cs = some q) : fs'.walk n cur cs = some q := by
  induction n generalizing cur cs with
  | zero =>
    unfold LFs.walk at hw ⊢
    have hl : hop fs cur cs ≠ .lost := by intro e; rw [e] at hw; cases hw
    rw [hop_mono h cur cs hl]
    exact hw
  | succ n ih =>
    unfold LFs.walk at hw ⊢
    have hl : hop fs cur cs ≠ .lost := by intro e; rw [e] at hw; cases hw
    rw [hop_mono h cur cs hl]
    revert hw
    cases hop fs cur cs with
    | «at» q' => exact fun hw => hw
    | lost => exact fun hw => hw
    | jump cur' t rest => exact fun hw => ih _ _ hw

/-- Along `a` the walk arrives in a directory, meets a link, or gets lost, whatever follows. -/
theorem hop_factor (fs : LFs) (cur a : List Str) :
    (∃ q, ∀ b, b ≠ [] → hop fs cur (a ++ b) = hop fs q b) ∨ (∃ cur' t a', ∀ b, b ≠ [] → hop fs cur (a ++ b) = .jump cur' t (a' ++ b)) ∨
      (∀ b, b ≠ [] → hop fs cur (a ++ b) = .lost) := by
  induction a generalizing cur with
  | nil => exact Or.inl ⟨cur, fun b _ => rfl⟩
  | cons c a ih =>
    by_cases h1 : c = dotName
    · have e : ∀ b, hop fs cur (c :: a ++ b) = hop fs cur (a ++ b) := fun b => by
        rw [List.cons_append]
        conv => lhs; unfold hop
        rw [if_pos h1]
      simp only [e]
      exact ih cur
    · by_cases h2 : c = dotdotName
      · have e : ∀ b, hop fs cur (c :: a ++ b) = hop fs cur.dropLast (a ++ b) := fun b => by
          rw [List.cons_append]
          conv => lhs; unfold hop
          rw [if_neg h1, if_pos h2]
        simp only [e]
        exact ih cur.dropLast
      · have e : ∀ b, b ≠ [] → hop fs cur (c :: a ++ b) = match fs.get (cur ++ [c]) with
            | some .dir => hop fs (cur ++ [c]) (a ++ b)
            | some (.link t) => .jump cur t (a ++ b)
            | _ => .lost := fun b hb => by
          rw [List.cons_append]
          conv => lhs; unfold hop
          rw [if_neg h1, if_neg h2, if_neg (by simp [hb])]
          rcases fs.get (cur ++ [c]) with _ | _ | _ | _ <;> rfl
        cases hg : fs.get (cur ++ [c]) with
        | none => exact Or.inr (Or.inr (fun b hb => by rw [e b hb, hg]))
        | some v =>
          cases v with
          | file x => exact Or.inr (Or.inr (fun b hb => by rw [e b hb, hg]))
          | link t => exact Or.inr (Or.inl ⟨cur, t, a, fun b hb => by rw [e b hb, hg]⟩)
          | dir =>
            rcases ih (cur ++ [c]) with ⟨q, h⟩ | ⟨cur', t, a', h⟩ | h
            · exact Or.inl ⟨q, fun b hb => by rw [e b hb, hg]; exact h b hb⟩
            · exact Or.inr (Or.inl ⟨cur', t, a', fun b hb => by rw [e b hb, hg]; exact h b hb⟩)
            · exact Or.inr (Or.inr (fun b hb => by rw [e b hb, hg]; exact h b hb))

theorem hop_dot (fs : LFs) (q : List Str) : hop fs q [dotName] = .at q := rfl

theorem walk_at {fs : LFs} {n : Nat} {cur cs q : List Str} (h : hop fs cur cs = .at q) : fs.walk n cur cs = some q := by
  cases n <;> (unfold LFs.walk; rw [h])

theorem walk_lost {fs : LFs} {n : Nat} {cur cs : List Str} (h : hop fs cur cs = .lost) : fs.walk n cur cs = none := by
  cases n <;> (unfold LFs.walk; rw [h])

theorem walk_same {fs : LFs} {n : Nat} {cur cur' cs cs' : List Str} (h : hop fs cur cs = hop fs cur' cs') : fs.walk n cur cs = fs.walk n cur' cs' := by
  cases n <;> (unfold LFs.walk; rw [h])

/-- After `a` the walk goes on from the directory `a` leads to. -/
theorem walk_factor {fs : LFs} {n : Nat} {cur a q : List Str} (h : fs.walk n cur (a ++ [dotName]) = some q) : ∃ m, ∀ b, b ≠ [] → fs.walk n cur (a ++ b) = fs.walk m q b := by
  induction n generalizing cur a with
  | zero =>
    rcases hop_factor fs cur a with ⟨q', hq⟩ | ⟨cur', t, a', hj⟩ | hl
    · have : hop fs cur (a ++ [dotName]) = .at q' := hq _ (by simp)
      rw [walk_at this] at h
      injection h with h
      subst h
      exact ⟨0, fun b hb => walk_same (hq b hb)⟩
    · unfold LFs.walk at h
      rw [hj _ (by simp)] at h
      cases h
    · rw [walk_lost (hl _ (by simp))] at h
      cases h
  | succ n ih =>
    rcases hop_factor fs cur a with ⟨q', hq⟩ | ⟨cur', t, a', hj⟩ | hl
    · have : hop fs cur (a ++ [dotName]) = .at q' := hq _ (by simp)
      rw [walk_at this] at h
      injection h with h
      subst h
      exact ⟨n + 1, fun b hb => walk_same (hq b hb)⟩
    · unfold LFs.walk at h
      rw [hj _ (by simp)] at h
      dsimp only at h
      rw [← List.append_assoc] at h
      obtain ⟨m, hm⟩ := ih h
      refine ⟨m, fun b hb => ?_⟩
      conv => lhs; unfold LFs.walk
      rw [hj b hb]
      dsimp only
      rw [← List.append_assoc]
      exact hm b hb
    · rw [walk_lost (hl _ (by simp))] at h
      cases h

/-- If a walk arrives, the components before lead to a directory. -/
theorem walk_init {fs : LFs} {n : Nat} {cur a b q : List Str} (hb : b ≠ []) (h : fs.walk n cur (a ++ b) = some q) : ∃ q', fs.walk n cur (a ++ [dotName]) = some q' := by
  induction n generalizing cur a with
  | zero =>
    rcases hop_factor fs cur a with ⟨q', hq⟩ | ⟨cur', t, a', hj⟩ | hl
    · exact ⟨q', walk_at (hq _ (by simp))⟩
    · unfold LFs.walk at h
      rw [hj b hb] at h
      cases h
    · rw [walk_lost (hl b hb)] at h
      cases h
  | succ n ih =>
    rcases hop_factor fs cur a with ⟨q', hq⟩ | ⟨cur', t, a', hj⟩ | hl
    · exact ⟨q', walk_at (hq _ (by simp))⟩
    · unfold LFs.walk at h
      rw [hj b hb] at h
      dsimp only at h
      rw [← List.append_assoc] at h
      obtain ⟨q', h'⟩ := ih h
      refine ⟨q', ?_⟩
      unfold LFs.walk
      rw [hj _ (by simp)]
      dsimp only
      rw [← List.append_assoc]
      exact h'
    · rw [walk_lost (hl b hb)] at h
      cases h

/-- No `.` and no `..`. -/
def PlainPath (b : List Str) : Prop := ∀ c ∈ b, c ≠ ".".toList ∧ c ≠ "..".toList

/-- `k` lies on the way to `q ++ b`, behind `q`. -/
def MidWay (q b k : List Str) : Prop := ∃ b1, b1 ≠ [] ∧ b1 <+: b ∧ b1 ≠ b ∧ k = q ++ b1

theorem between_cons {q b' k : List Str} {x : Str} (hb' : b' ≠ []) : MidWay q (x :: b') k ↔ k = q ++ [x] ∨ MidWay (q ++ [x]) b' k := by
  constructor
  · rintro ⟨b1, h1, h2, h3, rfl⟩
    cases b1 with
    | nil => exact absurd rfl h1
    | cons y b1 =>
      obtain ⟨t, ht⟩ := h2
      injection ht with hy ht
      subst hy
      by_cases h0 : b1 = []
      · left; rw [h0]
      · right
        exact ⟨b1, h0, ⟨t, ht⟩, fun e => h3 (by rw [e]), by simp⟩
  · rintro (rfl | ⟨b1, h1, ⟨t, ht⟩, h3, rfl⟩)
    · exact ⟨[x], by simp, ⟨b', rfl⟩, fun e => by injection e with _ e; exact hb' e.symm, rfl⟩
    · exact ⟨x :: b1, by simp, ⟨t, by rw [List.cons_append, ht]⟩, fun e => by injection e with _ e; exact h3 e, by simp⟩

theorem hop_plain_cons (fs : LFs) (q b' : List Str) (x : Str) (hx : x ≠ ".".toList ∧ x ≠ "..".toList) (hb' : b' ≠ []) :
    hop fs q (x :: b') = match fs.get (q ++ [x]) with
      | some .dir => hop fs (q ++ [x]) b'
      | some (.link t) => .jump q t b'
      | _ => .lost := by
  have h1 : x ≠ dotName := hx.1
  have h2 : x ≠ dotdotName := hx.2
  conv => lhs; unfold hop
  rw [if_neg h1, if_neg h2, if_neg hb']
  rcases fs.get (q ++ [x]) with _ | _ | _ | _ <;> rfl

theorem hop_plain (fs : LFs) (b q : List Str) (hb : b ≠ []) (hp : PlainPath b) (hd : ∀ k, MidWay q b k → fs.get k = some .dir) : hop fs q b = .at (q ++ b) := by
  induction b generalizing q with
  | nil => exact absurd rfl hb
  | cons x b ih =>
    have hx := hp x (by simp)
    by_cases h0 : b = []
    · subst h0
      have h1 : x ≠ dotName := hx.1
      have h2 : x ≠ dotdotName := hx.2
      unfold hop
      rw [if_neg h1, if_neg h2, if_pos rfl]
    · rw [hop_plain_cons fs q b x hx h0, hd _ ((between_cons h0).mpr (Or.inl rfl))]
      dsimp only
      rw [ih (q ++ [x]) h0 (fun c hc => hp c (by simp [hc])) (fun k hk => hd k ((between_cons h0).mpr (Or.inr hk)))]
      simp

theorem hop_plain_or (fs : LFs) (b q : List Str) (hb : b ≠ []) (hp : PlainPath b) (hd : ∀ k, MidWay q b k → fs.get k = some .dir ∨ fs.get k = none) :
    hop fs q b = .at (q ++ b) ∨ hop fs q b = .lost := by
  induction b generalizing q with
  | nil => exact absurd rfl hb
  | cons x b ih =>
    have hx := hp x (by simp)
    by_cases h0 : b = []
    · subst h0
      left
      exact hop_plain fs [x] q (by simp) hp (by rintro k ⟨b1, h1, h2, h3, _⟩; rcases b1 with _ | ⟨y, b1⟩
                                                · exact absurd rfl h1
                                                · obtain ⟨t, ht⟩ := h2
                                                  injection ht with hy ht
                                                  have := (List.append_eq_nil_iff.mp ht).1
                                                  exact absurd (by rw [this, hy]) h3)
    · rw [hop_plain_cons fs q b x hx h0]
      rcases hd _ ((between_cons h0).mpr (Or.inl rfl)) with hg | hg
      · rw [hg]
        dsimp only
        rcases ih (q ++ [x]) h0 (fun c hc => hp c (by simp [hc])) (fun k hk => hd k ((between_cons h0).mpr (Or.inr hk))) with h | h
        · left; rw [h]; simp
        · right; exact h
      · right; rw [hg]

/-! ## Making the parents of an entry -/

theorem mkParent_there {fs : LFs} {x q : List Str} (h : fs.dirPlace x = some q) : fs.mkParent x = fs := by
  unfold LFs.mkParent
  rw [h]

theorem dirPlace_prefix {fs : LFs} {x y q : List Str} (h : fs.dirPlace (x ++ y) = some q) : ∃ q', fs.dirPlace x = some q' := by
  unfold LFs.dirPlace at h ⊢
  rw [List.append_assoc] at h
  exact walk_init (by simp) h

theorem foldl_there {fs : LFs} (l : List (List Str)) (h : ∀ x ∈ l, ∃ q, fs.dirPlace x = some q) : l.foldl LFs.mkParent fs = fs := by
  induction l with
  | nil => rfl
  | cons x l ih =>
    obtain ⟨q, hq⟩ := h x (by simp)
    rw [List.foldl_cons, mkParent_there hq]
    exact ih (fun y hy => h y (by simp [hy]))

theorem parents_append (a b : List Str) (hb : b ≠ []) : ∃ l, parents (a ++ b) = l ++ (parents b).map (a ++ ·) ∧ ∀ x ∈ l, x <+: a := by
  induction a with
  | nil => exact ⟨[], by simp, nofun⟩
  | cons c a ih =>
    obtain ⟨l, h1, h2⟩ := ih
    refine ⟨[c] :: l.map (c :: ·), ?_, ?_⟩
    · cases hab : a ++ b with
      | nil => exact absurd (List.append_eq_nil_iff.mp hab).2 hb
      | cons y z =>
        rw [List.cons_append, hab]
        show [c] :: (parents (y :: z)).map (c :: ·) = _
        rw [← hab, h1]
        simp
    · intro x hx
      rcases List.mem_cons.mp hx with rfl | hx
      · exact ⟨a, rfl⟩
      · obtain ⟨y, hy, rfl⟩ := List.mem_map.mp hx
        obtain ⟨t, ht⟩ := h2 y hy
        exact ⟨t, by rw [List.cons_append, ht]⟩

theorem foldl_parents {fs : LFs} {a b q : List Str} (hb : b ≠ []) (h : fs.dirPlace a = some q) : (parents (a ++ b)).foldl LFs.mkParent fs = ((parents b).map (a ++ ·)).foldl LFs.mkParent fs := by
  obtain ⟨l, h1, h2⟩ := parents_append a b hb
  rw [h1, List.foldl_append, foldl_there l]
  intro x hx
  obtain ⟨t, ht⟩ := h2 x hx
  rw [← ht] at h
  exact dirPlace_prefix h

/-- What making the parents does when what lies on the way is missing or a directory. -/
theorem parents_made (b : List Str) : ∀ (fs : LFs) (a q : List Str), b ≠ [] → PlainPath b → fs.dirPlace a = some q → (∀ k, MidWay q b k → fs.get k = some .dir ∨ fs.get k = none) →
    Keeps fs (((parents b).map (a ++ ·)).foldl LFs.mkParent fs) ∧
    (∀ k v, (((parents b).map (a ++ ·)).foldl LFs.mkParent fs).get k = some v → fs.get k = some v ∨ (v = .dir ∧ MidWay q b k)) ∧
    (∀ k, MidWay q b k → (((parents b).map (a ++ ·)).foldl LFs.mkParent fs).get k = some .dir) := by
  induction b with
  | nil => intro fs a q h; exact absurd rfl h
  | cons x b ih =>
    intro fs a q _ hp hq hd
    by_cases h0 : b = []
    · subst h0
      refine ⟨Keeps.refl _, fun k v h => Or.inl h, ?_⟩
      rintro k ⟨b1, h1, h2, h3, _⟩
      rcases b1 with _ | ⟨y, b1⟩
      · exact absurd rfl h1
      · obtain ⟨t, ht⟩ := h2
        injection ht with hy ht
        have := (List.append_eq_nil_iff.mp ht).1
        exact absurd (by rw [this, hy]) h3
    · have hx := hp x (by simp)
      have hlist : (parents (x :: b)).map (a ++ ·) = (a ++ [x]) :: (parents b).map ((a ++ [x]) ++ ·) := by
        cases b with
        | nil => exact absurd rfl h0
        | cons y z =>
          show ([x] :: (parents (y :: z)).map (x :: ·)).map (a ++ ·) = _
          simp
      rw [hlist, List.foldl_cons]
      obtain ⟨m, hm⟩ := walk_factor hq
      have hplace : fs.place (a ++ [x]) = some (q ++ [x]) := by
        unfold LFs.place
        rw [hm [x] (by simp)]
        exact walk_at (hop_plain fs [x] q (by simp) (fun c hc => hp c (by simp at hc; simp [hc])) (by
          rintro k ⟨b1, h1, h2, h3, _⟩
          rcases b1 with _ | ⟨y, b1⟩
          · exact absurd rfl h1
          · obtain ⟨t, ht⟩ := h2
            injection ht with hy ht
            have := (List.append_eq_nil_iff.mp ht).1
            exact absurd (by rw [this, hy]) h3))
      have hdir : fs.dirPlace (a ++ [x]) = match fs.get (q ++ [x]) with
          | some .dir => some (q ++ [x])
          | _ => fs.dirPlace (a ++ [x]) := by
        cases hg : fs.get (q ++ [x]) with
        | none => rfl
        | some v =>
          cases v with
          | file _ => rfl
          | link _ => rfl
          | dir =>
            unfold LFs.dirPlace
            rw [List.append_assoc, hm _ (by simp)]
            apply walk_at
            show hop fs q (x :: [dotName]) = _
            rw [hop_plain_cons fs q [dotName] x hx (by simp), hg]
            rfl
      have hne : q ++ [x] ≠ [] := by simp
      have hstep : Keeps fs (fs.mkParent (a ++ [x])) ∧ (∀ k v, (fs.mkParent (a ++ [x])).get k = some v → fs.get k = some v ∨ (v = .dir ∧ k = q ++ [x])) ∧
          (fs.mkParent (a ++ [x])).get (q ++ [x]) = some .dir := by
        rcases hd _ ((between_cons h0).mpr (Or.inl rfl)) with hg | hg
        · rw [hg] at hdir
          rw [mkParent_there hdir]
          exact ⟨Keeps.refl _, fun k v h => Or.inl h, hg⟩
        · have hnone : fs.dirPlace (a ++ [x]) = none := by
            unfold LFs.dirPlace
            rw [List.append_assoc, hm _ (by simp)]
            apply walk_lost
            show hop fs q (x :: [dotName]) = _
            rw [hop_plain_cons fs q [dotName] x hx (by simp), hg]
          have he : fs.mkParent (a ++ [x]) = fs.set (q ++ [x]) .dir := by
            unfold LFs.mkParent
            rw [hnone]
            dsimp only
            rw [hplace]
            dsimp only
            rw [hg]
          rw [he]
          refine ⟨?_, ?_, ?_⟩
          · intro k v h
            rw [lget_set _ _ _ _ hne]
            rw [if_neg (by rintro rfl; rw [hg] at h; cases h)]
            exact h
          · intro k v h
            rw [lget_set _ _ _ _ hne] at h
            split at h
            · rename_i hk
              injection h with h
              exact Or.inr ⟨h.symm, hk⟩
            · exact Or.inl h
          · rw [lget_set _ _ _ _ hne, if_pos rfl]
      obtain ⟨s1, s2, s3⟩ := hstep
      generalize fs.mkParent (a ++ [x]) = fs1 at s1 s2 s3
      have hq1 : fs1.dirPlace (a ++ [x]) = some (q ++ [x]) := by
        obtain ⟨m1, hm1⟩ := walk_factor (walk_mono s1 _ _ _ _ hq)
        unfold LFs.dirPlace
        rw [List.append_assoc, hm1 _ (by simp)]
        apply walk_at
        show hop fs1 q (x :: [dotName]) = _
        rw [hop_plain_cons fs1 q [dotName] x hx (by simp), s3]
        rfl
      have hd1 : ∀ k, MidWay (q ++ [x]) b k → fs1.get k = some .dir ∨ fs1.get k = none := by
        intro k hk
        cases hg : fs1.get k with
        | none => exact Or.inr rfl
        | some v =>
          left
          rcases s2 k v hg with h | ⟨h, _⟩
          · rcases hd k ((between_cons h0).mpr (Or.inr hk)) with h' | h'
            · rw [h] at h'; exact h'
            · rw [h] at h'; cases h'
          · rw [h]
      obtain ⟨t1, t2, t3⟩ := ih fs1 (a ++ [x]) (q ++ [x]) h0 (fun c hc => hp c (by simp [hc])) hq1 hd1
      refine ⟨s1.trans t1, ?_, ?_⟩
      · intro k v h
        rcases t2 k v h with h | ⟨h1, h2⟩
        · rcases s2 k v h with h | ⟨h1, h2⟩
          · exact Or.inl h
          · exact Or.inr ⟨h1, (between_cons h0).mpr (Or.inl h2)⟩
        · exact Or.inr ⟨h1, (between_cons h0).mpr (Or.inr h2)⟩
      · intro k hk
        rcases (between_cons h0).mp hk with rfl | hk
        · exact t1 _ _ s3
        · exact t3 k hk

/-! ## Where an entry lands -/

/-- Whatever is there lies in a directory. -/
def LTree (fs : LFs) : Prop := ∀ k c, fs.get (k ++ [c]) ≠ none → fs.get k = some .dir

theorem ltree_none {fs : LFs} (ht : LTree fs) {k : List Str} (h : fs.get k = none) (r : List Str) : fs.get (k ++ r) = none := by
  induction r using List.reverseRecOn with
  | nil => simpa using h
  | append_singleton r c ih =>
    by_contra hn
    rw [← List.append_assoc] at hn
    have := ht _ _ hn
    rw [ih] at this
    cases this

/-- The place where the path `cs` will be: its first part leads to a directory that is there (through whatever links), and the rest, without `.` and `..`, is one name in it, or begins with a name that is not there. -/
def Dest (fs : LFs) (cs d : List Str) : Prop :=
  ∃ a b q, cs = a ++ b ∧ b ≠ [] ∧ PlainPath b ∧ fs.dirPlace a = some q ∧ d = q ++ b ∧ (b.length = 1 ∨ ∃ x, b.head? = some x ∧ fs.get (q ++ [x]) = none)

theorem dest_shorter {fs : LFs} {a c b' q q' : List Str} (hc : c ≠ []) (hp : PlainPath (c ++ b')) (hb' : b' ≠ []) (hq : fs.dirPlace a = some q) (hq' : fs.dirPlace (a ++ c) = some q')
    (hx : (c ++ b').length = 1 ∨ ∃ x, (c ++ b').head? = some x ∧ fs.get (q ++ [x]) = none) : False := by
  cases c with
  | nil => exact hc rfl
  | cons x c =>
    rcases hx with hx | ⟨y, hy, hg⟩
    · have : 0 < b'.length := List.length_pos_iff.mpr hb'
      simp at hx
      exact absurd hx.2 hb'
    · simp at hy
      subst hy
      obtain ⟨m, hm⟩ := walk_factor hq
      unfold LFs.dirPlace at hq'
      rw [List.append_assoc, hm _ (by simp)] at hq'
      rw [walk_lost] at hq'
      · cases hq'
      · show hop fs q (x :: (c ++ [dotName])) = _
        rw [hop_plain_cons fs q _ x (hp x (by simp)) (by simp), hg]

theorem dest_unique {fs : LFs} {cs d d' : List Str} (h : Dest fs cs d) (h' : Dest fs cs d') : d = d' := by
  obtain ⟨a, b, q, e, hb, hp, hq, rfl, hx⟩ := h
  obtain ⟨a', b', q', e', hb', hp', hq', rfl, hx'⟩ := h'
  rw [e] at e'
  rcases List.append_eq_append_iff.mp e' with ⟨c, h1, h2⟩ | ⟨c, h1, h2⟩
  · by_cases hc : c = []
    · subst hc
      rw [List.append_nil] at h1
      rw [List.nil_append] at h2
      subst h1 h2
      rw [hq] at hq'
      injection hq' with hq'
      rw [hq']
    · subst h1 h2
      exact absurd (dest_shorter hc hp hb' hq hq' hx) id
  · by_cases hc : c = []
    · subst hc
      rw [List.append_nil] at h1
      rw [List.nil_append] at h2
      subst h1 h2
      rw [hq] at hq'
      injection hq' with hq'
      rw [hq']
    · subst h1 h2
      exact absurd (dest_shorter hc hp' hb hq' hq hx') id

theorem between_prefix {q b k : List Str} (h : MidWay q b k) : k <+: q ++ b ∧ k ≠ q ++ b := by
  obtain ⟨b1, _, ⟨t, ht⟩, h3, rfl⟩ := h
  exact ⟨⟨t, by rw [List.append_assoc, ht]⟩, fun e => h3 (List.append_cancel_left e)⟩

theorem between_free {fs : LFs} (ht : LTree fs) {q b k : List Str} (hx : b.length = 1 ∨ ∃ x, b.head? = some x ∧ fs.get (q ++ [x]) = none) (h : MidWay q b k) : fs.get k = none := by
  obtain ⟨b1, h1, ⟨t, rfl⟩, h3, rfl⟩ := h
  cases b1 with
  | nil => exact absurd rfl h1
  | cons y b1 =>
    rcases hx with hx | ⟨x, hh, hg⟩
    · simp at hx
      obtain ⟨e1, e2⟩ := hx
      exact absurd (by rw [e2, List.append_nil]) h3
    · simp at hh
      subst hh
      have := ltree_none ht hg b1
      simpa using this

/-- A file whose name is not there lands where nothing is. -/
theorem dest_free {fs : LFs} (ht : LTree fs) {cs d : List Str} (h : Dest fs cs d) (hn : (fs.place cs).bind fs.get = none) : fs.get d = none := by
  obtain ⟨a, b, q, rfl, hb, hp, hq, rfl, hx⟩ := h
  rcases hx with hx | ⟨x, hh, hg⟩
  · obtain ⟨m, hm⟩ := walk_factor hq
    have : fs.place (a ++ b) = some (q ++ b) := by
      unfold LFs.place
      rw [hm b hb]
      refine walk_at (hop_plain fs b q hb hp ?_)
      rintro k ⟨b1, h1, ⟨t, rfl⟩, h3, _⟩
      cases b1 with
      | nil => exact absurd rfl h1
      | cons y b1 =>
        simp at hx
        exact absurd (by rw [hx.2, List.append_nil]) h3
    rw [this] at hn
    exact hn
  · cases b with
    | nil => exact absurd rfl hb
    | cons y b =>
      simp at hh
      subst hh
      have := ltree_none ht hg b
      simpa using this

theorem hop_lost_last (fs : LFs) (b q : List Str) (hb : b ≠ []) (hp : PlainPath b) (hd : ∀ k, MidWay q b k → fs.get k = some .dir) (hg : fs.get (q ++ b) = none) :
    hop fs q (b ++ [dotName]) = .lost := by
  induction b generalizing q with
  | nil => exact absurd rfl hb
  | cons x b ih =>
    have hx := hp x (by simp)
    rw [List.cons_append, hop_plain_cons fs q _ x hx (by simp)]
    by_cases h0 : b = []
    · subst h0
      rw [hg]
    · rw [hd _ ((between_cons h0).mpr (Or.inl rfl))]
      exact ih (q ++ [x]) h0 (fun c hc => hp c (by simp [hc])) (fun k hk => hd k ((between_cons h0).mpr (Or.inr hk))) (by simpa using hg)

/-- What one entry with the place `q ++ b` does to the tree. -/
def EntryStep (fs : LFs) (q b : List Str) (n : LNode) (fs' : LFs) : Prop :=
  (∀ k v, k ≠ q ++ b → fs.get k = some v → fs'.get k = some v) ∧
  (∀ k v, fs'.get k = some v → fs.get k = some v ∨ (v = .dir ∧ MidWay q b k) ∨ (k = q ++ b ∧ v = n)) ∧
  (∀ k, MidWay q b k → fs'.get k = some .dir) ∧
  (fs.get (q ++ b) = none → fs'.get (q ++ b) = some n) ∧
  (n = .dir → fs.get (q ++ b) = some .dir → fs'.get (q ++ b) = some .dir)

/-- Extracting an entry whose way is free. -/
theorem extract_free {root : List Str} {fs : LFs} {e : Str × LNode} {a b q : List Str} (hcs : root ++ comps e.1 = a ++ b) (hb : b ≠ []) (hp : PlainPath b) (hq : fs.dirPlace a = some q)
    (hd : ∀ k, MidWay q b k → fs.get k = some .dir ∨ fs.get k = none) : EntryStep fs q b e.2 (LFs.extract root fs e) := by
  obtain ⟨p1, p2, p3⟩ := parents_made b fs a q hb hp hq hd
  have hne : q ++ b ≠ [] := by simp [hb]
  have hfold : (parents (root ++ comps e.1)).foldl LFs.mkParent fs = ((parents b).map (a ++ ·)).foldl LFs.mkParent fs := by rw [hcs, foldl_parents hb hq]
  unfold LFs.extract
  dsimp only
  rw [hfold]
  generalize ((parents b).map (a ++ ·)).foldl LFs.mkParent fs = fs1 at p1 p2 p3
  obtain ⟨m, hm⟩ := walk_factor (walk_mono p1 _ _ _ _ hq)
  have hplace : fs1.place (root ++ comps e.1) = some (q ++ b) := by
    unfold LFs.place
    rw [hcs, hm b hb]
    exact walk_at (hop_plain fs1 b q hb hp p3)
  have hnone : fs.get (q ++ b) = none → fs1.get (q ++ b) = none := by
    intro h
    cases hg : fs1.get (q ++ b) with
    | none => rfl
    | some v =>
      rcases p2 _ _ hg with h' | ⟨_, h'⟩
      · rw [h] at h'; cases h'
      · exact absurd rfl (between_prefix h').2
  have hset : ∀ n, EntryStep fs q b n (fs1.set (q ++ b) n) := by
    intro n
    refine ⟨?_, ?_, ?_, ?_, ?_⟩
    · intro k v hk h
      rw [lget_set _ _ _ _ hne, if_neg hk]
      exact p1 k v h
    · intro k v h
      rw [lget_set _ _ _ _ hne] at h
      split at h
      · rename_i hk
        injection h with h
        exact Or.inr (Or.inr ⟨hk, h.symm⟩)
      · rcases p2 k v h with h | h
        · exact Or.inl h
        · exact Or.inr (Or.inl h)
    · intro k hk
      rw [lget_set _ _ _ _ hne, if_neg (between_prefix hk).2]
      exact p3 k hk
    · intro _
      rw [lget_set _ _ _ _ hne, if_pos rfl]
    · intro hn _
      rw [lget_set _ _ _ _ hne, if_pos rfl, hn]
  have hkeep : ∀ n, ((fs.get (q ++ b) = none → False)) → EntryStep fs q b n fs1 := by
    intro n hf
    refine ⟨fun k v _ h => p1 k v h, ?_, p3, fun h => absurd h hf, fun _ h => p1 _ _ h⟩
    intro k v h
    rcases p2 k v h with h | h
    · exact Or.inl h
    · exact Or.inr (Or.inl h)
  have hother : ∀ n, EntryStep fs q b n (match fs1.place (root ++ comps e.1) with
        | none => fs1
        | some q => match fs1.get q with
          | some .dir => if q = [] || fs1.hasChild q then fs1 else fs1.set q n
          | _ => fs1.set q n : LFs) := by
    intro n
    rw [hplace]
    dsimp only
    cases hg : fs1.get (q ++ b) with
    | none => exact hset n
    | some v =>
      cases v with
      | file _ => exact hset n
      | link _ => exact hset n
      | dir =>
        dsimp only
        split
        · exact hkeep n (fun h => by rw [hnone h] at hg; cases hg)
        · exact hset n
  cases hn : e.2 with
  | file c => exact hother _
  | link t => exact hother _
  | dir =>
    dsimp only
    cases hdp : fs1.dirPlace (root ++ comps e.1) with
    | some q' =>
      dsimp only
      refine hkeep _ (fun h => ?_)
      unfold LFs.dirPlace at hdp
      rw [hcs, List.append_assoc, hm _ (by simp), walk_lost (hop_lost_last fs1 b q hb hp p3 (hnone h))] at hdp
      cases hdp
    | none =>
      dsimp only
      rw [hplace]
      exact hset _

/-- Extracting a directory that is there changes nothing. -/
theorem extract_there {root : List Str} {fs : LFs} {e : Str × LNode} {q : List Str} (he : e.2 = .dir) (hq : fs.dirPlace (root ++ comps e.1) = some q) : LFs.extract root fs e = fs := by
  have hfold : (parents (root ++ comps e.1)).foldl LFs.mkParent fs = fs := by
    apply foldl_there
    intro x hx
    obtain ⟨_, ⟨t, ht⟩, _⟩ := mem_parents.mp hx
    rw [← ht] at hq
    exact dirPlace_prefix hq
  unfold LFs.extract
  dsimp only
  rw [hfold, he]
  dsimp only
  rw [hq]

/-! ## C205 -/

/-- What is asked of the entries of an archive and the tree: each is a directory that is there (links followed), or has a place where it will be — for a directory a free one —; nothing lies below a file or link of the
archive; and exactly the directories are written with a slash at the end. -/
structure GoodEntries (root : List Str) (fs : LFs) (entries : List (Str × LNode)) : Prop where
  lands : ∀ e ∈ entries, (e.2 = .dir ∧ ∃ q, fs.dirPlace (root ++ comps e.1) = some q) ∨ ∃ d, Dest fs (root ++ comps e.1) d ∧ (e.2 = .dir → fs.get d = none)
  below : ∀ e ∈ entries, ∀ e' ∈ entries, e.2 ≠ .dir → ∀ d d', Dest fs (root ++ comps e.1) d → Dest fs (root ++ comps e'.1) d' → d <+: d' → d = d'
  slash : ∀ e ∈ entries, (endsSlash e.1 = true ↔ e.2 = .dir)

/-- The tree has grown by entries of the archive. -/
def Grown (root : List Str) (fs0 : LFs) (E : List (Str × LNode)) (fs : LFs) : Prop :=
  Keeps fs0 fs ∧ ∀ k v, fs.get k = some v → fs0.get k = some v ∨ ∃ e ∈ E, ∃ d, Dest fs0 (root ++ comps e.1) d ∧ ((k = d ∧ v = e.2) ∨ (k <+: d ∧ k ≠ d ∧ v = .dir))

theorem chain_free {root : List Str} {fs0 fs : LFs} {E : List (Str × LNode)} (ht : LTree fs0) {b q : List Str}
    (hx : b.length = 1 ∨ ∃ x, b.head? = some x ∧ fs0.get (q ++ [x]) = none) (hi : Grown root fs0 E fs)
    (hbelow : ∀ e' ∈ E, e'.2 ≠ .dir → ∀ d', Dest fs0 (root ++ comps e'.1) d' → d' <+: q ++ b → d' = q ++ b) (k : List Str) (hk : MidWay q b k) : fs.get k = some .dir ∨ fs.get k = none := by
  cases hg : fs.get k with
  | none => exact Or.inr rfl
  | some v =>
    left
    rcases hi.2 k v hg with h | ⟨e', he', d', hd', ⟨rfl, rfl⟩ | ⟨_, _, rfl⟩⟩
    · rw [between_free ht hx hk] at h
      cases h
    · by_cases hn : e'.2 = .dir
      · rw [hn]
      · exact absurd (hbelow e' he' hn _ hd' (between_prefix hk).1) (between_prefix hk).2
    · rfl

/-- One entry. -/
theorem grown_step {root : List Str} {fs0 fs : LFs} {entries E : List (Str × LNode)} (ht : LTree fs0) (hgood : GoodEntries root fs0 entries) (hE : ∀ x ∈ E, x ∈ entries) {e : Str × LNode} (he : e ∈ entries)
    (hfree : e.2 ≠ .dir → (fs0.place (root ++ comps e.1)).bind fs0.get = none) (hi : Grown root fs0 E fs) :
    Grown root fs0 (E ++ [e]) (LFs.extract root fs e) ∧
    (∀ k v, (∀ d, Dest fs0 (root ++ comps e.1) d → k ≠ d) → fs.get k = some v → (LFs.extract root fs e).get k = some v) ∧
    (∀ a b q, root ++ comps e.1 = a ++ b → b ≠ [] → PlainPath b → fs0.dirPlace a = some q → (b.length = 1 ∨ ∃ x, b.head? = some x ∧ fs0.get (q ++ [x]) = none) → e.2 ≠ .dir →
      (∀ k, MidWay q b k → (LFs.extract root fs e).get k = some .dir) ∧ (fs.get (q ++ b) = none → (LFs.extract root fs e).get (q ++ b) = some e.2)) ∧
    (e.2 = .dir → ∀ k, fs.get k = some .dir → (LFs.extract root fs e).get k = some .dir) := by
  have hgrow : Grown root fs0 (E ++ [e]) fs := by
    refine ⟨hi.1, fun k v h => ?_⟩
    rcases hi.2 k v h with h | ⟨e', he', h⟩
    · exact Or.inl h
    · exact Or.inr ⟨e', by simp [he'], h⟩
  have hbelow : ∀ {d}, Dest fs0 (root ++ comps e.1) d → ∀ e' ∈ E, e'.2 ≠ .dir → ∀ d', Dest fs0 (root ++ comps e'.1) d' → d' <+: d → d' = d :=
    fun hd e' he' hn d' hd' hpre => hgood.below e' (hE e' he') e he hn d' _ hd' hd hpre
  by_cases hthere : e.2 = .dir ∧ ∃ q, fs0.dirPlace (root ++ comps e.1) = some q
  · obtain ⟨hdir, q, hq⟩ := hthere
    rw [extract_there hdir (walk_mono hi.1 _ _ _ _ hq)]
    exact ⟨hgrow, fun _ _ _ h => h, fun _ _ _ _ _ _ _ _ hn => absurd hdir hn, fun _ _ h => h⟩
  · obtain ⟨d, hd, hdirfree⟩ := (hgood.lands e he).resolve_left hthere
    have h0 : fs0.get d = none := by
      by_cases hn : e.2 = .dir
      · exact hdirfree hn
      · exact dest_free ht hd (hfree hn)
    have hd' := hd
    obtain ⟨a, b, q, hcs, hb, hp, hq, rfl, hx⟩ := hd'
    obtain ⟨s1, s2, s3, s4, s5⟩ := extract_free (e := e) hcs hb hp (walk_mono hi.1 _ _ _ _ hq) (chain_free ht hx hi (hbelow hd))
    refine ⟨⟨?_, ?_⟩, ?_, ?_, ?_⟩
    · intro k v h
      exact s1 k v (by rintro rfl; rw [h0] at h; cases h) (hi.1 k v h)
    · intro k v h
      rcases s2 k v h with h | ⟨rfl, hk⟩ | ⟨rfl, rfl⟩
      · rcases hi.2 k v h with h | ⟨e', he', h⟩
        · exact Or.inl h
        · exact Or.inr ⟨e', by simp [he'], h⟩
      · exact Or.inr ⟨e, by simp, q ++ b, hd, Or.inr ⟨(between_prefix hk).1, (between_prefix hk).2, rfl⟩⟩
      · exact Or.inr ⟨e, by simp, q ++ b, hd, Or.inl ⟨rfl, rfl⟩⟩
    · intro k v hk h
      exact s1 k v (hk _ hd) h
    · intro a' b' q' hcs' hb' hp' hq' hx' _
      obtain ⟨_, _, t3, t4, _⟩ := extract_free (e := e) hcs' hb' hp' (walk_mono hi.1 _ _ _ _ hq')
        (chain_free ht hx' hi (hbelow ⟨a', b', q', hcs', hb', hp', hq', rfl, hx'⟩))
      exact ⟨t3, t4⟩
    · intro hn k hk
      by_cases hkd : k = q ++ b
      · subst hkd
        exact s5 hn hk
      · exact s1 k _ hkd hk

theorem grown_all {root : List Str} {fs0 : LFs} {entries : List (Str × LNode)} (ht : LTree fs0) (hgood : GoodEntries root fs0 entries)
    (hfree : ∀ e ∈ entries, e.2 ≠ .dir → (fs0.place (root ++ comps e.1)).bind fs0.get = none) (E R : List (Str × LNode)) (hER : E ++ R = entries) (fs : LFs) (hi : Grown root fs0 E fs) :
    Grown root fs0 entries (R.foldl (LFs.extract root) fs) := by
  induction R generalizing E fs with
  | nil =>
    rw [List.append_nil] at hER
    rw [← hER]
    exact hi
  | cons e R ih =>
    have he : e ∈ entries := by rw [← hER]; simp
    have hE : ∀ x ∈ E, x ∈ entries := fun x hx => by rw [← hER]; simp [hx]
    rw [List.foldl_cons]
    exact ih (E ++ [e]) (by rw [← hER]; simp) _ (grown_step ht hgood hE he (hfree e he) hi).1

/-- What an accepted installation tells. -/
theorem linkAdd_some {root : List Str} {name : Str} {entries : List (Str × LNode)} {s s' : LSys} (h : linkAdd root name entries s = some s') (hs : ∀ e ∈ entries, (endsSlash e.1 = true ↔ e.2 = .dir)) :
    s'.db = (name, entries.map (·.1)) :: s.db ∧ s'.fs = entries.foldl (LFs.extract root) s.fs ∧ name ∉ s.db.map (·.1) ∧
      ∀ e ∈ entries, e.2 ≠ .dir → (s.fs.place (root ++ comps e.1)).bind s.fs.get = none ∧ ∀ p ∈ s.db, e.1 ∉ p.2 := by
  unfold linkAdd at h
  split at h
  · cases h
  · rename_i hname
    split at h
    · cases h
    · rename_i hc
      injection h with h
      subst h
      refine ⟨rfl, rfl, by simpa using hname, ?_⟩
      intro e he hn
      have hc' : linkConflicts root s (entries.map (·.1)) = [] := not_not.mp hc
      have hno : ¬ endsSlash e.1 = true := fun h => hn ((hs e he).mp h)
      unfold linkConflicts at hc'
      rw [List.filter_eq_nil_iff] at hc'
      have := hc' e.1 (List.mem_map_of_mem he)
      simp only [Bool.and_eq_true, Bool.or_eq_true, Bool.not_eq_true', not_and, Bool.not_eq_false] at this
      have hor : ¬ ((s.db.any (fun p => p.2.contains e.1)) = true ∨ s.fs.exist root e.1 = true) := fun h => hno (this h)
      rw [not_or] at hor
      constructor
      · have := hor.2
        unfold LFs.exist at this
        rw [if_neg hno] at this
        cases hb : (s.fs.place (root ++ comps e.1)).bind s.fs.get with
        | none => rfl
        | some v => rw [hb] at this; exact absurd rfl this
      · intro p hp hm
        exact hor.1 (List.any_eq_true.mpr ⟨p, hp, by simpa using hm⟩)

/-- **C205.** An installation without `--force` that is accepted changes nothing that was there — no file, no link, no directory —, through whatever links its names lead; and what is new is an entry of the
archive at its place, or a directory above one. -/
theorem C205_nothing_overwritten (root : List Str) (name : Str) (entries : List (Str × LNode)) (s s' : LSys) (ht : LTree s.fs) (hgood : GoodEntries root s.fs entries)
    (h : linkAdd root name entries s = some s') (k : List Str) :
    (∀ v, s.fs.get k = some v → s'.fs.get k = some v) ∧
    (∀ v, s'.fs.get k = some v → s.fs.get k = some v ∨ ∃ e ∈ entries, ∃ d, Dest s.fs (root ++ comps e.1) d ∧ ((k = d ∧ v = e.2) ∨ (k <+: d ∧ k ≠ d ∧ v = .dir))) := by
  obtain ⟨_, hfs, _, hfree⟩ := linkAdd_some h hgood.slash
  have hg := grown_all ht hgood (fun e he hn => (hfree e he hn).1) [] entries rfl s.fs ⟨Keeps.refl _, fun k v h => Or.inl h⟩
  rw [← hfs] at hg
  exact ⟨hg.1 k, hg.2 k⟩

/-- **C205, the entries land**: when no two entries have the same place, each file and link of the archive is there afterwards, at its place and under its name. -/
theorem C205_landed (root : List Str) (name : Str) (entries : List (Str × LNode)) (s s' : LSys) (ht : LTree s.fs) (hgood : GoodEntries root s.fs entries)
    (hapart : entries.Pairwise (fun e e' => ∀ d, Dest s.fs (root ++ comps e.1) d → ¬ Dest s.fs (root ++ comps e'.1) d))
    (h : linkAdd root name entries s = some s') (e : Str × LNode) (he : e ∈ entries) (hn : e.2 ≠ .dir) :
    ∃ d, Dest s.fs (root ++ comps e.1) d ∧ s'.fs.place (root ++ comps e.1) = some d ∧ s'.fs.get d = some e.2 := by
  obtain ⟨_, hfs, _, hfree⟩ := linkAdd_some h hgood.slash
  have hfree' := fun e he hn => (hfree e he hn).1
  have hd : ∃ d, Dest s.fs (root ++ comps e.1) d := by
    rcases hgood.lands e he with ⟨h, _⟩ | ⟨d, hd, _⟩
    · exact absurd h hn
    · exact ⟨d, hd⟩
  obtain ⟨d, hd⟩ := hd
  have hd' := hd
  obtain ⟨a, b, q, hcs, hb, hp, hq, rfl, hx⟩ := hd'
  obtain ⟨E, R, hER⟩ := List.append_of_mem he
  have hE : ∀ x ∈ E, x ∈ entries := fun x hx => by rw [hER]; simp [hx]
  have hpart : ∀ (E R : List (Str × LNode)) (fs : LFs), E ++ R = entries → Grown root s.fs [] fs → Grown root s.fs E (E.foldl (LFs.extract root) fs) := by
    intro E
    induction E using List.reverseRecOn with
    | nil => intro R fs _ hi; exact hi
    | append_singleton E x ih =>
      intro R fs hR hi
      rw [List.foldl_append]
      have hx : x ∈ entries := by rw [← hR]; simp
      exact (grown_step ht hgood (fun y hy => by rw [← hR]; simp [hy]) hx (hfree' x hx) (ih (x :: R) fs (by rw [← hR]; simp) hi)).1
  have hi := hpart E (e :: R) s.fs hER.symm ⟨Keeps.refl _, fun k v h => Or.inl h⟩
  have h0 : s.fs.get (q ++ b) = none := dest_free ht hd (hfree' e he hn)
  rw [hER, List.pairwise_append] at hapart
  obtain ⟨_, hap2, hap1⟩ := hapart
  rw [List.pairwise_cons] at hap2
  have hnone : (E.foldl (LFs.extract root) s.fs).get (q ++ b) = none := by
    cases hg : (E.foldl (LFs.extract root) s.fs).get (q ++ b) with
    | none => rfl
    | some v =>
      rcases hi.2 _ _ hg with h | ⟨e', he', d', hd', ⟨h1, _⟩ | ⟨h1, h2, _⟩⟩
      · rw [h0] at h; cases h
      · rw [← h1] at hd'
        exact absurd hd (hap1 e' he' e (by simp) _ hd')
      · exact absurd (hgood.below e he e' (hE e' he') hn _ _ hd hd' h1) h2
  obtain ⟨g1, _, g3, _⟩ := grown_step ht hgood hE he (hfree' e he) hi
  obtain ⟨c1, c2⟩ := g3 a b q hcs hb hp hq hx hn
  have c2 := c2 hnone
  have hrest : ∀ (R E' : List (Str × LNode)) (fs : LFs), E' ++ R = entries → (∀ x ∈ R, ∀ d, Dest s.fs (root ++ comps e.1) d → ¬ Dest s.fs (root ++ comps x.1) d) → Grown root s.fs E' fs →
      (∀ k, MidWay q b k → fs.get k = some .dir) → fs.get (q ++ b) = some e.2 →
      (∀ k, MidWay q b k → (R.foldl (LFs.extract root) fs).get k = some .dir) ∧ (R.foldl (LFs.extract root) fs).get (q ++ b) = some e.2 ∧ Keeps s.fs (R.foldl (LFs.extract root) fs) := by
    intro R
    induction R with
    | nil => intro E' fs _ _ hi h1 h2; exact ⟨h1, h2, hi.1⟩
    | cons x R ih =>
      intro E' fs hR hap hi h1 h2
      have hx : x ∈ entries := by rw [← hR]; simp
      obtain ⟨k1, k2, _, k4⟩ := grown_step ht hgood (fun y hy => by rw [← hR]; simp [hy]) hx (hfree' x hx) hi
      rw [List.foldl_cons]
      refine ih (E' ++ [x]) _ (by rw [← hR]; simp) (fun y hy => hap y (by simp [hy])) k1 ?_ ?_
      · intro k hk
        by_cases hdx : Dest s.fs (root ++ comps x.1) k
        · by_cases hxd : x.2 = .dir
          · exact k4 hxd k (h1 k hk)
          · exact absurd (hgood.below x hx e he hxd _ _ hdx hd (between_prefix hk).1) (between_prefix hk).2
        · exact k2 k _ (fun d'' hd'' e'' => hdx (e'' ▸ hd'')) (h1 k hk)
      · exact k2 _ _ (fun d'' hd'' e'' => hap x (by simp) d'' (e'' ▸ hd) hd'') h2
  rw [hER, List.foldl_append, List.foldl_cons] at hfs
  obtain ⟨r1, r2, r3⟩ := hrest R (E ++ [e]) _ (by rw [hER]; simp) hap2.1 g1 c1 c2
  refine ⟨q ++ b, hd, ?_, by rw [hfs]; exact r2⟩
  rw [← hfs] at r1 r3
  obtain ⟨m, hm⟩ := walk_factor (walk_mono r3 _ _ _ _ hq)
  unfold LFs.place
  rw [hcs, hm b hb]
  exact walk_at (hop_plain _ b q hb hp r1)

/-! ## The tree stays a tree -/

theorem ltree_dir {fs : LFs} (ht : LTree fs) (k : List Str) (c : Str) (h : fs.get (k ++ [c]) = some .dir) : fs.get k = some .dir := ht k c (by rw [h]; simp)

theorem ltree_dropLast {fs : LFs} (ht : LTree fs) {k : List Str} (h : fs.get k = some .dir) : fs.get k.dropLast = some .dir := by
  rcases List.eq_nil_or_concat k with rfl | ⟨r, c, rfl⟩
  · exact h
  · rw [List.concat_eq_append, List.dropLast_concat]
    rw [List.concat_eq_append] at h
    exact ltree_dir ht r c h

/-- Whatever can be read off a walk: from a directory, along a path that ends with `.`, it arrives in a directory, and a link it meets lies in one. -/
theorem hop_in_dir {fs : LFs} (ht : LTree fs) (cur a : List Str) (hc : fs.get cur = some .dir) :
    (∀ q, hop fs cur (a ++ [dotName]) = .at q → fs.get q = some .dir) ∧ (∀ cur' t r, hop fs cur (a ++ [dotName]) = .jump cur' t r → fs.get cur' = some .dir ∧ ∃ a', r = a' ++ [dotName]) := by
  induction a generalizing cur with
  | nil =>
    rw [List.nil_append, hop_dot]
    exact ⟨fun q h => by injection h with h; rw [← h]; exact hc, fun _ _ _ h => by cases h⟩
  | cons c a ih =>
    rw [List.cons_append]
    unfold hop
    by_cases h1 : c = dotName
    · rw [if_pos h1]
      exact ih cur hc
    · rw [if_neg h1]
      by_cases h2 : c = dotdotName
      · rw [if_pos h2]
        exact ih _ (ltree_dropLast ht hc)
      · rw [if_neg h2, if_neg (by simp)]
        cases hg : fs.get (cur ++ [c]) with
        | none => exact ⟨fun _ h => (by cases h), fun _ _ _ h => (by cases h)⟩
        | some v =>
          cases v with
          | file _ => exact ⟨fun _ h => (by cases h), fun _ _ _ h => (by cases h)⟩
          | dir => exact ih _ hg
          | link t =>
            refine ⟨fun _ h => (by cases h), fun cur' t' r h => ?_⟩
            injection h with e1 e2 e3
            exact ⟨e1 ▸ hc, a, e3.symm⟩

theorem walk_in_dir {fs : LFs} (ht : LTree fs) (n : Nat) (cur a q : List Str) (hc : fs.get cur = some .dir) (h : fs.walk n cur (a ++ [dotName]) = some q) : fs.get q = some .dir := by
  induction n generalizing cur a with
  | zero =>
    unfold LFs.walk at h
    obtain ⟨h1, _⟩ := hop_in_dir ht cur a hc
    revert h
    cases hh : hop fs cur (a ++ [dotName]) with
    | «at» q' => intro h; injection h with h; subst h; exact h1 _ hh
    | jump _ _ _ => intro h; cases h
    | lost => intro h; cases h
  | succ n ih =>
    unfold LFs.walk at h
    obtain ⟨h1, h2⟩ := hop_in_dir ht cur a hc
    revert h
    cases hh : hop fs cur (a ++ [dotName]) with
    | «at» q' => intro h; injection h with h; subst h; exact h1 _ hh
    | lost => intro h; cases h
    | jump cur' t r =>
      intro h
      obtain ⟨hc', a', rfl⟩ := h2 _ _ _ hh
      dsimp only at h
      rw [← List.append_assoc] at h
      refine ih _ _ ?_ h
      split
      · rfl
      · exact hc'

theorem dirPlace_dir {fs : LFs} (ht : LTree fs) {a q : List Str} (h : fs.dirPlace a = some q) : fs.get q = some .dir := walk_in_dir ht 40 [] a q rfl h

theorem between_parent {q b k : List Str} {c : Str} (h : MidWay q b (k ++ [c])) : k = q ∨ MidWay q b k := by
  obtain ⟨b1, h1, ⟨t, ht⟩, h3, he⟩ := h
  rcases List.eq_nil_or_concat b1 with rfl | ⟨r, x, rfl⟩
  · exact absurd rfl h1
  · rw [List.concat_eq_append] at he ht
    rw [← List.append_assoc] at he
    obtain ⟨e1, _⟩ := List.append_inj' he rfl
    by_cases hr : r = []
    · left; rw [e1, hr, List.append_nil]
    · refine Or.inr ⟨r, hr, ⟨x :: t, by rw [← ht]; simp⟩, ?_, e1⟩
      rintro rfl
      have := congrArg List.length ht
      simp at this

theorem last_parent {q b k : List Str} {c : Str} (hb : b ≠ []) (h : k ++ [c] = q ++ b) : k = q ∨ MidWay q b k := by
  rcases List.eq_nil_or_concat b with rfl | ⟨r, x, rfl⟩
  · exact absurd rfl hb
  · rw [List.concat_eq_append] at h ⊢
    rw [← List.append_assoc] at h
    obtain ⟨e1, _⟩ := List.append_inj' h rfl
    by_cases hr : r = []
    · left; rw [e1, hr, List.append_nil]
    · refine Or.inr ⟨r, hr, ⟨[x], rfl⟩, by simp, e1⟩

/-- A step at a free place, or of a directory at one, leaves a tree a tree and everything that was there. -/
theorem step_tree {fs fs' : LFs} {q b : List Str} {n : LNode} (ht : LTree fs) (hb : b ≠ []) (hq : fs.get q = some .dir) (hs : EntryStep fs q b n fs') (hfree : fs.get (q ++ b) = none ∨ (n = .dir ∧ fs.get (q ++ b) = some .dir)) :
    LTree fs' ∧ Keeps fs fs' := by
  obtain ⟨s1, s2, s3, s4, s5⟩ := hs
  have hkeep : Keeps fs fs' := by
    intro k v h
    by_cases hk : k = q ++ b
    · subst hk
      rcases hfree with h0 | ⟨hn, h0⟩
      · rw [h0] at h; cases h
      · rw [h0] at h
        injection h with h
        subst h
        exact s5 hn h0
    · exact s1 k v hk h
  have hqb : ∀ k, k = q ∨ MidWay q b k → fs'.get k = some .dir := by
    rintro k (rfl | h)
    · exact hkeep _ _ hq
    · exact s3 k h
  refine ⟨?_, hkeep⟩
  intro k c hk
  cases hg : fs'.get (k ++ [c]) with
  | none => exact absurd hg hk
  | some v =>
    rcases s2 _ _ hg with h | ⟨_, h⟩ | ⟨h, _⟩
    · exact hkeep _ _ (ht k c (by rw [h]; simp))
    · exact hqb k (between_parent h)
    · exact hqb k (last_parent hb h)

/-- No two entries have the same place. -/
def Apart (root : List Str) (fs : LFs) (entries : List (Str × LNode)) : Prop :=
  entries.Pairwise (fun e e' => ∀ d, Dest fs (root ++ comps e.1) d → ¬ Dest fs (root ++ comps e'.1) d)

theorem tree_all {root : List Str} {fs0 : LFs} {entries : List (Str × LNode)} (ht : LTree fs0) (hgood : GoodEntries root fs0 entries) (hap : Apart root fs0 entries)
    (hfree : ∀ e ∈ entries, e.2 ≠ .dir → (fs0.place (root ++ comps e.1)).bind fs0.get = none) (E R : List (Str × LNode)) (hER : E ++ R = entries) (fs : LFs) (hi : Grown root fs0 E fs) (htf : LTree fs) :
    LTree (R.foldl (LFs.extract root) fs) := by
  induction R generalizing E fs with
  | nil => exact htf
  | cons e R ih =>
    have he : e ∈ entries := by rw [← hER]; simp
    have hE : ∀ x ∈ E, x ∈ entries := fun x hx => by rw [← hER]; simp [hx]
    rw [List.foldl_cons]
    refine ih (E ++ [e]) (by rw [← hER]; simp) _ (grown_step ht hgood hE he (hfree e he) hi).1 ?_
    by_cases hthere : e.2 = .dir ∧ ∃ q, fs0.dirPlace (root ++ comps e.1) = some q
    · obtain ⟨hdir, q, hq⟩ := hthere
      rw [extract_there hdir (walk_mono hi.1 _ _ _ _ hq)]
      exact htf
    · obtain ⟨d, hd, hdirfree⟩ := (hgood.lands e he).resolve_left hthere
      have h0 : fs0.get d = none := by
        by_cases hn : e.2 = .dir
        · exact hdirfree hn
        · exact dest_free ht hd (hfree e he hn)
      have hd' := hd
      obtain ⟨a, b, q, hcs, hb, hp, hq, rfl, hx⟩ := hd'
      have hbelow : ∀ e' ∈ E, e'.2 ≠ .dir → ∀ d', Dest fs0 (root ++ comps e'.1) d' → d' <+: q ++ b → d' = q ++ b :=
        fun e' he' hn d' hd' hpre => hgood.below e' (hE e' he') e he hn d' _ hd' hd hpre
      have hstep := extract_free (e := e) hcs hb hp (walk_mono hi.1 _ _ _ _ hq) (chain_free ht hx hi hbelow)
      refine (step_tree htf hb (dirPlace_dir htf (walk_mono hi.1 _ _ _ _ hq)) hstep ?_).1
      cases hg : fs.get (q ++ b) with
      | none => exact Or.inl rfl
      | some v =>
        right
        rcases hi.2 _ _ hg with h | ⟨e', he', d', hd', ⟨h1, _⟩ | ⟨h1, h2, rfl⟩⟩
        · rw [h0] at h; cases h
        · exfalso
          unfold Apart at hap
          rw [← hER, List.pairwise_append] at hap
          rw [← h1] at hd'
          exact hap.2.2 e' he' e (by simp) _ hd' hd
        · by_cases hn : e.2 = .dir
          · exact ⟨hn, rfl⟩
          · exact absurd (hgood.below e he e' (hE e' he') hn _ _ hd hd' h1) h2

/-! ## C206 -/

/-- A name of a package (one that does not end with a slash) lies at a place where something is. -/
def Lies (root : List Str) (fs : LFs) (f : Str) (q : List Str) : Prop := endsSlash f = false ∧ fs.place (root ++ comps f) = some q ∧ fs.get q ≠ none

/-- All recorded files and links are there. -/
def AllFilesThere (root : List Str) (s : LSys) : Prop := ∀ p ∈ s.db, ∀ f ∈ p.2, endsSlash f = false → ∃ q, Lies root s.fs f q

/-- No place of the disk belongs to two packages, under whatever names. -/
def NoShare (root : List Str) (s : LSys) : Prop := ∀ p ∈ s.db, ∀ p' ∈ s.db, p.1 ≠ p'.1 → ∀ f ∈ p.2, ∀ f' ∈ p'.2, ∀ q, Lies root s.fs f q → ¬ Lies root s.fs f' q

/-- A new file or link lies, when it lies anywhere, where nothing was. -/
theorem new_was_free (root : List Str) (name : Str) (entries : List (Str × LNode)) (s s' : LSys) (ht : LTree s.fs) (hgood : GoodEntries root s.fs entries)
    (h : linkAdd root name entries s = some s') (f : Str) (hf : f ∈ entries.map (·.1)) (q : List Str) (hl : Lies root s'.fs f q) : s.fs.get q = none := by
  obtain ⟨_, hfs, _, hfree⟩ := linkAdd_some h hgood.slash
  have hg := grown_all ht hgood (fun e he hn => (hfree e he hn).1) [] entries rfl s.fs ⟨Keeps.refl _, fun k v h => Or.inl h⟩
  rw [← hfs] at hg
  obtain ⟨e, he, rfl⟩ := List.mem_map.mp hf
  obtain ⟨hsl, hpl, _⟩ := hl
  have hn : e.2 ≠ .dir := fun hd => by rw [(hgood.slash e he).mpr hd] at hsl; cases hsl
  obtain ⟨d, hd⟩ : ∃ d, Dest s.fs (root ++ comps e.1) d := by
    rcases hgood.lands e he with ⟨h, _⟩ | ⟨d, hd, _⟩
    · exact absurd h hn
    · exact ⟨d, hd⟩
  have h0 : s.fs.get d = none := dest_free ht hd (hfree e he hn).1
  have hd' := hd
  obtain ⟨a, b, q', hcs, hb, hp, hq, rfl, hx⟩ := hd'
  have hbelow : ∀ e' ∈ entries, e'.2 ≠ .dir → ∀ d', Dest s.fs (root ++ comps e'.1) d' → d' <+: q' ++ b → d' = q' ++ b :=
    fun e' he' hn d' hd' hpre => hgood.below e' he' e he hn d' _ hd' hd hpre
  obtain ⟨m, hm⟩ := walk_factor (walk_mono hg.1 _ _ _ _ hq)
  unfold LFs.place at hpl
  rw [hcs, hm b hb] at hpl
  rcases hop_plain_or s'.fs b q' hb hp (chain_free ht hx hg hbelow) with h | h
  · rw [walk_at h] at hpl
    injection hpl with hpl
    rw [← hpl]
    exact h0
  · rw [walk_lost h] at hpl
    cases hpl

/-- **C206.** When all recorded files are there, an accepted installation leaves no place with two owners, if there was none before. -/
theorem C206_add (root : List Str) (name : Str) (entries : List (Str × LNode)) (s s' : LSys) (ht : LTree s.fs) (hgood : GoodEntries root s.fs entries) (hall : AllFilesThere root s) (hno : NoShare root s)
    (h : linkAdd root name entries s = some s') : NoShare root s' := by
  have hkeep : Keeps s.fs s'.fs := fun k => (C205_nothing_overwritten root name entries s s' ht hgood h k).1
  obtain ⟨hdb, _, _, _⟩ := linkAdd_some h hgood.slash
  have hold : ∀ p ∈ s.db, ∀ f ∈ p.2, ∀ q, Lies root s'.fs f q → Lies root s.fs f q := by
    intro p hp f hf q hl
    obtain ⟨q', hl'⟩ := hall p hp f hf hl.1
    have h1 := walk_mono hkeep _ _ _ _ hl'.2.1
    have h2 := hl.2.1
    unfold LFs.place at h2
    rw [h1] at h2
    injection h2 with h2
    rw [← h2]
    exact hl'
  have hcross : ∀ p ∈ s.db, ∀ f ∈ p.2, ∀ f' ∈ entries.map (·.1), ∀ q, Lies root s'.fs f q → Lies root s'.fs f' q → False := by
    intro p hp f hf f' hf' q hl hl'
    exact (hold p hp f hf q hl).2.2 (new_was_free root name entries s s' ht hgood h f' hf' q hl')
  intro p hp p' hp' hne f hf f' hf' q hl hl'
  rw [hdb] at hp hp'
  rcases List.mem_cons.mp hp with rfl | hp
  · rcases List.mem_cons.mp hp' with rfl | hp'
    · exact hne rfl
    · exact hcross p' hp' f' hf' f hf q hl' hl
  · rcases List.mem_cons.mp hp' with rfl | hp'
    · exact hcross p hp f hf f' hf' q hl hl'
    · exact hno p hp p' hp' hne f hf f' hf' q (hold p hp f hf q hl) (hold p' hp' f' hf' q hl')

/-- The files of an accepted package are all there, and the others still are. -/
theorem C206_all_there (root : List Str) (name : Str) (entries : List (Str × LNode)) (s s' : LSys) (ht : LTree s.fs) (hgood : GoodEntries root s.fs entries) (hap : Apart root s.fs entries)
    (hall : AllFilesThere root s) (h : linkAdd root name entries s = some s') : AllFilesThere root s' := by
  have hkeep : Keeps s.fs s'.fs := fun k => (C205_nothing_overwritten root name entries s s' ht hgood h k).1
  obtain ⟨hdb, _, _, _⟩ := linkAdd_some h hgood.slash
  intro p hp f hf hs
  rw [hdb] at hp
  rcases List.mem_cons.mp hp with rfl | hp
  · obtain ⟨e, he, rfl⟩ := List.mem_map.mp hf
    have hn : e.2 ≠ .dir := fun hd => by rw [(hgood.slash e he).mpr hd] at hs; cases hs
    obtain ⟨d, _, h1, h2⟩ := C205_landed root name entries s s' ht hgood hap h e he hn
    exact ⟨d, hs, h1, by rw [h2]; simp⟩
  · obtain ⟨q, h1, h2, h3⟩ := hall p hp f hf hs
    refine ⟨q, h1, walk_mono hkeep _ _ _ _ h2, ?_⟩
    cases hg : s.fs.get q with
    | none => exact absurd hg h3
    | some v => rw [hkeep _ _ hg]; simp

/-! ## C207 -/

/-- The second tree is the first without something at `q`. -/
theorem remove_cases (fs : LFs) (root : List Str) (p : Str) : fs.remove root p = fs ∨ ∃ q, fs.place (root ++ comps p) = some q ∧ q ≠ [] ∧ fs.remove root p = fs.del q ∧
    (fs.get q = some .dir ∧ fs.hasChild q = false ∨ (∃ v, fs.get q = some v ∧ v ≠ .dir ∧ endsSlash p = false)) := by
  unfold LFs.remove
  cases hp : fs.place (root ++ comps p) with
  | none => exact Or.inl rfl
  | some q =>
    dsimp only
    have hroot : fs.get [] = some .dir := by simp [LFs.get]
    cases hg : fs.get q with
    | none => exact Or.inl rfl
    | some v =>
      have hfl : v ≠ .dir → (if endsSlash p then fs else fs.del q) = fs ∨ ∃ q', some q = some q' ∧ q' ≠ [] ∧ (if endsSlash p then fs else fs.del q) = fs.del q' ∧
          (fs.get q' = some .dir ∧ fs.hasChild q' = false ∨ (∃ v, fs.get q' = some v ∧ v ≠ .dir ∧ endsSlash p = false)) := by
        intro hv
        cases hs : endsSlash p with
        | true => exact Or.inl rfl
        | false =>
          refine Or.inr ⟨q, rfl, ?_, rfl, Or.inr ⟨v, hg, hv, rfl⟩⟩
          rintro rfl
          rw [hroot] at hg
          injection hg with hg
          exact hv hg.symm
      cases v with
      | dir =>
        dsimp only
        split
        · exact Or.inl rfl
        · rename_i h
          simp only [Bool.or_eq_true, not_or, Bool.not_eq_true, decide_eq_true_eq] at h
          exact Or.inr ⟨q, rfl, h.1, rfl, Or.inl ⟨hg, h.2⟩⟩
      | file c => exact hfl (by simp)
      | link t => exact hfl (by simp)

/-- What one name does when it is removed. -/
theorem removed_one (root : List Str) (fs : LFs) (f : Str) : Keeps (if fs.exist root f then fs.remove root f else fs) fs ∧
    ∀ k v, fs.get k = some v → (if fs.exist root f then fs.remove root f else fs).get k = some v ∨ (fs.place (root ++ comps f) = some k ∧ (v ≠ .dir → endsSlash f = false)) := by
  split
  · rcases remove_cases fs root f with h | ⟨q, hq, hne, h, hc⟩
    · rw [h]
      exact ⟨Keeps.refl _, fun k v h => Or.inl h⟩
    · rw [h]
      constructor
      · intro k v hk
        rw [lget_del _ _ _ hne] at hk
        split at hk
        · cases hk
        · exact hk
      · intro k v hk
        rw [lget_del _ _ _ hne]
        split
        · rename_i he
          subst he
          refine Or.inr ⟨hq, fun hv => ?_⟩
          rcases hc with ⟨hd, _⟩ | ⟨_, _, _, h⟩
          · rw [hd] at hk
            injection hk with hk
            exact absurd hk.symm hv
          · exact h
        · exact Or.inl hk
  · exact ⟨Keeps.refl _, fun k v h => Or.inl h⟩

theorem removed_all (root : List Str) (fs0 : LFs) (l : List Str) (fs : LFs) (h0 : Keeps fs fs0) :
    Keeps (l.foldl (fun fs f => if fs.exist root f then fs.remove root f else fs) fs) fs0 ∧
    ∀ k v, fs.get k = some v → (l.foldl (fun fs f => if fs.exist root f then fs.remove root f else fs) fs).get k = some v ∨
      ∃ f ∈ l, fs0.place (root ++ comps f) = some k ∧ (v ≠ .dir → endsSlash f = false) := by
  induction l generalizing fs with
  | nil => exact ⟨h0, fun k v h => Or.inl h⟩
  | cons f l ih =>
    rw [List.foldl_cons]
    obtain ⟨r1, r2⟩ := removed_one root fs f
    obtain ⟨i1, i2⟩ := ih _ (r1.trans h0)
    refine ⟨i1, fun k v h => ?_⟩
    rcases r2 k v h with h | ⟨h1, h2⟩
    · rcases i2 k v h with h | ⟨g, hg, h⟩
      · exact Or.inl h
      · exact Or.inr ⟨g, by simp [hg], h⟩
    · exact Or.inr ⟨f, by simp, walk_mono h0 _ _ _ _ h1, h2⟩

/-- **C207, what goes.** Removing a package adds and changes nothing; and what is gone was at the place one of its names led to before, and that name no other package has. -/
theorem C207_only_own (root : List Str) (name : Str) (s : LSys) (k : List Str) :
    (∀ v, (linkRm root name s).fs.get k = some v → s.fs.get k = some v) ∧
    (∀ v, s.fs.get k = some v → (linkRm root name s).fs.get k = some v ∨
      ∃ p ∈ s.db, p.1 = name ∧ ∃ f ∈ p.2, (∀ p' ∈ s.db, p'.1 ≠ name → f ∉ p'.2) ∧ s.fs.place (root ++ comps f) = some k ∧ (v ≠ .dir → endsSlash f = false)) := by
  unfold linkRm
  dsimp only
  obtain ⟨h1, h2⟩ := removed_all root s.fs (List.reverse (((s.db.filter (fun p => p.1 = name)).flatMap (·.2)).filter
    (fun f => !(s.db.filter (fun p => p.1 ≠ name)).any (fun p => p.2.contains f)))) s.fs (Keeps.refl _)
  refine ⟨h1 k, fun v hv => ?_⟩
  rcases h2 k v hv with h | ⟨f, hf, h⟩
  · exact Or.inl h
  · right
    rw [List.mem_reverse, List.mem_filter, List.mem_flatMap] at hf
    obtain ⟨⟨p, hp, hfp⟩, hno⟩ := hf
    rw [List.mem_filter] at hp
    refine ⟨p, hp.1, by simpa using hp.2, f, hfp, ?_, h⟩
    intro p' hp' hne hm
    have : ((s.db.filter (fun p => p.1 ≠ name)).any (fun p => p.2.contains f)) = true :=
      List.any_eq_true.mpr ⟨p', List.mem_filter.mpr ⟨hp', by simpa using hne⟩, by simpa using hm⟩
    rw [this] at hno
    cases hno

/-- **C207, the others.** When no place has two owners, every file and link of another package stays where it is, as it is. -/
theorem C207_others_stay (root : List Str) (name : Str) (s : LSys) (hno : NoShare root s) (p : Str × List Str) (hp : p ∈ s.db) (hne : p.1 ≠ name) (f : Str) (hf : f ∈ p.2) (q : List Str) (hl : Lies root s.fs f q)
    (hd : s.fs.get q ≠ some .dir) : (linkRm root name s).fs.get q = s.fs.get q ∧ p ∈ (linkRm root name s).db := by
  constructor
  · cases hg : s.fs.get q with
    | none => exact absurd hg hl.2.2
    | some v =>
      rcases (C207_only_own root name s q).2 v hg with h | ⟨p', hp', hn', f', hf', _, hpl, hs⟩
      · exact h
      · refine absurd ⟨hs (fun e => hd (by rw [hg, e])), hpl, hl.2.2⟩ (hno p hp p' hp' (by rw [hn']; exact hne) f hf f' hf' q hl)
  · unfold linkRm
    exact List.mem_filter.mpr ⟨hp, by simpa using hne⟩

/-- Removing leaves no place with two owners either. -/
theorem C206_remove (root : List Str) (name : Str) (s : LSys) (hno : NoShare root s) : NoShare root (linkRm root name s) := by
  have hk : Keeps (linkRm root name s).fs s.fs := fun k => (C207_only_own root name s k).1
  have hlies : ∀ f q, Lies root (linkRm root name s).fs f q → Lies root s.fs f q := by
    intro f q hl
    refine ⟨hl.1, walk_mono hk _ _ _ _ hl.2.1, ?_⟩
    cases hg : (linkRm root name s).fs.get q with
    | none => exact absurd hg hl.2.2
    | some v => rw [hk _ _ hg]; simp
  have hmem : ∀ p ∈ (linkRm root name s).db, p ∈ s.db := fun p hp => by
    unfold linkRm at hp
    exact (List.mem_filter.mp hp).1
  intro p hp p' hp' hne f hf f' hf' q hl hl'
  exact hno p (hmem p hp) p' (hmem p' hp') hne f hf f' hf' q (hlies f q hl) (hlies f' q hl')

theorem find_mem {fs : LFs} {k : List Str} {v : LNode} (h : fs.find k = some v) : (k, v) ∈ fs := by
  induction fs with
  | nil => cases h
  | cons e fs ih =>
    obtain ⟨j, w⟩ := e
    unfold LFs.find at h
    split at h
    · rename_i he
      injection h with h
      subst he h
      simp
    · exact List.mem_cons_of_mem _ (ih h)

theorem hasChild_false {fs : LFs} {k : List Str} (h : fs.hasChild k = false) (c : Str) : fs.get (k ++ [c]) = none := by
  cases hg : fs.get (k ++ [c]) with
  | none => rfl
  | some v =>
    unfold LFs.get at hg
    rw [if_neg (by simp)] at hg
    have hm := find_mem hg
    have : fs.hasChild k = true := by
      unfold LFs.hasChild
      refine List.any_eq_true.mpr ⟨_, hm, ?_⟩
      simp
    rw [this] at h
    cases h

theorem remove_tree {root : List Str} {fs : LFs} {f : Str} (ht : LTree fs) : LTree (if fs.exist root f then fs.remove root f else fs) := by
  split
  · rcases remove_cases fs root f with h | ⟨q, hq, hne, h, hc⟩
    · rw [h]; exact ht
    · rw [h]
      intro k c hk
      rw [lget_del _ _ _ hne] at hk ⊢
      split at hk
      · exact absurd rfl hk
      · have hp := ht k c hk
        split
        · rename_i he
          subst he
          rcases hc with ⟨_, h⟩ | ⟨v, h, h2, _⟩
          · exact absurd (hasChild_false h c) hk
          · rw [hp] at h
            injection h with h
            exact absurd h.symm h2
        · exact hp
  · exact ht

theorem linkRm_tree {root : List Str} {name : Str} {s : LSys} (ht : LTree s.fs) : LTree (linkRm root name s).fs := by
  unfold linkRm
  dsimp only
  generalize (List.reverse _) = l
  generalize s.fs = fs at ht
  induction l generalizing fs with
  | nil => exact ht
  | cons f l ih => exact ih _ (remove_tree ht)

/-! ## C209: upgrades -/

/-- A removed name leads nowhere, or to a directory. -/
theorem removed_gone (root : List Str) (l : List Str) (fs : LFs) (f : Str) (hf : f ∈ l) (hs : endsSlash f = false) :
    ∀ v, ((l.foldl (fun fs f => if fs.exist root f then fs.remove root f else fs) fs).place (root ++ comps f)).bind
      (l.foldl (fun fs f => if fs.exist root f then fs.remove root f else fs) fs).get = some v → v = .dir := by
  induction l generalizing fs with
  | nil => cases hf
  | cons g l ih =>
    rw [List.foldl_cons]
    by_cases hfl : f ∈ l
    · exact ih _ hfl
    · have hg : f = g := by simpa [hfl] using hf
      subst hg
      intro v hv
      obtain ⟨q, hq, hgq⟩ := Option.bind_eq_some_iff.mp hv
      have hk := (removed_all root (if fs.exist root f then fs.remove root f else fs) l _ (Keeps.refl _)).1
      have hq1 := walk_mono hk _ _ _ _ hq
      have hg1 := hk _ _ hgq
      have hk0 := (removed_one root fs f).1
      have hq0 : fs.place (root ++ comps f) = some q := walk_mono hk0 _ _ _ _ hq1
      have hg0 := hk0 _ _ hg1
      have hex : fs.exist root f = true := by
        unfold LFs.exist
        rw [if_neg (by simp [hs]), hq0, Option.bind_some, hg0]
        rfl
      rw [if_pos hex] at hg1
      unfold LFs.remove at hg1
      rw [hq0] at hg1
      dsimp only at hg1
      rw [hg0] at hg1
      have hdel : v ≠ .dir → (fs.del q).get q = some v → v = .dir := by
        intro hv h
        have hne : q ≠ [] := by
          rintro rfl
          have : fs.get [] = some .dir := by simp [LFs.get]
          rw [this] at hg0
          injection hg0 with hg0
          exact hv hg0.symm
        rw [lget_del _ _ _ hne, if_pos rfl] at h
        cases h
      cases v with
      | dir => rfl
      | file c =>
        dsimp only at hg1
        rw [if_neg (by simp [hs])] at hg1
        exact hdel (by simp) hg1
      | link t =>
        dsimp only at hg1
        rw [if_neg (by simp [hs])] at hg1
        exact hdel (by simp) hg1

/-- An own name that no other package has leads nowhere after the removal, or to a directory. -/
theorem linkRm_gone (root : List Str) (name : Str) (s : LSys) (f : Str) (hown : f ∈ (s.db.filter (fun p => p.1 = name)).flatMap (·.2)) (hun : ¬ (s.db.filter (fun p => p.1 ≠ name)).any (fun p => p.2.contains f) = true)
    (hs : endsSlash f = false) (v : LNode) (h : ((linkRm root name s).fs.place (root ++ comps f)).bind (linkRm root name s).fs.get = some v) : v = .dir := by
  unfold linkRm at h
  refine removed_gone root _ s.fs f ?_ hs v h
  refine List.mem_reverse.mpr (List.mem_filter.mpr ⟨hown, ?_⟩)
  rw [Bool.not_eq_true'] at *
  exact Bool.not_eq_true _ ▸ hun

/-- No recorded file or link is a directory on the disk. -/
def NoDirs (root : List Str) (s : LSys) : Prop := ∀ p ∈ s.db, ∀ f ∈ p.2, endsSlash f = false → (s.fs.place (root ++ comps f)).bind s.fs.get ≠ some .dir

/-- **C209, an upgrade is a removal and an installation**: when all recorded files are there and no place has two owners, an upgrade that is accepted gives what removing the package and installing the new version gives, and
that installation is accepted too. -/
theorem C209_as_remove_and_add (root : List Str) (name : Str) (entries : List (Str × LNode)) (s s' : LSys) (hall : AllFilesThere root s) (hno : NoShare root s) (hnd : NoDirs root s)
    (h : linkUpgrade root name entries s = some s') : linkAdd root name entries (linkRm root name s) = some s' := by
  unfold linkUpgrade at h
  split at h
  · cases h
  · dsimp only at h
    split at h
    · cases h
    · rename_i _ hc
      injection h with h
      subst h
      have hc := not_not.mp hc
      rw [List.filter_eq_nil_iff] at hc
      have hdb : (linkRm root name s).db = s.db.filter (fun p => p.1 ≠ name) := rfl
      have hk : Keeps (linkRm root name s).fs s.fs := fun k => (C207_only_own root name s k).1
      unfold linkAdd
      rw [if_neg, if_neg]
      · rw [hdb]
      · rw [not_not]
        unfold linkConflicts
        rw [List.filter_eq_nil_iff]
        intro f hf hbad
        simp only [Bool.and_eq_true, Bool.or_eq_true, Bool.not_eq_true'] at hbad
        obtain ⟨hbad, hs⟩ := hbad
        -- what is there after the removal was there before
        have hexist : (linkRm root name s).fs.exist root f = true → ∃ q v, (linkRm root name s).fs.place (root ++ comps f) = some q ∧ (linkRm root name s).fs.get q = some v := by
          intro he
          unfold LFs.exist at he
          rw [if_neg (by simp [hs])] at he
          obtain ⟨v, hv⟩ := Option.isSome_iff_exists.mp he
          obtain ⟨q, hq, hg⟩ := Option.bind_eq_some_iff.mp hv
          exact ⟨q, v, hq, hg⟩
        by_cases hown : f ∈ (s.db.filter (fun p => p.1 = name)).flatMap (·.2)
        · obtain ⟨p, hp, hfp⟩ := List.mem_flatMap.mp hown
          rw [List.mem_filter] at hp
          have hpn : p.1 = name := by simpa using hp.2
          have hnot : ¬ (s.db.filter (fun p => p.1 ≠ name)).any (fun p => p.2.contains f) = true := by
            intro hany
            obtain ⟨p', hp', hf'⟩ := List.any_eq_true.mp hany
            rw [List.mem_filter] at hp'
            have hne' : p'.1 ≠ name := by simpa using hp'.2
            obtain ⟨q, hq⟩ := hall p hp.1 f hfp hs
            exact hno p hp.1 p' hp'.1 (by rw [hpn]; exact Ne.symm hne') f hfp f (by simpa using hf') q hq hq
          rcases hbad with hbad | hbad
          · exact hnot hbad
          · obtain ⟨q, v, hq, hg⟩ := hexist hbad
            have hgone := linkRm_gone root name s f hown hnot hs v (Option.bind_eq_some_iff.mpr ⟨q, hq, hg⟩)
            subst hgone
            refine hnd p hp.1 f hfp hs ?_
            exact Option.bind_eq_some_iff.mpr ⟨q, walk_mono hk _ _ _ _ hq, hk _ _ hg⟩
        · have := hc f hf
          simp only [Bool.and_eq_true, Bool.or_eq_true, Bool.not_eq_true', not_and] at this
          have hcon : (((s.db.filter (fun p => p.1 = name)).flatMap (·.2)).contains f) = false := by
            cases hcc : ((s.db.filter (fun p => p.1 = name)).flatMap (·.2)).contains f with
            | false => rfl
            | true => exact absurd (List.contains_iff_mem.mp hcc) hown
          rcases hbad with hbad | hbad
          · exact this ⟨Or.inl hbad, hs⟩ hcon
          · obtain ⟨q, v, hq, hg⟩ := hexist hbad
            refine this ⟨Or.inr ?_, hs⟩ hcon
            unfold LFs.exist
            rw [if_neg (by simp [hs])]
            have hq' : s.fs.place (root ++ comps f) = some q := walk_mono hk _ _ _ _ hq
            rw [hq', Option.bind_some, hk _ _ hg]
            rfl
      · rw [hdb]
        intro hc'
        have := List.contains_iff_mem.mp hc'
        obtain ⟨p, hp, hpn⟩ := List.mem_map.mp this
        rw [List.mem_filter] at hp
        have h1 : p.1 ≠ name := by simpa using hp.2
        exact h1 hpn

/-- **C209, the others**: an upgrade leaves every file and link of another package at its place, as it is. -/
theorem C209_others_stay (root : List Str) (name : Str) (entries : List (Str × LNode)) (s s' : LSys) (ht : LTree s.fs) (hall : AllFilesThere root s) (hno : NoShare root s) (hnd : NoDirs root s)
    (hgood : GoodEntries root (linkRm root name s).fs entries) (h : linkUpgrade root name entries s = some s')
    (p : Str × List Str) (hp : p ∈ s.db) (hne : p.1 ≠ name) (f : Str) (hf : f ∈ p.2) (q : List Str) (hl : Lies root s.fs f q) (hd : s.fs.get q ≠ some .dir) : s'.fs.get q = s.fs.get q ∧ p ∈ s'.db := by
  have ha := C209_as_remove_and_add root name entries s s' hall hno hnd h
  obtain ⟨h1, h2⟩ := C207_others_stay root name s hno p hp hne f hf q hl hd
  obtain ⟨hdb, _, _, _⟩ := linkAdd_some ha hgood.slash
  constructor
  · cases hg : s.fs.get q with
    | none => exact absurd hg hl.2.2
    | some v =>
      rw [hg] at h1
      exact (C205_nothing_overwritten root name entries _ s' (linkRm_tree ht) hgood ha q).1 v h1
  · rw [hdb]
    exact List.mem_cons_of_mem _ h2

/-- **C209, the new version**: every file and link of it is there, at its place and under its name. -/
theorem C209_landed (root : List Str) (name : Str) (entries : List (Str × LNode)) (s s' : LSys) (ht : LTree s.fs) (hall : AllFilesThere root s) (hno : NoShare root s) (hnd : NoDirs root s)
    (hgood : GoodEntries root (linkRm root name s).fs entries) (hap : Apart root (linkRm root name s).fs entries) (h : linkUpgrade root name entries s = some s') (e : Str × LNode) (he : e ∈ entries) (hn : e.2 ≠ .dir) :
    ∃ d, s'.fs.place (root ++ comps e.1) = some d ∧ s'.fs.get d = some e.2 := by
  have ha := C209_as_remove_and_add root name entries s s' hall hno hnd h
  obtain ⟨d, _, h1, h2⟩ := C205_landed root name entries _ s' (linkRm_tree ht) hgood hap ha e he hn
  exact ⟨d, h1, h2⟩

/-- **C209, nothing else**: what is there after an upgrade was left by the removal of the old version (C207), or is an entry of the new version at its place, or a directory above one. -/
theorem C209_nothing_else (root : List Str) (name : Str) (entries : List (Str × LNode)) (s s' : LSys) (ht : LTree s.fs) (hall : AllFilesThere root s) (hno : NoShare root s) (hnd : NoDirs root s)
    (hgood : GoodEntries root (linkRm root name s).fs entries) (h : linkUpgrade root name entries s = some s') (k : List Str) (v : LNode) (hk : s'.fs.get k = some v) :
    (linkRm root name s).fs.get k = some v ∨ ∃ e ∈ entries, ∃ d, Dest (linkRm root name s).fs (root ++ comps e.1) d ∧ ((k = d ∧ v = e.2) ∨ (k <+: d ∧ k ≠ d ∧ v = .dir)) :=
  (C205_nothing_overwritten root name entries _ s' (linkRm_tree ht) hgood (C209_as_remove_and_add root name entries s s' hall hno hnd h) k).2 v hk

/-- **C207, C209, the old names**: when all recorded files are there and no place has two owners, no file or link of a package is there under its name once the package is removed, so that after an upgrade only the new version
can have put something there. -/
theorem C207_names_gone (root : List Str) (name : Str) (s : LSys) (hall : AllFilesThere root s) (hno : NoShare root s) (hnd : NoDirs root s) (p : Str × List Str) (hp : p ∈ s.db) (hpn : p.1 = name) (f : Str) (hf : f ∈ p.2)
    (hs : endsSlash f = false) : (linkRm root name s).fs.exist root f = false := by
  cases hx : (linkRm root name s).fs.exist root f with
  | false => rfl
  | true =>
    unfold LFs.exist at hx
    rw [if_neg (by simp [hs])] at hx
    obtain ⟨v, hv⟩ := Option.isSome_iff_exists.mp hx
    have hk : Keeps (linkRm root name s).fs s.fs := fun k => (C207_only_own root name s k).1
    have hnot : ¬ (s.db.filter (fun p => p.1 ≠ name)).any (fun p => p.2.contains f) = true := by
      intro hany
      obtain ⟨p', hp', hf'⟩ := List.any_eq_true.mp hany
      rw [List.mem_filter] at hp'
      have hne' : p'.1 ≠ name := by simpa using hp'.2
      obtain ⟨q, hq⟩ := hall p hp f hf hs
      exact hno p hp p' hp'.1 (by rw [hpn]; exact Ne.symm hne') f hf f (by simpa using hf') q hq hq
    have hgone := linkRm_gone root name s f (List.mem_flatMap.mpr ⟨p, List.mem_filter.mpr ⟨hp, by simpa using hpn⟩, hf⟩) hnot hs v hv
    subst hgone
    obtain ⟨q, hq, hg⟩ := Option.bind_eq_some_iff.mp hv
    exact absurd (Option.bind_eq_some_iff.mpr ⟨q, walk_mono hk _ _ _ _ hq, hk _ _ hg⟩) (hnd p hp f hf hs)

/-- **C206, upgrades**: when all recorded files are there, before and while the old version is away, an upgrade leaves no place with two owners. -/
theorem C206_upgrade (root : List Str) (name : Str) (entries : List (Str × LNode)) (s s' : LSys) (ht : LTree s.fs) (hall : AllFilesThere root s) (hno : NoShare root s) (hnd : NoDirs root s)
    (hall' : AllFilesThere root (linkRm root name s)) (hgood : GoodEntries root (linkRm root name s).fs entries) (h : linkUpgrade root name entries s = some s') : NoShare root s' :=
  C206_add root name entries _ s' (linkRm_tree ht) hgood hall' (C206_remove root name s hno) (C209_as_remove_and_add root name entries s s' hall hno hnd h)

/-- The systems pkgadd and pkgrm lead to from an empty database: each installation with all recorded files there and entries that are good on the tree as it is; each upgrade so too, with the old version away. -/
inductive LReach (root : List Str) : LSys → Prop
  | start (fs : LFs) : LTree fs → LReach root ⟨[], fs⟩
  | add (s s' : LSys) (name : Str) (entries : List (Str × LNode)) : LReach root s → AllFilesThere root s → GoodEntries root s.fs entries → Apart root s.fs entries → linkAdd root name entries s = some s' → LReach root s'
  | rm (s : LSys) (name : Str) : LReach root s → LReach root (linkRm root name s)
  | upg (s s' : LSys) (name : Str) (entries : List (Str × LNode)) : LReach root s → AllFilesThere root s → NoDirs root s → AllFilesThere root (linkRm root name s) →
      GoodEntries root (linkRm root name s).fs entries → Apart root (linkRm root name s).fs entries → linkUpgrade root name entries s = some s' → LReach root s'

/-- **C206, every history.** In every system reached so no place belongs to two packages, whatever links lead where. -/
theorem C206_history (root : List Str) (s : LSys) (h : LReach root s) : NoShare root s ∧ LTree s.fs := by
  induction h with
  | start fs ht => exact ⟨fun p hp => absurd hp (by simp), ht⟩
  | add s s' name entries _ hall hgood hap ha ih =>
    refine ⟨C206_add root name entries s s' ih.2 hgood hall ih.1 ha, ?_⟩
    obtain ⟨_, hfs, _, hfree⟩ := linkAdd_some ha hgood.slash
    rw [hfs]
    exact tree_all ih.2 hgood hap (fun e he hn => (hfree e he hn).1) [] entries rfl s.fs ⟨Keeps.refl _, fun k v h => Or.inl h⟩ ih.2
  | rm s name _ ih => exact ⟨C206_remove root name s ih.1, linkRm_tree ih.2⟩
  | upg s s' name entries _ hall hnd hall' hgood hap hu ih =>
    refine ⟨C206_upgrade root name entries s s' ih.2 hall ih.1 hnd hall' hgood hu, ?_⟩
    have ha := C209_as_remove_and_add root name entries s s' hall ih.1 hnd hu
    obtain ⟨_, hfs, _, hfree⟩ := linkAdd_some ha hgood.slash
    rw [hfs]
    exact tree_all (linkRm_tree ih.2) hgood hap (fun e he hn => (hfree e he hn).1) [] entries rfl _ ⟨Keeps.refl _, fun k v h => Or.inl h⟩ (linkRm_tree ih.2)

/-! ## C208 -/

/-- A link that stays below the directory it lies in: its target is relative and has no `..`. -/
def Staying (t : Str) : Prop := t.head? ≠ some '/' ∧ dotdotName ∉ comps t

/-- All links at or below `root` stay. -/
def LinksStay (root : List Str) (fs : LFs) : Prop := ∀ k t, root <+: k → fs.get k = some (.link t) → Staying t

/-- `root` is a directory, and so is all above it; its path has no `.` and no `..`. -/
def RootDir (root : List Str) (fs : LFs) : Prop := PlainPath root ∧ ∀ k, k <+: root → fs.get k = some .dir

/-- A place strictly below `root`. -/
def UnderRoot (root k : List Str) : Prop := root <+: k ∧ k ≠ root

theorem below_snoc {root cur : List Str} (c : Str) (h : root <+: cur) : UnderRoot root (cur ++ [c]) := by
  obtain ⟨t, rfl⟩ := h
  refine ⟨⟨t ++ [c], by simp⟩, fun e => ?_⟩
  have := congrArg List.length e
  simp at this

theorem hop_below {root : List Str} {fs : LFs} (hst : LinksStay root fs) (cs : List Str) (cur : List Str) (hc : root <+: cur) (hd : dotdotName ∉ cs) (x : Str) (hl : cs.getLast? = some x) (hx : x ≠ dotName) :
    (∀ q, hop fs cur cs = .at q → UnderRoot root q) ∧
    (∀ cur' t r, hop fs cur cs = .jump cur' t r → root <+: cur' ∧ Staying t ∧ dotdotName ∉ r ∧ r.getLast? = some x) := by
  induction cs generalizing cur with
  | nil => cases hl
  | cons c rest ih =>
    have h2 : c ≠ dotdotName := fun e => hd (by simp [e])
    have hd' : dotdotName ∉ rest := fun h => hd (by simp [h])
    unfold hop
    by_cases h1 : c = dotName
    · rw [if_pos h1]
      have hr : rest ≠ [] := by
        rintro rfl
        simp at hl
        exact hx (hl ▸ h1)
      refine ih cur hc hd' ?_
      rw [List.getLast?_cons_of_ne_nil hr] at hl
      exact hl
    · rw [if_neg h1, if_neg h2]
      by_cases hr : rest = []
      · rw [if_pos hr]
        exact ⟨fun q h => by injection h with h; rw [← h]; exact below_snoc c hc, fun _ _ _ h => by cases h⟩
      · rw [if_neg hr]
        have hl' : rest.getLast? = some x := by rw [List.getLast?_cons_of_ne_nil hr] at hl; exact hl
        cases hg : fs.get (cur ++ [c]) with
        | none => exact ⟨fun _ h => (by cases h), fun _ _ _ h => (by cases h)⟩
        | some v =>
          cases v with
          | file _ => exact ⟨fun _ h => (by cases h), fun _ _ _ h => (by cases h)⟩
          | dir => exact ih _ (below_snoc c hc).1 hd' hl'
          | link t =>
            refine ⟨fun _ h => (by cases h), fun cur' t' r h => ?_⟩
            injection h with e1 e2 e3
            subst e1 e2 e3
            exact ⟨hc, hst _ _ (below_snoc c hc).1 hg, hd', hl'⟩

theorem walk_below {root : List Str} {fs : LFs} (hst : LinksStay root fs) (n : Nat) (cur cs q : List Str) (hc : root <+: cur) (hd : dotdotName ∉ cs) (x : Str) (hl : cs.getLast? = some x) (hx : x ≠ dotName)
    (h : fs.walk n cur cs = some q) : UnderRoot root q := by
  induction n generalizing cur cs with
  | zero =>
    unfold LFs.walk at h
    obtain ⟨h1, _⟩ := hop_below hst cs cur hc hd x hl hx
    revert h
    cases hh : hop fs cur cs with
    | «at» q' => intro h; injection h with h; subst h; exact h1 _ hh
    | jump _ _ _ => intro h; cases h
    | lost => intro h; cases h
  | succ n ih =>
    unfold LFs.walk at h
    obtain ⟨h1, h2⟩ := hop_below hst cs cur hc hd x hl hx
    revert h
    cases hh : hop fs cur cs with
    | «at» q' => intro h; injection h with h; subst h; exact h1 _ hh
    | lost => intro h; cases h
    | jump cur' t r =>
      intro h
      obtain ⟨hc', ⟨hs1, hs2⟩, hr, hlr⟩ := h2 _ _ _ hh
      dsimp only at h
      rw [if_neg hs1] at h
      refine ih _ _ hc' ?_ ?_ h
      · intro hm
        rcases List.mem_append.mp hm with h | h
        · exact hs2 h
        · exact hr h
      · rw [List.getLast?_append, hlr]; rfl

theorem rootDir_dirPlace {root : List Str} {fs : LFs} (h : RootDir root fs) (x : List Str) (hx : x <+: root) : fs.dirPlace x = some x := by
  unfold LFs.dirPlace
  apply walk_at
  have hgen : ∀ (b q : List Str), PlainPath b → (∀ k, k <+: b → fs.get (q ++ k) = some .dir) → hop fs q (b ++ [dotName]) = .at (q ++ b) := by
    intro b
    induction b with
    | nil => intro q _ _; rw [List.nil_append, hop_dot, List.append_nil]
    | cons c b ih =>
      intro q hp hk
      rw [List.cons_append, hop_plain_cons fs q _ c (hp c (by simp)) (by simp), hk [c] ⟨b, rfl⟩]
      dsimp only
      rw [ih (q ++ [c]) (fun y hy => hp y (by simp [hy])) ?_, List.append_assoc]
      · rfl
      · rintro k ⟨t, rfl⟩
        have := hk (c :: k) ⟨t, rfl⟩
        rw [List.append_assoc]
        exact this
  obtain ⟨t, rfl⟩ := hx
  have := hgen x [] (fun c hc => h.1 c (by simp [hc])) (fun k hk => h.2 k (by obtain ⟨r, rfl⟩ := hk; exact ⟨r ++ t, by simp⟩))
  exact this

/-- A path below `root` leads to a place below `root`. -/
theorem place_below {root : List Str} {fs : LFs} (hr : RootDir root fs) (hst : LinksStay root fs) {cs : List Str} (hp : PlainPath cs) (hne : cs ≠ []) {q : List Str} (h : fs.place (root ++ cs) = some q) : UnderRoot root q := by
  obtain ⟨m, hm⟩ := walk_factor (rootDir_dirPlace hr root ⟨[], by simp⟩)
  unfold LFs.place at h
  rw [hm cs hne] at h
  have hlast : cs.getLast? = some (cs.getLast hne) := List.getLast?_eq_some_getLast hne
  exact walk_below hst m root cs q ⟨[], by simp⟩ (fun hmem => (hp _ hmem).2 rfl) _ hlast (fun e => (hp _ (List.getLast_mem hne)).1 e) h

/-- Nothing outside has changed, and the root and its links are as they should. -/
def Inside (root : List Str) (fs0 fs : LFs) : Prop := (∀ k, ¬ UnderRoot root k → fs.get k = fs0.get k) ∧ RootDir root fs ∧ LinksStay root fs

theorem inside_set {root : List Str} {fs0 fs : LFs} (h : Inside root fs0 fs) {q : List Str} (hq : UnderRoot root q) {n : LNode} (hn : ∀ t, n = .link t → Staying t) : Inside root fs0 (fs.set q n) := by
  have hne : q ≠ [] := by
    rintro rfl
    obtain ⟨⟨t, ht⟩, h2⟩ := hq
    exact h2 (by simp at ht; exact ht.1.symm)
  refine ⟨fun k hk => ?_, ⟨h.2.1.1, fun k hk => ?_⟩, fun k t hk hg => ?_⟩
  · rw [lget_set _ _ _ _ hne, if_neg (by rintro rfl; exact hk hq)]
    exact h.1 k hk
  · rw [lget_set _ _ _ _ hne, if_neg ?_]
    · exact h.2.1.2 k hk
    · rintro rfl
      exact hq.2 (List.IsPrefix.eq_of_length_le hq.1 hk.length_le).symm
  · rw [lget_set _ _ _ _ hne] at hg
    split at hg
    · injection hg with hg
      exact hn t hg
    · exact h.2.2 k t hk hg

theorem inside_del {root : List Str} {fs0 fs : LFs} (h : Inside root fs0 fs) {q : List Str} (hq : UnderRoot root q) : Inside root fs0 (fs.del q) := by
  have hne : q ≠ [] := by
    rintro rfl
    obtain ⟨⟨t, ht⟩, h2⟩ := hq
    exact h2 (by simp at ht; exact ht.1.symm)
  refine ⟨fun k hk => ?_, ⟨h.2.1.1, fun k hk => ?_⟩, fun k t hk hg => ?_⟩
  · rw [lget_del _ _ _ hne, if_neg (by rintro rfl; exact hk hq)]
    exact h.1 k hk
  · rw [lget_del _ _ _ hne, if_neg ?_]
    · exact h.2.1.2 k hk
    · rintro rfl
      exact hq.2 (List.IsPrefix.eq_of_length_le hq.1 hk.length_le).symm
  · rw [lget_del _ _ _ hne] at hg
    split at hg
    · cases hg
    · exact h.2.2 k t hk hg

theorem inside_mkParent {root : List Str} {fs0 fs : LFs} (h : Inside root fs0 fs) {cs : List Str} (hp : PlainPath cs) {x : List Str} (hx : x <+: root ++ cs) : Inside root fs0 (fs.mkParent x) := by
  unfold LFs.mkParent
  cases hdp : fs.dirPlace x with
  | some q => exact h
  | none =>
    dsimp only
    have hbig : ∃ y, y ≠ [] ∧ PlainPath y ∧ x = root ++ y := by
      rcases List.prefix_or_prefix_of_prefix hx ⟨cs, rfl⟩ with hpre | ⟨y, rfl⟩
      · rw [rootDir_dirPlace h.2.1 x hpre] at hdp
        cases hdp
      · refine ⟨y, ?_, ?_, rfl⟩
        · rintro rfl
          rw [List.append_nil, rootDir_dirPlace h.2.1 root ⟨[], by simp⟩] at hdp
          cases hdp
        · obtain ⟨t, ht⟩ := hx
          rw [List.append_assoc] at ht
          have := List.append_cancel_left ht
          intro c hc
          exact hp c (by rw [← this]; simp [hc])
    obtain ⟨y, hy, hpy, rfl⟩ := hbig
    cases hpl : fs.place (root ++ y) with
    | none => exact h
    | some q =>
      have hq := place_below h.2.1 h.2.2 hpy hy hpl
      have hset : Inside root fs0 (fs.set q .dir) := inside_set h hq (fun t e => by cases e)
      dsimp only
      cases fs.get q with
      | none => exact hset
      | some v =>
        cases v with
        | file _ => exact hset
        | dir => exact hset
        | link t =>
          dsimp only
          split
          · exact hset
          · exact h

theorem inside_extract {root : List Str} {fs0 fs : LFs} (h : Inside root fs0 fs) {e : Str × LNode} (hp : PlainPath (comps e.1)) (hne : comps e.1 ≠ []) (hl : ∀ t, e.2 = .link t → Staying t) :
    Inside root fs0 (LFs.extract root fs e) := by
  have hfold : ∀ (l : List (List Str)) (fs : LFs), Inside root fs0 fs → (∀ x ∈ l, x <+: root ++ comps e.1) → Inside root fs0 (l.foldl LFs.mkParent fs) := by
    intro l
    induction l with
    | nil => intro fs h _; exact h
    | cons x l ih => intro fs h hx; exact ih _ (inside_mkParent h hp (hx x (by simp))) (fun y hy => hx y (by simp [hy]))
  have h1 := hfold (parents (root ++ comps e.1)) fs h (fun x hx => (mem_parents.mp hx).2.1)
  unfold LFs.extract
  dsimp only
  generalize (parents (root ++ comps e.1)).foldl LFs.mkParent fs = fs1 at h1
  have hother : ∀ n, (∀ t, n = .link t → Staying t) → Inside root fs0 (match fs1.place (root ++ comps e.1) with
        | none => fs1
        | some q => match fs1.get q with
          | some .dir => if q = [] || fs1.hasChild q then fs1 else fs1.set q n
          | _ => fs1.set q n : LFs) := by
    intro n hn
    cases hpl : fs1.place (root ++ comps e.1) with
    | none => exact h1
    | some q =>
      have hset := inside_set h1 (place_below h1.2.1 h1.2.2 hp hne hpl) hn
      dsimp only
      cases fs1.get q with
      | none => exact hset
      | some v =>
        cases v with
        | file _ => exact hset
        | link _ => exact hset
        | dir =>
          dsimp only
          split
          · exact h1
          · exact hset
  cases hn : e.2 with
  | file c => exact hother _ (fun t e => by cases e)
  | link t => exact hother _ (fun t' e => hl t' (by rw [hn, e]))
  | dir =>
    dsimp only
    cases hdp : fs1.dirPlace (root ++ comps e.1) with
    | some q' => exact h1
    | none =>
      dsimp only
      cases hpl : fs1.place (root ++ comps e.1) with
      | none => exact h1
      | some q => exact inside_set h1 (place_below h1.2.1 h1.2.2 hp hne hpl) (fun t e => by cases e)

/-- **C208 (partial).** When `root` is a directory without links in its path, the links below it are relative and without `..`, and so are the names and links of the archive, nothing outside `root` is changed by an
installation: neither the archive's directories, files and links nor their parents, through whatever links they lead. -/
theorem C208_add_inside_partial (root : List Str) (name : Str) (entries : List (Str × LNode)) (s s' : LSys) (hr : RootDir root s.fs) (hst : LinksStay root s.fs)
    (he : ∀ e ∈ entries, PlainPath (comps e.1) ∧ comps e.1 ≠ [] ∧ ∀ t, e.2 = .link t → Staying t) (h : linkAdd root name entries s = some s') (k : List Str) (hk : ¬ UnderRoot root k) : s'.fs.get k = s.fs.get k := by
  have hfs : s'.fs = entries.foldl (LFs.extract root) s.fs := by
    unfold linkAdd at h
    split at h
    · cases h
    · split at h
      · cases h
      · injection h with h
        rw [← h]
  have hgen : ∀ (l : List (Str × LNode)) (fs : LFs), (∀ e ∈ l, e ∈ entries) → Inside root s.fs fs → Inside root s.fs (l.foldl (LFs.extract root) fs) := by
    intro l
    induction l with
    | nil => intro fs _ h; exact h
    | cons e l ih =>
      intro fs hl h
      obtain ⟨h1, h2, h3⟩ := he e (hl e (by simp))
      exact ih _ (fun x hx => hl x (by simp [hx])) (inside_extract h h1 h2 h3)
  rw [hfs]
  exact (hgen entries s.fs (fun e he => he) ⟨fun k _ => rfl, hr, hst⟩).1 k hk

/-- **C208 (partial), removing.** -/
theorem C208_rm_inside_partial (root : List Str) (name : Str) (s : LSys) (hr : RootDir root s.fs) (hst : LinksStay root s.fs)
    (hf : ∀ p ∈ s.db, p.1 = name → ∀ f ∈ p.2, PlainPath (comps f) ∧ comps f ≠ []) (k : List Str) (hk : ¬ UnderRoot root k) : (linkRm root name s).fs.get k = s.fs.get k := by
  cases hg : s.fs.get k with
  | none =>
    cases hg' : (linkRm root name s).fs.get k with
    | none => rfl
    | some v =>
      rw [(C207_only_own root name s k).1 v hg'] at hg
      cases hg
  | some v =>
    rcases (C207_only_own root name s k).2 v hg with h | ⟨p, hp, hn, f, hfp, _, hpl, _⟩
    · exact h
    · obtain ⟨h1, h2⟩ := hf p hp hn f hfp
      exact absurd (place_below hr hst h1 h2 hpl) hk

/-! ## Concrete cases -/

theorem ltree_of {fs : LFs} (h : ∀ e ∈ fs, fs.get e.1.dropLast = some .dir) : LTree fs := by
  intro k c hk
  cases hg : fs.get (k ++ [c]) with
  | none => exact absurd hg hk
  | some v =>
    unfold LFs.get at hg
    rw [if_neg (by simp)] at hg
    have := h _ (find_mem hg)
    simpa using this

theorem dest_one {fs : LFs} (a : List Str) (x : Str) (q : List Str) (hx : x ≠ ".".toList ∧ x ≠ "..".toList) (h : fs.dirPlace a = some q) : Dest fs (a ++ [x]) (q ++ [x]) :=
  ⟨a, [x], q, rfl, by simp, fun c hc => by simp at hc; rw [hc]; exact hx, h, rfl, Or.inl rfl⟩

/-- A machine where `/lib` is a link to `usr/lib`. -/
def lkFs : LFs := [(["usr".toList], .dir), (["usr".toList, "lib".toList], .dir), (["lib".toList], .link "usr/lib".toList), (["usr".toList, "lib".toList, "a".toList], .file "1".toList)]

/-- A package that names its files through the link. -/
def lkEntries : List (Str × LNode) := [("lib/".toList, .dir), ("lib/b".toList, .file "2".toList), ("usr/lib/c".toList, .link "b".toList), ("opt/".toList, .dir), ("opt/d".toList, .file "3".toList)]

/-- The database of the machine: one package has `usr/lib/a`. -/
def lkSys : LSys := ⟨[("base".toList, ["usr/lib/a".toList])], lkFs⟩

theorem lkFs_tree : LTree lkFs := ltree_of (by decide +kernel)

theorem lk_dest_b : Dest lkFs ([] ++ comps "lib/b".toList) ["usr".toList, "lib".toList, "b".toList] := dest_one ["lib".toList] "b".toList ["usr".toList, "lib".toList] (by decide) (by decide +kernel)
theorem lk_dest_c : Dest lkFs ([] ++ comps "usr/lib/c".toList) ["usr".toList, "lib".toList, "c".toList] := dest_one ["usr".toList, "lib".toList] "c".toList ["usr".toList, "lib".toList] (by decide) (by decide +kernel)
theorem lk_dest_lib : Dest lkFs ([] ++ comps "lib/".toList) ["lib".toList] := dest_one [] "lib".toList [] (by decide) (by decide +kernel)
theorem lk_dest_opt : Dest lkFs ([] ++ comps "opt/".toList) ["opt".toList] := dest_one [] "opt".toList [] (by decide) (by decide +kernel)
theorem lk_dest_d : Dest lkFs ([] ++ comps "opt/d".toList) ["opt".toList, "d".toList] :=
  ⟨[], ["opt".toList, "d".toList], [], by decide, by decide, by unfold PlainPath; decide, by decide +kernel, rfl, Or.inr ⟨"opt".toList, rfl, by decide +kernel⟩⟩

/-- The place of each entry of the package. -/
def lkDest (f : Str) : List Str :=
  if f = "lib/b".toList then ["usr".toList, "lib".toList, "b".toList] else if f = "usr/lib/c".toList then ["usr".toList, "lib".toList, "c".toList]
  else if f = "lib/".toList then ["lib".toList] else if f = "opt/".toList then ["opt".toList] else ["opt".toList, "d".toList]

theorem lkDest_is : ∀ e ∈ lkEntries, Dest lkFs ([] ++ comps e.1) (lkDest e.1) := by
  intro e he
  simp only [lkEntries, List.mem_cons, List.not_mem_nil, or_false] at he
  rcases he with rfl | rfl | rfl | rfl | rfl
  · exact lk_dest_lib
  · exact lk_dest_b
  · exact lk_dest_c
  · exact lk_dest_opt
  · exact lk_dest_d

theorem lkGood : GoodEntries [] lkFs lkEntries := by
  refine ⟨?_, ?_, by decide +kernel⟩
  · intro e he
    have hd := lkDest_is e he
    by_cases hl : e = ("lib/".toList, .dir)
    · subst hl
      exact Or.inl ⟨rfl, ["usr".toList, "lib".toList], by decide +kernel⟩
    · refine Or.inr ⟨_, hd, ?_⟩
      have : ∀ e ∈ lkEntries, e ≠ ("lib/".toList, LNode.dir) → e.2 = .dir → lkFs.get (lkDest e.1) = none := by decide +kernel
      exact this e he hl
  · intro e he e' he' hn d d' h h'
    rw [dest_unique h (lkDest_is e he), dest_unique h' (lkDest_is e' he')]
    have : ∀ e ∈ lkEntries, ∀ e' ∈ lkEntries, e.2 ≠ .dir → (lkDest e.1) <+: (lkDest e'.1) → lkDest e.1 = lkDest e'.1 := by decide +kernel
    exact this e he e' he' hn

theorem lkApart : Apart [] lkFs lkEntries := by
  have hpw : lkEntries.Pairwise (fun e e' => lkDest e.1 ≠ lkDest e'.1) := by decide +kernel
  refine List.Pairwise.imp_of_mem ?_ hpw
  intro e e' he he' hne d h h'
  exact hne ((dest_unique (lkDest_is e he) h).trans (dest_unique h' (lkDest_is e' he')))

theorem lkThere : AllFilesThere [] lkSys := by
  intro p hp f hf hs
  simp only [lkSys, List.mem_cons, List.not_mem_nil, or_false] at hp
  subst hp
  simp only [List.mem_cons, List.not_mem_nil, or_false] at hf
  subst hf
  exact ⟨["usr".toList, "lib".toList, "a".toList], by decide, by decide +kernel, by decide +kernel⟩

theorem lkNoShare : NoShare [] lkSys := by
  intro p hp p' hp' hne
  simp only [lkSys, List.mem_cons, List.not_mem_nil, or_false] at hp hp'
  rw [hp, hp'] at hne
  exact absurd rfl hne

/-- The machine with the package. -/
def lkAfter : Option LSys := linkAdd [] "p".toList lkEntries lkSys

/-- The hypotheses of C205, C206 are met, and the installation is accepted: the file named `lib/b` is in `/usr/lib`. -/
example : LTree lkSys.fs ∧ GoodEntries [] lkSys.fs lkEntries ∧ Apart [] lkSys.fs lkEntries ∧ AllFilesThere [] lkSys ∧ NoShare [] lkSys ∧
    lkAfter.map (fun s => (s.fs.get ["usr".toList, "lib".toList, "b".toList], s.fs.get ["lib".toList], s.fs.get ["opt".toList, "d".toList])) =
      some (some (.file "2".toList), some (.link "usr/lib".toList), some (.file "3".toList)) :=
  ⟨lkFs_tree, lkGood, lkApart, lkThere, lkNoShare, by decide +kernel⟩

/-- `lib/a` is refused: it would be the `usr/lib/a` of the other package. -/
example : linkAdd [] "p".toList [("lib/a".toList, .file "2".toList)] lkSys = none := by decide +kernel

/-- A history: the empty database, and the package. -/
example : ∃ s, LReach [] s ∧ s.db ≠ [] := by
  have h : ∃ s', linkAdd [] "p".toList lkEntries ⟨[], lkFs⟩ = some s' ∧ s'.db ≠ [] := by
    have : (linkAdd [] "p".toList lkEntries ⟨[], lkFs⟩).any (fun s => s.db ≠ []) = true := by decide +kernel
    cases hh : linkAdd [] "p".toList lkEntries ⟨[], lkFs⟩ with
    | none => rw [hh] at this; cases this
    | some s' => rw [hh] at this; exact ⟨s', rfl, by simpa using this⟩
  obtain ⟨s', h1, h2⟩ := h
  exact ⟨s', LReach.add _ s' _ _ (LReach.start lkFs lkFs_tree) (fun p hp => absurd hp (by simp)) lkGood lkApart h1, h2⟩

/-- An archive with a link and an entry below it: `x -> usr/lib`, `x/a`. -/
def lkTrap : List (Str × LNode) := [("x".toList, .link "usr/lib".toList), ("x/a".toList, .file "9".toList)]

/-- **C205 needs its condition**: `x/a` is no conflict when the archive is looked at, for `x` is not there yet; extracted after the link it takes the place of `usr/lib/a` of another package. -/
theorem C205_link_in_archive : (linkAdd [] "p".toList lkTrap lkSys).map (fun s => s.fs.get ["usr".toList, "lib".toList, "a".toList]) = some (some (.file "9".toList)) ∧
    lkSys.fs.get ["usr".toList, "lib".toList, "a".toList] = some (.file "1".toList) := by decide +kernel

/-- The machine after `usr/lib/a` of the package base has been deleted by hand. -/
def lkGone : LSys := ⟨lkSys.db, lkFs.del ["usr".toList, "lib".toList, "a".toList]⟩

/-- A package with the same file under another name. -/
def lkTwin : List (Str × LNode) := [("lib/a".toList, .file "5".toList)]

/-- **C206 needs its condition**: when a recorded file is missing, a package can bring it under another name; then the place has two owners, and removing the first package deletes the file of the second. -/
theorem C206_missing_file : (linkAdd [] "p".toList lkTwin lkGone).map (fun s => (s.fs.place (comps "lib/a".toList), s.fs.place (comps "usr/lib/a".toList), s.fs.get ["usr".toList, "lib".toList, "a".toList],
      (linkRm [] "base".toList s).fs.get ["usr".toList, "lib".toList, "a".toList])) =
    some (some ["usr".toList, "lib".toList, "a".toList], some ["usr".toList, "lib".toList, "a".toList], some (.file "5".toList), none) := by decide +kernel

/-- A machine where a package owns the link. -/
def lkOwned : LSys := ⟨[("link".toList, ["lib".toList]), ("p".toList, ["lib/a".toList])], lkFs⟩

/-- **C207 fails for names**: when the package that owns a link is removed, the files of other packages that are recorded through it stay on the disk but are no longer there under their names; removing their package then leaves
them behind. -/
theorem C207_link_removed : (lkOwned.fs.exist [] "lib/a".toList) = true ∧ (linkRm [] "link".toList lkOwned).fs.exist [] "lib/a".toList = false ∧
    (linkRm [] "p".toList (linkRm [] "link".toList lkOwned)).fs.get ["usr".toList, "lib".toList, "a".toList] = some (.file "1".toList) ∧
    (linkRm [] "p".toList lkOwned).fs.get ["usr".toList, "lib".toList, "a".toList] = none := by decide +kernel

/-- C207: the package is removed through the link, and the other one stays. -/
example : lkAfter.map (fun s => ((linkRm [] "p".toList s).fs.get ["usr".toList, "lib".toList, "b".toList], (linkRm [] "p".toList s).fs.get ["usr".toList, "lib".toList, "a".toList], (linkRm [] "p".toList s).fs.get ["lib".toList])) =
    some (none, some (.file "1".toList), some (.link "usr/lib".toList)) := by decide +kernel

/-- A machine with a system under `/mnt` whose `var/run` is a link to `/run`. -/
def lkMnt : LSys := ⟨[], [(["run".toList], .dir), (["mnt".toList], .dir), (["mnt".toList, "var".toList], .dir), (["mnt".toList, "var".toList, "run".toList], .link "/run".toList)]⟩

/-- **C208 fails**: with `--root /mnt` the file `var/run/x` of a package is written to `/run/x` of the machine itself, and removing the package there deletes it again. -/
theorem C208_absolute_link : (linkAdd ["mnt".toList] "p".toList [("var/run/x".toList, .file "1".toList)] lkMnt).map (fun s => (s.fs.get ["run".toList, "x".toList], (linkRm ["mnt".toList] "p".toList s).fs.get ["run".toList, "x".toList])) =
    some (some (.file "1".toList), none) ∧ lkMnt.fs.get ["run".toList, "x".toList] = none ∧ ¬ UnderRoot ["mnt".toList] ["run".toList, "x".toList] := by
  refine ⟨by decide +kernel, by decide +kernel, ?_⟩
  rintro ⟨⟨t, ht⟩, _⟩
  simp at ht

/-- The same system with a relative link. -/
def lkRel : LSys := ⟨[], [(["mnt".toList], .dir), (["mnt".toList, "usr".toList], .dir), (["mnt".toList, "usr".toList, "lib".toList], .dir), (["mnt".toList, "lib".toList], .link "usr/lib".toList)]⟩

theorem linksStay_of {root : List Str} {fs : LFs} (h : ∀ e ∈ fs, ∀ t, e.2 = .link t → t.head? ≠ some '/' ∧ dotdotName ∉ comps t) : LinksStay root fs := by
  intro k t _ hg
  unfold LFs.get at hg
  split at hg
  · cases hg
  · exact h _ (find_mem hg) t rfl

/-- The hypotheses of C208 are met. -/
example : RootDir ["mnt".toList] lkRel.fs ∧ LinksStay ["mnt".toList] lkRel.fs ∧
    (linkAdd ["mnt".toList] "p".toList [("lib/x".toList, .file "1".toList)] lkRel).map (fun s => s.fs.get ["mnt".toList, "usr".toList, "lib".toList, "x".toList]) = some (some (.file "1".toList)) := by
  refine ⟨⟨by unfold PlainPath; decide, ?_⟩, linksStay_of ?_, by decide +kernel⟩
  · intro k hk
    rcases List.prefix_cons_iff.mp hk with rfl | ⟨t, rfl, ht⟩
    · rfl
    · rw [List.prefix_nil.mp ht]
      decide +kernel
  · intro e he t ht
    simp only [lkRel, List.mem_cons, List.not_mem_nil, or_false] at he
    rcases he with rfl | rfl | rfl | rfl
    · cases ht
    · cases ht
    · cases ht
    · injection ht with ht
      subst ht
      decide +kernel

/-- A machine where a package has `lib/a` (through the link) and another the link. -/
def lkUp : LSys := ⟨[("base".toList, ["lib".toList]), ("p".toList, ["lib/a".toList])], lkFs⟩

/-- The new version: another content, and a second file. -/
def lkUpEntries : List (Str × LNode) := [("lib/a".toList, .file "2".toList), ("lib/b".toList, .file "3".toList)]

/-- The places of the new version, after the old one is removed. -/
theorem lkUp_dest : ∀ e ∈ lkUpEntries, Dest (linkRm [] "p".toList lkUp).fs ([] ++ comps e.1) (["usr".toList, "lib".toList] ++ [e.1.drop 4]) := by
  intro e he
  simp only [lkUpEntries, List.mem_cons, List.not_mem_nil, or_false] at he
  rcases he with rfl | rfl
  · exact dest_one ["lib".toList] "a".toList ["usr".toList, "lib".toList] (by decide) (by decide +kernel)
  · exact dest_one ["lib".toList] "b".toList ["usr".toList, "lib".toList] (by decide) (by decide +kernel)

theorem lkUp_good : GoodEntries [] (linkRm [] "p".toList lkUp).fs lkUpEntries := by
  refine ⟨?_, ?_, by decide +kernel⟩
  · intro e he
    refine Or.inr ⟨_, lkUp_dest e he, ?_⟩
    have : ∀ e ∈ lkUpEntries, e.2 ≠ .dir := by decide +kernel
    exact fun h => absurd h (this e he)
  · intro e he e' he' hn d d' h h'
    rw [dest_unique h (lkUp_dest e he), dest_unique h' (lkUp_dest e' he')]
    have : ∀ e ∈ lkUpEntries, ∀ e' ∈ lkUpEntries, (["usr".toList, "lib".toList] ++ [e.1.drop 4]) <+: (["usr".toList, "lib".toList] ++ [e'.1.drop 4]) →
        (["usr".toList, "lib".toList] ++ [e.1.drop 4]) = (["usr".toList, "lib".toList] ++ [e'.1.drop 4]) := by decide +kernel
    exact this e he e' he'

/-- The hypotheses of C209 are met, and the upgrade is accepted. -/
example : LTree lkUp.fs ∧ AllFilesThere [] lkUp ∧ NoShare [] lkUp ∧ NoDirs [] lkUp ∧ AllFilesThere [] (linkRm [] "p".toList lkUp) ∧ GoodEntries [] (linkRm [] "p".toList lkUp).fs lkUpEntries ∧
    (linkUpgrade [] "p".toList lkUpEntries lkUp).map (fun s => (s.fs.get ["usr".toList, "lib".toList, "a".toList], s.fs.get ["lib".toList])) = some (some (.file "2".toList), some (.link "usr/lib".toList)) := by
  have hall : ∀ p ∈ lkUp.db, ∀ f ∈ p.2, lkUp.fs.place ([] ++ comps f) ≠ none ∧ (lkUp.fs.place ([] ++ comps f)).bind lkUp.fs.get ≠ none ∧ (lkUp.fs.place ([] ++ comps f)).bind lkUp.fs.get ≠ some .dir := by decide +kernel
  have hall' : ∀ p ∈ (linkRm [] "p".toList lkUp).db, ∀ f ∈ p.2, ((linkRm [] "p".toList lkUp).fs.place ([] ++ comps f)).bind (linkRm [] "p".toList lkUp).fs.get ≠ none := by decide +kernel
  have hmk : ∀ (fs : LFs) (f : Str), endsSlash f = false → (fs.place ([] ++ comps f)).bind fs.get ≠ none → ∃ q, Lies [] fs f q := by
    intro fs f hs h
    obtain ⟨v, hv⟩ := Option.ne_none_iff_exists'.mp h
    obtain ⟨q, hq, hg⟩ := Option.bind_eq_some_iff.mp hv
    exact ⟨q, hs, hq, by rw [hg]; simp⟩
  have hplaces : ∀ p ∈ lkUp.db, ∀ p' ∈ lkUp.db, p.1 ≠ p'.1 → ∀ f ∈ p.2, ∀ f' ∈ p'.2, lkUp.fs.place ([] ++ comps f) ≠ lkUp.fs.place ([] ++ comps f') := by decide +kernel
  refine ⟨lkFs_tree, fun p hp f hf hs => hmk _ f hs (hall p hp f hf).2.1, ?_, fun p hp f hf _ => (hall p hp f hf).2.2, fun p hp f hf hs => hmk _ f hs (hall' p hp f hf), lkUp_good, by decide +kernel⟩
  intro p hp p' hp' hne f hf f' hf' q hl hl'
  exact hplaces p hp p' hp' hne f hf f' hf' (hl.2.1.trans hl'.2.1.symm)

/-- **C209 fails, a file in conflict with itself**: when the new version names the file `usr/lib/a` that the old one names `lib/a`, the upgrade is refused: the file is taken for one that is not the package's own. -/
theorem C209_own_file_conflict : linkUpgrade [] "p".toList [("usr/lib/a".toList, .file "2".toList)] lkUp = none ∧
    lkUp.fs.place (comps "usr/lib/a".toList) = lkUp.fs.place (comps "lib/a".toList) ∧ lkUp.db.all (fun p => !p.2.contains "usr/lib/a".toList) = true := by decide +kernel

/-- **C209 fails, a link that moves**: when a new version has its link lead elsewhere, the files of the others are there no longer under their names. -/
theorem C209_moved_link : (linkUpgrade [] "base".toList [("opt/".toList, .dir), ("lib".toList, .link "opt".toList)] lkUp).map (fun s => (s.fs.exist [] "lib/a".toList, s.fs.get ["usr".toList, "lib".toList, "a".toList])) =
    some (false, some (.file "1".toList)) ∧ lkUp.fs.exist [] "lib/a".toList = true := by decide +kernel

end Cards.Props
