import Verif.Spec.Trans
import Verif.Lemmas.Fs
namespace Cards
open Spec

theorem splitSlash_ne_nil (s : Str) : splitSlash s ≠ [] := by
  cases s with
  | nil => simp [splitSlash]
  | cons c cs =>
    simp only [splitSlash]
    split
    · simp
    · split <;> simp

theorem splitSlash_noslash {k : Str} (h : '/' ∉ k) : splitSlash k = [k] := by
  induction k with
  | nil => rfl
  | cons c cs ih =>
    simp at h
    simp [splitSlash, Ne.symm h.1, ih h.2]

theorem splitSlash_append {k : Str} (h : '/' ∉ k) (r : Str) : splitSlash (k ++ '/' :: r) = k :: splitSlash r := by
  induction k with
  | nil => simp [splitSlash]
  | cons c cs ih =>
    simp at h
    simp [splitSlash, Ne.symm h.1, ih h.2]

theorem comps_append {k : Str} (h : k ≠ [] ∧ '/' ∉ k) (r : Str) : comps (k ++ '/' :: r) = k :: comps r := by
  simp [comps, splitSlash_append h.2, h.1]

theorem comps_single {k : Str} (h : k ≠ [] ∧ '/' ∉ k) : comps k = [k] := by
  simp [comps, splitSlash_noslash h.2, h.1]

theorem comps_joined {ks : List Str} (h : ∀ k ∈ ks, k ≠ [] ∧ '/' ∉ k) :
    comps (joined ks) = ks ∧ comps (joined ks ++ ['/']) = ks := by
  induction ks with
  | nil => simp [joined, comps, splitSlash]
  | cons c r ih =>
    have hc := h c (by simp)
    cases r with
    | nil =>
      refine ⟨comps_single hc, ?_⟩
      show comps (c ++ '/' :: []) = _
      rw [comps_append hc]; simp [comps, splitSlash]
    | cons d r =>
      have := ih (fun k hk => h k (by simp [hk]))
      simp only [joined, List.append_assoc, List.cons_append]
      rw [comps_append hc, comps_append hc, this.1, this.2]; simp

theorem plainName_comps {f : Str} (h : PlainName f) :
    comps f ≠ [] ∧ (f = joined (comps f) ∨ f = joined (comps f) ++ ['/']) ∧ ∀ k ∈ comps f, k ≠ [] ∧ '/' ∉ k := by
  obtain ⟨ks, hne, hk, h⟩ := h
  have := comps_joined hk
  rcases h with rfl | rfl
  · rw [this.1]; exact ⟨hne, Or.inl rfl, hk⟩
  · rw [this.2]; exact ⟨hne, Or.inr rfl, hk⟩

theorem lt_append_cons (a : Str) (c : Char) (t : Str) : a < a ++ c :: t := by
  induction a with
  | nil => exact List.Lex.nil
  | cons x a ih => exact List.Lex.cons ih

theorem joined_append {ks : List Str} (h : ks ≠ []) (c : Str) (r : List Str) :
    joined (ks ++ c :: r) = joined ks ++ '/' :: joined (c :: r) := by
  induction ks with
  | nil => simp at h
  | cons a ks ih =>
    cases ks with
    | nil => simp [joined]
    | cons b ks =>
      have := ih (by simp)
      simp only [List.cons_append] at this ⊢
      simp [joined, this]

/-- Among plainly spelled names, everything inside a directory sorts after the directory. -/
theorem plain_lt {f g : Str} (hf : PlainName f) (hg : PlainName g) (h : Inside (comps g) (comps f)) : f < g := by
  obtain ⟨c, r, h⟩ := h
  obtain ⟨f1, f2, f3⟩ := plainName_comps hf
  obtain ⟨g1, g2, g3⟩ := plainName_comps hg
  have hc : c ≠ [] ∧ '/' ∉ c := g3 c (by simp [h])
  have hj : joined (comps g) = joined (comps f) ++ '/' :: joined (c :: r) := by rw [h, joined_append f1]
  have hne : ∃ x t, joined (c :: r) = x :: t := by
    obtain ⟨hc1, _⟩ := hc
    cases c with
    | nil => exact absurd rfl hc1
    | cons x t => cases r with
      | nil => exact ⟨x, t, rfl⟩
      | cons d r => exact ⟨x, t ++ '/' :: joined (d :: r), by simp [joined]⟩
  obtain ⟨x, t, hx⟩ := hne
  have hgf : ∃ u, g = joined (comps f) ++ '/' :: (x :: u) := by
    rcases g2 with e | e
    · exact ⟨t, by rw [e, hj, hx]⟩
    · exact ⟨t ++ ['/'], by rw [e, hj, hx]; simp⟩
  obtain ⟨u, hu⟩ := hgf
  rw [hu]
  generalize joined (comps f) = J at f2
  rcases f2 with rfl | rfl
  · exact lt_append_cons _ _ _
  · simpa using lt_append_cons (J ++ ['/']) x u

theorem inside_iff {x d : List Str} : Inside x d ↔ d <+: x ∧ x ≠ d := by
  constructor
  · rintro ⟨c, r, rfl⟩; simp
  · rintro ⟨⟨t, rfl⟩, h⟩
    cases t with
    | nil => simp at h
    | cons c r => exact ⟨c, r, rfl⟩

theorem rmFold_mono (names : List Str) (fs : Fs) (k : List Str) (h : fs.get k = none) :
    (names.foldl Fs.rmStep fs).get k = none := by
  rcases Fs.rmFold_le names fs k with e | e
  · rw [e, h]
  · exact e

theorem exists_bound (l : List Nat) : ∃ B, ∀ n ∈ l, n < B := by
  induction l with
  | nil => exact ⟨0, by simp⟩
  | cons a l ih =>
    obtain ⟨B, hB⟩ := ih
    refine ⟨B + a + 1, ?_⟩
    intro n hn
    rcases List.mem_cons.mp hn with rfl | h
    · omega
    · have := hB n h; omega

/-- A directory entry, or a plain-named file: the name by which the deletion loop can delete the node. -/
def Deletes (g : Str) (n : Node) : Prop := ∀ c m, n = .file c m → endsSlash g = false

/-- The deletion loop empties and deletes every subtree all of whose nodes are named in the set. -/
theorem removeRev_gone (names : List Str) (hs : names.Pairwise (· < ·)) (hp : ∀ f ∈ names, PlainName f) (fs : Fs)
    (f : Str) (hf : f ∈ names)
    (hself : ∀ n, fs.get (comps f) = some n → Deletes f n)
    (hcov : ∀ x n, fs.get x = some n → Inside x (comps f) → ∃ g ∈ names, comps g = x ∧ Deletes g n) :
    (fs.removeRev names).get (comps f) = none := by
  -- induction on the distance to the deepest node, for all prefixes of the loop ending at `g`
  have key : ∀ (d : Nat) (g : Str) (l r : List Str), names = l ++ g :: r →
      (∀ x n, fs.get x = some n → x.length < (comps g).length + d) →
      (∀ x n, fs.get x = some n → Inside x (comps g) → ∃ g' ∈ names, comps g' = x ∧ Deletes g' n) →
      (∀ n, fs.get (comps g) = some n → Deletes g n) →
      ((r.reverse ++ [g]).foldl Fs.rmStep fs).get (comps g) = none := by
    intro d
    induction d with
    | zero =>
      intro g l r hn hb _ _
      apply rmFold_mono
      cases h : fs.get (comps g) with
      | none => rfl
      | some n => have := hb _ _ h; omega
    | succ d ih =>
      intro g l r hn hb hc hg
      rw [List.foldl_append]
      simp only [List.foldl_cons, List.foldl_nil]
      generalize hfs : List.foldl Fs.rmStep fs r.reverse = fs1
      -- nodes inside are gone already
      have hin : ∀ x, Inside x (comps g) → fs1.get x = none := by
        intro x hx
        cases h : fs.get x with
        | none => rw [← hfs]; exact rmFold_mono _ _ _ h
        | some n =>
          obtain ⟨g', hg', hcg, hdel⟩ := hc x n h hx
          have hlt : g < g' := plain_lt (hp g (by simp [hn])) (hp g' hg') (by rw [hcg]; exact hx)
          have hgr : g' ∈ r := by
            rw [hn] at hg' hs
            rw [List.pairwise_append] at hs
            simp only [List.mem_append, List.mem_cons] at hg'
            rcases hg' with h' | h' | h'
            · exact absurd (hs.2.2 g' h' g (by simp)) (fun e => str_lt_irrefl _ (str_lt_trans hlt e))
            · subst h'; exact absurd hlt (str_lt_irrefl _)
            · exact h'
          obtain ⟨r1, r2, hr⟩ := List.append_of_mem hgr
          have hxlen : (comps g).length < x.length := by obtain ⟨c, t, rfl⟩ := hx; simp
          have := ih g' (l ++ g :: r1) r2 (by rw [hn, hr]; simp) (by
              intro y m hy; have := hb y m hy; rw [hcg]; omega) (by
              intro y m hy hin'
              apply hc y m hy
              rw [hcg] at hin'
              obtain ⟨c, t, rfl⟩ := hx
              obtain ⟨c', t', rfl⟩ := hin'
              exact ⟨c, t ++ c' :: t', by simp⟩) (by
              intro m hm; rw [hcg] at hm; rw [h] at hm; simp at hm; subst hm; exact hdel)
          rw [← hfs, hr]
          rw [show (r1 ++ g' :: r2).reverse = (r2.reverse ++ [g']) ++ r1.reverse by simp, List.foldl_append]
          apply rmFold_mono
          rw [hcg] at this
          exact this
      cases h : fs1.get (comps g) with
      | none =>
        rcases Fs.rmStep_le fs1 g (comps g) with e | e
        · rw [e, h]
        · exact e
      | some n =>
        cases n with
        | file c m =>
          have hns : fs.get (comps g) = some (.file c m) := by
            rcases Fs.rmFold_le r.reverse fs (comps g) with e | e
            · rw [hfs, h] at e; exact e.symm
            · rw [hfs, h] at e; simp at e
          exact Fs.rmStep_file fs1 g c m h (hg _ hns c m rfl)
        | dir m =>
          apply Fs.rmStep_dir fs1 g m h
          rw [Bool.eq_false_iff]
          intro hch
          obtain ⟨x, hx, hne, hsome⟩ := Fs.hasChild_iff.mp hch
          rw [hin x (inside_iff.mpr ⟨hx, hne⟩)] at hsome
          simp at hsome
  obtain ⟨l, r, hn⟩ := List.append_of_mem hf
  obtain ⟨B, hB⟩ : ∃ B, ∀ x n, fs.get x = some n → x.length < B := by
    obtain ⟨B, hB⟩ := exists_bound (fs.map (fun e => e.1.length))
    refine ⟨B, ?_⟩
    intro x n h
    obtain ⟨w, hw⟩ := Fs.mem_keys_of_get h
    exact hB _ (List.mem_map.mpr ⟨_, hw, rfl⟩)
  have := key B f l r hn (fun x n h => by have := hB x n h; omega) hcov hself
  rw [Fs.removeRev_eq, hn, show (l ++ f :: r).reverse = (r.reverse ++ [f]) ++ l.reverse by simp, List.foldl_append]
  exact rmFold_mono _ _ _ this
end Cards
