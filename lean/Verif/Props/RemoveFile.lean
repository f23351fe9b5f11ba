import Verif.Model.RemoveFile
import Verif.Props.Inside
import Verif.Lemmas.Names
import Mathlib.Tactic.Common
/-!
# C36: deleting a file with its empty parents stays below the base directory
-/
namespace Cards.Props
open Cards Cards.Spec

theorem dropSlashes_append_slash (p : Str) : dropSlashes (p ++ ['/']) = dropSlashes p := by
  simp [dropSlashes]

theorem dropSlashes_append_other (p : Str) (c : Char) (h : c ≠ '/') : dropSlashes (p ++ [c]) = p ++ [c] := by
  simp [dropSlashes, h]

theorem dropName_append_other (p : Str) (c : Char) (h : c ≠ '/') : dropName (p ++ [c]) = dropName p := by
  simp [dropName, h]

theorem dropName_append_slash (p : Str) : dropName (p ++ ['/']) = p ++ ['/'] := by
  simp [dropName]

theorem mem_takeWhile_p (f : Char → Bool) (l : Str) (c : Char) (h : c ∈ l.takeWhile f) : f c = true := by
  induction l with
  | nil => simp at h
  | cons x l ih =>
    rw [List.takeWhile_cons] at h
    split at h
    · rename_i hx
      rcases List.mem_cons.mp h with rfl | h
      · exact hx
      · exact ih h
    · simp at h

theorem split_back (l : Str) (f : Char → Bool) :
    ∃ t, l = (l.reverse.dropWhile f).reverse ++ t ∧ (∀ c ∈ t, f c = true) ∧
      ((l.reverse.dropWhile f).reverse = [] ∨ ∃ b x, (l.reverse.dropWhile f).reverse = b ++ [x] ∧ f x = false) := by
  refine ⟨(l.reverse.takeWhile f).reverse, ?_, ?_, ?_⟩
  · rw [← List.reverse_append, List.takeWhile_append_dropWhile, List.reverse_reverse]
  · intro c hc
    exact mem_takeWhile_p f _ c (List.mem_reverse.mp hc)
  · cases h : l.reverse.dropWhile f with
    | nil => exact Or.inl rfl
    | cons x b =>
      refine Or.inr ⟨b.reverse, x, by simp, ?_⟩
      have := List.head_dropWhile_not f (l := l.reverse) (by rw [h]; simp)
      simpa [h] using this

theorem comps_slashes (t : Str) (h : ∀ c ∈ t, c = '/') : comps t = [] := by
  induction t with
  | nil => rfl
  | cons c t ih =>
    obtain rfl := h c (by simp)
    have := splitSlash_append [] t
    rw [List.nil_append] at this
    rw [this, ih (fun c hc => h c (by simp [hc]))]
    rfl

theorem slashes_of_comps (t : Str) (h : comps t = []) : ∀ x ∈ t, x = '/' := by
  induction t with
  | nil => simp
  | cons c t ih =>
    by_cases hc : c = '/'
    · subst hc
      have := splitSlash_append [] t
      rw [List.nil_append] at this
      rw [this] at h
      intro x hx
      rcases List.mem_cons.mp hx with rfl | hx
      · rfl
      · exact ih (by simpa [comps, splitSlash] using h) x hx
    · exfalso
      unfold comps at h
      simp only [splitSlash, if_neg hc] at h
      split at h <;> simp at h

theorem comps_append_slashes (a t : Str) (h : ∀ c ∈ t, c = '/') : comps (a ++ t) = comps a := by
  cases t with
  | nil => simp
  | cons c t =>
    obtain rfl := h c (by simp)
    rw [splitSlash_append, comps_slashes t (fun c hc => h c (by simp [hc])), List.append_nil]

theorem comps_dropSlashes (p : Str) : comps (dropSlashes p) = comps p := by
  obtain ⟨t, h1, h2, -⟩ := split_back p (fun c => c = '/')
  conv_rhs => rw [h1, comps_append_slashes _ t (by simpa using h2)]
  rfl

/-- A text with a component is: something that is empty or ends with a slash, a name, slashes. -/
theorem name_decomp (p : Str) (h : comps p ≠ []) :
    ∃ a c t, p = a ++ c ++ t ∧ c ≠ [] ∧ '/' ∉ c ∧ (∀ x ∈ t, x = '/') ∧ (a = [] ∨ ∃ b, a = b ++ ['/']) := by
  obtain ⟨t, h1, h2, h3⟩ := split_back p (fun c => c = '/')
  change p = dropSlashes p ++ t at h1
  change dropSlashes p = [] ∨ ∃ b x, dropSlashes p = b ++ [x] ∧ _ at h3
  have hq : dropSlashes p ≠ [] := by
    intro e
    rw [← comps_dropSlashes, e] at h
    exact h rfl
  obtain ⟨c, k1, k2, k3⟩ := split_back (dropSlashes p) (fun c => c ≠ '/')
  change dropSlashes p = dropName (dropSlashes p) ++ c at k1
  change dropName (dropSlashes p) = [] ∨ ∃ b x, dropName (dropSlashes p) = b ++ [x] ∧ _ at k3
  rcases h3 with h3 | ⟨b, x, hb, hx⟩
  · exact absurd h3 hq
  have hc : c ≠ [] := by
    rintro rfl
    rcases k3 with k3 | ⟨b', y, hb', hy⟩
    · rw [k3] at k1; exact hq (by simpa using k1)
    · rw [hb', hb] at k1
      rw [List.append_nil] at k1
      have := congrArg List.getLast? k1
      simp at this
      simp at hx hy
      exact hx (this.trans hy)
  refine ⟨dropName (dropSlashes p), c, t, by rw [← k1]; exact h1, hc, ?_, by simpa using h2, ?_⟩
  · intro hm
    have := k2 _ hm
    simp at this
  · rcases k3 with k3 | ⟨b', y, hb', hy⟩
    · exact Or.inl k3
    · simp only [ne_eq, decide_not, Bool.not_eq_eq_eq_not, Bool.not_false, decide_eq_true_eq] at hy
      subst hy
      exact Or.inr ⟨b', hb'⟩

theorem dropSlashes_all (b t : Str) (ht : ∀ x ∈ t, x = '/') : dropSlashes (b ++ t) = dropSlashes b := by
  unfold dropSlashes
  rw [List.reverse_append, List.dropWhile_append_of_pos (by simpa using ht)]

theorem dropSlashes_append_name (p c : Str) (hc : c ≠ []) (h : '/' ∉ c) : dropSlashes (p ++ c) = p ++ c := by
  rcases List.eq_nil_or_concat c with rfl | ⟨d, x, rfl⟩
  · exact absurd rfl hc
  · rw [List.concat_eq_append, ← List.append_assoc]
    apply dropSlashes_append_other
    rintro rfl
    simp at h

theorem dropName_append_name (p c : Str) (h : '/' ∉ c) : dropName (p ++ c) = dropName p := by
  unfold dropName
  rw [List.reverse_append, List.dropWhile_append_of_pos]
  intro x hx
  simp only [ne_eq, decide_not, Bool.not_eq_eq_eq_not, Bool.not_true, decide_eq_false_iff_not]
  rintro rfl
  exact h (by simpa using hx)

/-- What `dirname` does. -/
theorem dirname_eval (a c t : Str) (hc : c ≠ []) (hs : '/' ∉ c) (ht : ∀ x ∈ t, x = '/') :
    dirname (a ++ c ++ t) = if dropName a = [] then ".".toList else
      if dropSlashes (dropName a) = [] then "/".toList else dropSlashes (dropName a) := by
  unfold dirname
  simp only
  rw [dropSlashes_all _ _ ht, dropSlashes_append_name _ _ hc hs, if_neg (by simp [hc]), dropName_append_name _ _ hs]

theorem comps_name (c : Str) (hc : c ≠ []) (h : '/' ∉ c) : comps c = [c] := comps_single ⟨hc, h⟩

/-- The text of the base directory: `/` for the root. -/
def baseText (b : Str) : Str := if b = [] then "/".toList else b

theorem dropSlashes_fix (b : Str) (hb : b.getLast? ≠ some '/') : dropSlashes b = b := by
  rcases List.eq_nil_or_concat b with rfl | ⟨d, x, rfl⟩
  · rfl
  · rw [List.concat_eq_append] at hb ⊢
    exact dropSlashes_append_other d x (by simpa using hb)

/-- Below the base directory, `dirname` yields the base directory or a path below it. -/
theorem dirname_below (b m : Str) (hb : b.getLast? ≠ some '/') (hm : comps m ≠ []) :
    (∃ c, comps m = [c]) ∧ dirname (b ++ '/' :: m) = baseText b ∨
    ∃ m', dirname (b ++ '/' :: m) = b ++ '/' :: m' ∧ comps m' ≠ [] ∧ m'.length < m.length ∧ ∃ c, comps m = comps m' ++ [c] := by
  obtain ⟨a, c, t, rfl, hc, hs, ht, ha⟩ := name_decomp m hm
  have e : b ++ '/' :: (a ++ c ++ t) = (b ++ '/' :: a) ++ c ++ t := by simp
  have hd : dropName (b ++ '/' :: a) = b ++ '/' :: a := by
    rcases ha with rfl | ⟨a', rfl⟩
    · exact dropName_append_slash b
    · have : b ++ '/' :: (a' ++ ['/']) = (b ++ '/' :: a') ++ ['/'] := by simp
      rw [this, dropName_append_slash]
  rw [e, dirname_eval _ _ _ hc hs ht, hd, if_neg (by simp), comps_append_slashes _ _ ht]
  have hca : comps (a ++ c) = comps a ++ [c] := by
    rcases ha with rfl | ⟨a', rfl⟩
    · simp [comps_name c hc hs]; rfl
    · have : a' ++ ['/'] ++ c = a' ++ '/' :: c := by simp
      rw [this, splitSlash_append, comps_name c hc hs, comps_append_slashes _ _ (by simp)]
  by_cases h0 : comps a = []
  · left
    refine ⟨⟨c, by rw [hca, h0]; rfl⟩, ?_⟩
    have hall := slashes_of_comps a h0
    have e2 : dropSlashes (b ++ '/' :: a) = b := by
      rw [dropSlashes_all _ _ (by simpa using hall), dropSlashes_fix b hb]
    rw [e2]; rfl
  · right
    obtain ⟨a', c', t', rfl, hc', hs', ht', ha'⟩ := name_decomp a h0
    refine ⟨a' ++ c', ?_, ?_, ?_, c, ?_⟩
    · have : b ++ '/' :: (a' ++ c' ++ t') = (b ++ '/' :: a' ++ c') ++ t' := by simp
      rw [this, dropSlashes_all _ _ ht', dropSlashes_append_name _ _ hc' hs', if_neg (by simp)]
      simp
    · rw [comps_append_slashes _ _ ht'] at h0; exact h0
    · have := List.length_pos_iff.mpr hc
      simp; omega
    · rw [hca, comps_append_slashes _ _ ht']

theorem baseText_comps (b : Str) : comps (baseText b) = comps b := by
  unfold baseText
  split
  · rename_i h; subst h; rfl
  · rfl

theorem below_ne_base (b m : Str) (hm : comps m ≠ []) : b ++ '/' :: m ≠ baseText b := by
  intro e
  have := congrArg comps e
  rw [baseText_comps, splitSlash_append] at this
  exact hm (by simpa using this)

/-- `remove` deletes at most the node it names, and a directory only when nothing lies inside it. -/
theorem remove_true {fs : Fs} {p : Str} (h : (fs.remove p).2 = true) :
    (fs.remove p).1 = fs.del (comps p) ∧ (fs.get (comps p)).isSome ∧
      (∀ m, fs.get (comps p) = some (.dir m) → fs.hasChild (comps p) = false) := by
  unfold Fs.remove Fs.lstat at *
  cases hg : fs.get (comps p) with
  | none => simp [hg] at h
  | some n =>
    cases n with
    | file c m =>
      by_cases he : endsSlash p
      · simp [hg, he] at h
      · simp [he]
    | dir m =>
      by_cases hc : fs.hasChild (comps p)
      · simp [hg, hc] at h
      · simp [hc]

/-- One step of the walk below the base. -/
theorem removeFile_step (fs : Fs) (b m : Str) (hb : b.getLast? ≠ some '/') (hm : comps m ≠ []) :
    let p := b ++ '/' :: m
    let r := removeFile (baseText b) fs p
    ((fs.remove p).2 = false ∧ r = fs) ∨
    ((fs.remove p).2 = true ∧ (∃ c, comps m = [c]) ∧ r = fs.del (comps p)) ∨
    ((fs.remove p).2 = true ∧ ∃ m', comps m' ≠ [] ∧ m'.length < m.length ∧ (∃ c, comps m = comps m' ++ [c]) ∧
      r = removeFile (baseText b) (fs.del (comps p)) (b ++ '/' :: m')) := by
  intro p r
  have hr : r = if (fs.remove p).2 then
    if (dirname p).length < p.length then removeFile (baseText b) (fs.remove p).1 (dirname p) else (fs.remove p).1
      else fs := by
    show removeFile _ _ p = _
    rw [removeFile, if_neg (below_ne_base b m hm)]
  cases h : (fs.remove p).2 with
  | false => left; rw [hr, h]; simp
  | true =>
    right
    rw [h, if_pos rfl, (remove_true h).1] at hr
    rcases dirname_below b m hb hm with ⟨h1, h2⟩ | ⟨m', h2, h3, h4, h5⟩
    · left
      refine ⟨rfl, h1, ?_⟩
      rw [hr]
      split
      · rw [show dirname p = baseText b from h2, removeFile, if_pos rfl]
      · rfl
    · right
      refine ⟨rfl, m', h3, h4, h5, ?_⟩
      rw [hr, show dirname p = _ from h2, if_pos (by simp [p]; exact h4)]

/-- **C36.** For a file named below a base directory (the base spelled without a trailing slash, except for `/` itself), whatever
the tree: everything that disappears is the file or one of its ancestors strictly below the base, nothing else changes, and a
directory disappears only if nothing is left inside it. -/
theorem C36_below (fs : Fs) (b m : Str) (hb : b.getLast? ≠ some '/') (hm : comps m ≠ []) (k : List Str)
    (hk : (removeFile (baseText b) fs (b ++ '/' :: m)).get k ≠ fs.get k) :
    (removeFile (baseText b) fs (b ++ '/' :: m)).get k = none ∧ Inside k (comps b) ∧ k <+: comps (b ++ '/' :: m) ∧
      ((∃ d, fs.get k = some (.dir d)) →
        ∀ x, Inside x k → (removeFile (baseText b) fs (b ++ '/' :: m)).get x = none) := by
  induction hn : m.length using Nat.strongRecOn generalizing m fs with
  | _ n ih =>
  subst hn
  have hin : Inside (comps (b ++ '/' :: m)) (comps b) := by
    rw [splitSlash_append]
    cases hc : comps m with
    | nil => exact absurd hc hm
    | cons c r => exact ⟨c, r, rfl⟩
  have mono : ∀ (n : Nat) (fs : Fs) (m : Str), m.length < n → comps m ≠ [] → ∀ x, fs.get x = none →
      (removeFile (baseText b) fs (b ++ '/' :: m)).get x = none := by
    intro n
    induction n with
    | zero => intro _ _ h; omega
    | succ n ihn =>
      intro fs m hlt hm x hx
      have hx' : (fs.del (comps (b ++ '/' :: m))).get x = none := by rw [Fs.get_del]; split; · rfl
                                                                     exact hx
      rcases removeFile_step fs b m hb hm with ⟨-, e⟩ | ⟨-, -, e⟩ | ⟨-, m', h1, h2, -, e⟩
      · rw [e, hx]
      · rw [e]; exact hx'
      · rw [e]
        exact ihn _ m' (by omega) h1 x hx'
  rcases removeFile_step fs b m hb hm with ⟨-, e⟩ | ⟨h0, -, e⟩ | ⟨h0, m', h1, h2, ⟨c, h3⟩, e⟩
  · rw [e] at hk; exact absurd rfl hk
  · rw [e] at hk ⊢
    rw [Fs.get_del] at hk
    split at hk
    · rename_i hkk
      subst hkk
      refine ⟨by rw [Fs.get_del, if_pos rfl], hin, List.prefix_refl _, ?_⟩
      rintro ⟨d, hd⟩ x hx
      have hnc := (remove_true h0).2.2 d hd
      rw [Fs.get_del, if_neg (by rintro rfl; obtain ⟨_, _, hx⟩ := hx; simp at hx)]
      by_contra hne
      have := Fs.hasChild_iff.mpr ⟨x, (inside_iff.mp hx).1, (inside_iff.mp hx).2, by
        cases hg : fs.get x with
        | none => exact absurd hg hne
        | some _ => rfl⟩
      rw [hnc] at this
      cases this
    · exact absurd rfl hk
  · by_cases hkk : comps (b ++ '/' :: m) = k
    · subst hkk
      refine ⟨?_, hin, List.prefix_refl _, ?_⟩
      · rw [e]; exact mono _ _ m' (Nat.lt_succ_self _) h1 _ (by rw [Fs.get_del, if_pos rfl])
      · rintro ⟨d, hd⟩ x hx
        have hnc := (remove_true h0).2.2 d hd
        rw [e]
        apply mono _ _ m' (Nat.lt_succ_self _) h1
        rw [Fs.get_del, if_neg (by rintro rfl; obtain ⟨_, _, hx⟩ := hx; simp at hx)]
        by_contra hne
        have := Fs.hasChild_iff.mpr ⟨x, (inside_iff.mp hx).1, (inside_iff.mp hx).2, by
          cases hg : fs.get x with
          | none => exact absurd hg hne
          | some _ => rfl⟩
        rw [hnc] at this
        cases this
    · have hg : (fs.del (comps (b ++ '/' :: m))).get k = fs.get k := by rw [Fs.get_del, if_neg hkk]
      rw [e, ← hg] at hk
      obtain ⟨a1, a2, a3, a4⟩ := ih _ h2 _ m' h1 hk rfl
      rw [e]
      refine ⟨a1, a2, a3.trans ?_, ?_⟩
      · rw [splitSlash_append, splitSlash_append, h3, ← List.append_assoc]
        exact List.prefix_append _ _
      · rw [← hg]; exact a4

/-- The file named disappears, when it is one (or an empty directory): the walk starts with it. -/
theorem C36_file_removed (fs : Fs) (b m : Str) (hb : b.getLast? ≠ some '/') (hm : comps m ≠ [])
    (h : (∃ c d, fs.get (comps (b ++ '/' :: m)) = some (.file c d) ∧ m.getLast? ≠ some '/')) :
    (removeFile (baseText b) fs (b ++ '/' :: m)).get (comps (b ++ '/' :: m)) = none := by
  obtain ⟨c, d, hg, hl⟩ := h
  have hr : (fs.remove (b ++ '/' :: m)).2 = true := by
    have he : endsSlash (b ++ '/' :: m) = false := by
      unfold endsSlash
      rw [List.getLast?_append]
      cases m with
      | nil => exact absurd rfl hm
      | cons x m =>
        simp only [List.getLast?_cons_cons, decide_eq_false_iff_not]
        cases hh : (x :: m).getLast? with
        | none => simp at hh
        | some y => rw [hh] at hl; simpa using hl
    simp [Fs.remove, Fs.lstat, hg, he]
  by_cases hk : (removeFile (baseText b) fs (b ++ '/' :: m)).get (comps (b ++ '/' :: m)) = fs.get (comps (b ++ '/' :: m))
  · exfalso
    rcases removeFile_step fs b m hb hm with ⟨h0, -⟩ | ⟨-, -, e⟩ | ⟨-, m', h1, -, -, e⟩
    · rw [hr] at h0; cases h0
    · rw [e, Fs.get_del, if_pos rfl, hg] at hk; cases hk
    · rw [e] at hk
      have hd : (fs.del (comps (b ++ '/' :: m))).get (comps (b ++ '/' :: m)) = none := by rw [Fs.get_del, if_pos rfl]
      have := (C36_below (fs.del (comps (b ++ '/' :: m))) b m' hb h1 (comps (b ++ '/' :: m))
        (by rw [hk, hd, hg]; simp)).1
      rw [hk, hg] at this
      cases this
  · exact (C36_below fs b m hb hm _ hk).1

/-- Parents are directories. -/
def Tree (fs : Fs) : Prop := ∀ x d, d ≠ [] → Inside x d → (fs.get x).isSome → ∃ m, fs.get d = some (.dir m)

theorem Tree.del {fs : Fs} (h : Tree fs) {k : List Str} (hk : ∀ x, Inside x k → fs.get x = none) : Tree (fs.del k) := by
  intro x d hd hx hs
  rw [Fs.get_del] at hs
  split at hs
  · cases hs
  · obtain ⟨m, hm⟩ := h x d hd hx hs
    refine ⟨m, ?_⟩
    rw [Fs.get_del, if_neg, hm]
    rintro rfl
    rw [hk x hx] at hs
    cases hs

/-- No empty parent is left behind: once the file is deleted, every directory that remains between the base and the file has
something in it. -/
theorem C36_no_empty_parent (fs : Fs) (ht : Tree fs) (b m : Str) (hb : b.getLast? ≠ some '/') (hm : comps m ≠ [])
    (hdel : (fs.remove (b ++ '/' :: m)).2 = true) (k : List Str)
    (hin : Inside k (comps b)) (hpre : Inside (comps (b ++ '/' :: m)) k) (hne : k ≠ [])
    (hs : ((removeFile (baseText b) fs (b ++ '/' :: m)).get k).isSome) :
    ∃ x, Inside x k ∧ ((removeFile (baseText b) fs (b ++ '/' :: m)).get x).isSome := by
  induction hn : m.length using Nat.strongRecOn generalizing m fs with
  | _ n ih =>
  subst hn
  rcases removeFile_step fs b m hb hm with ⟨h0, -⟩ | ⟨-, ⟨c, hc⟩, e⟩ | ⟨-, m', h1, h2, ⟨c, h3⟩, e⟩
  · rw [hdel] at h0; cases h0
  · exfalso
    rw [splitSlash_append, hc] at hpre
    obtain ⟨c1, r1, rfl⟩ := hin
    obtain ⟨c2, r2, h⟩ := hpre
    have := congrArg List.length h
    simp at this
  · rw [e] at hs ⊢
    have ht' : Tree (fs.del (comps (b ++ '/' :: m))) := by
      obtain ⟨-, g2, g3⟩ := remove_true hdel
      apply ht.del
      intro x hx
      by_contra hxne
      have hxs : (fs.get x).isSome := by
        cases hg : fs.get x with
        | none => exact absurd hg hxne
        | some _ => rfl
      have hpne : comps (b ++ '/' :: m) ≠ [] := by
        rw [splitSlash_append]; simp [hm]
      obtain ⟨d, hd⟩ := ht x _ hpne hx hxs
      have := g3 d hd
      rw [Fs.hasChild_iff.mpr ⟨x, (inside_iff.mp hx).1, (inside_iff.mp hx).2, hxs⟩] at this
      cases this
    have hcm' : comps (b ++ '/' :: m) = comps (b ++ '/' :: m') ++ [c] := by
      rw [splitSlash_append, splitSlash_append, h3, List.append_assoc]
    cases hdel' : ((fs.del (comps (b ++ '/' :: m))).remove (b ++ '/' :: m')).2 with
    | true =>
      by_cases hk : k = comps (b ++ '/' :: m')
      · exfalso
        subst hk
        rcases removeFile_step (fs.del (comps (b ++ '/' :: m))) b m' hb h1 with ⟨h0, -⟩ | ⟨-, -, e'⟩ | ⟨-, m'', k1, -, -, e'⟩
        · rw [hdel'] at h0; cases h0
        · rw [e', Fs.get_del, if_pos rfl] at hs; cases hs
        · rw [e'] at hs
          have hz : ((fs.del (comps (b ++ '/' :: m))).del (comps (b ++ '/' :: m'))).get (comps (b ++ '/' :: m')) = none := by
            rw [Fs.get_del, if_pos rfl]
          by_cases hq : (removeFile (baseText b) ((fs.del (comps (b ++ '/' :: m))).del (comps (b ++ '/' :: m'))) (b ++ '/' :: m'')).get
              (comps (b ++ '/' :: m')) = ((fs.del (comps (b ++ '/' :: m))).del (comps (b ++ '/' :: m'))).get (comps (b ++ '/' :: m'))
          · rw [hq, hz] at hs; cases hs
          · rw [(C36_below _ b m'' hb k1 _ hq).1] at hs; cases hs
      · refine ih _ h2 _ ht' m' h1 hdel' ?_ hs rfl
        rw [hcm'] at hpre
        rw [inside_iff] at hpre ⊢
        refine ⟨?_, fun e => hk e.symm⟩
        obtain ⟨⟨t, ht⟩, hne'⟩ := hpre
        rcases List.eq_nil_or_concat t with rfl | ⟨t', x, rfl⟩
        · simp at ht; exact absurd ht.symm hne'
        · rw [List.concat_eq_append, ← List.append_assoc] at ht
          have := List.append_inj' ht rfl
          exact ⟨t', this.1⟩
    | false =>
      -- the walk stops: the parent is not an empty directory
      rcases removeFile_step (fs.del (comps (b ++ '/' :: m))) b m' hb h1 with ⟨-, e'⟩ | ⟨h0, -, -⟩ | ⟨h0, -⟩
      · rw [e'] at hs ⊢
        -- the parent of the deleted file is a directory with a child
        have hpar : ∃ d, fs.get (comps (b ++ '/' :: m')) = some (.dir d) := by
          apply ht (comps (b ++ '/' :: m)) _ (by rw [splitSlash_append]; simp [h1]) ⟨c, [], hcm'⟩ (remove_true hdel).2.1
        obtain ⟨d, hd⟩ := hpar
        have hd' : (fs.del (comps (b ++ '/' :: m))).get (comps (b ++ '/' :: m')) = some (.dir d) := by
          rw [Fs.get_del, if_neg, hd]
          intro h
          rw [hcm'] at h
          simp at h
        have hch : (fs.del (comps (b ++ '/' :: m))).hasChild (comps (b ++ '/' :: m')) = true := by
          simp only [Fs.remove, Fs.lstat, hd'] at hdel'
          by_contra hh
          simp [hh] at hdel'
        obtain ⟨x, x1, x2, x3⟩ := Fs.hasChild_iff.mp hch
        refine ⟨x, ?_, x3⟩
        rw [hcm'] at hpre
        rw [inside_iff] at hpre ⊢
        obtain ⟨⟨t, ht2⟩, hne'⟩ := hpre
        rcases List.eq_nil_or_concat t with rfl | ⟨t', y, rfl⟩
        · simp at ht2; exact absurd ht2.symm hne'
        · rw [List.concat_eq_append, ← List.append_assoc] at ht2
          have hkp := (List.append_inj' ht2 rfl).1
          refine ⟨List.IsPrefix.trans ⟨t', hkp⟩ x1, ?_⟩
          rintro rfl
          have l1 := congrArg List.length hkp
          have l2 := x1.length_le
          simp at l1
          have : t' = [] := List.eq_nil_of_length_eq_zero (by omega)
          subst this
          exact x2 (by simpa using hkp)
      · rw [hdel'] at h0; cases h0
      · rw [hdel'] at h0; cases h0

/-- A tree with `/var/pkg/r/etc/a` and `/var/pkg/x`. -/
def rfTree : Fs :=
  [(["var".toList], .dir 493), (["var".toList, "pkg".toList], .dir 493), (["var".toList, "pkg".toList, "x".toList], .file [] 420),
   (["var".toList, "pkg".toList, "r".toList], .dir 493), (["var".toList, "pkg".toList, "r".toList, "etc".toList], .dir 493),
   (["var".toList, "pkg".toList, "r".toList, "etc".toList, "a".toList], .file [] 420)]

/-- The hypotheses of the theorems are met by the cleanup of a rejected file, and the cleanup deletes the empty parent too. -/
example : ("/var/pkg/r".toList : Str).getLast? ≠ some '/' ∧ comps "etc/a".toList ≠ [] ∧
    baseText "/var/pkg/r".toList = "/var/pkg/r".toList ∧
    "/var/pkg/r".toList ++ '/' :: "etc/a".toList = "/var/pkg/r/etc/a".toList ∧
    (rfTree.remove "/var/pkg/r/etc/a".toList).2 = true := by decide

example : (removeFile "/var/pkg/r".toList rfTree "/var/pkg/r/etc/a".toList).map (·.1) =
    [["var".toList], ["var".toList, "pkg".toList], ["var".toList, "pkg".toList, "x".toList],
      ["var".toList, "pkg".toList, "r".toList]] := by
  rw [removeFile, if_neg (by decide), if_pos (by decide), if_pos (by decide), show dirname "/var/pkg/r/etc/a".toList = "/var/pkg/r/etc".toList by decide,
    removeFile, if_neg (by decide), if_pos (by decide), if_pos (by decide), show dirname "/var/pkg/r/etc".toList = "/var/pkg/r".toList by decide,
    removeFile, if_pos rfl]
  decide

/-- With a trailing slash on the base (as `m_root` has it) the walk does not recognise the base and deletes it, with its
empty parents: `removeFile("/mnt/t/", "/mnt/t/a")` deletes `/mnt/t` and `/mnt`. -/
theorem C36_trailing_slash_counterexample :
    removeFile "/mnt/t/".toList
      [(["mnt".toList], .dir 493), (["mnt".toList, "t".toList], .dir 493), (["mnt".toList, "t".toList, "a".toList], .file [] 420)]
      "/mnt/t/a".toList = [] := by
  rw [removeFile, if_neg (by decide), if_pos (by decide), if_pos (by decide), show dirname "/mnt/t/a".toList = "/mnt/t".toList by decide,
    removeFile, if_neg (by decide), if_pos (by decide), if_pos (by decide), show dirname "/mnt/t".toList = "/mnt".toList by decide,
    removeFile, if_neg (by decide), if_pos (by decide), if_pos (by decide), show dirname "/mnt".toList = "/".toList by decide,
    removeFile, if_neg (by decide), if_neg (by decide)]
  decide

end Cards.Props
