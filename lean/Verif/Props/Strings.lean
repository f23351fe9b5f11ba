import Verif.Model.Strings
import Verif.Model.Fs
import Verif.Spec.Strings
import Verif.Lemmas.Names
import Verif.Lemmas.Lists
/-!
# C35, C37: string helpers
-/
namespace Cards.Props
open Cards Cards.Spec

/-! ## Splitting -/

theorem pieces_cons_delim {p : Char → Bool} {c : Char} {s : Str} {ps : List Str} (hc : p c = true) (h : Pieces p s ps) :
    Pieces p (c :: s) ps := by
  cases h with
  | none _ h => exact .none _ (by simp; exact ⟨hc, h⟩)
  | piece ds w rest ps h1 h2 h3 h4 h5 =>
    have := Pieces.piece (c :: ds) w rest ps (by simp; exact ⟨hc, h1⟩) h2 h3 h4 h5
    simpa using this

theorem splitLoop_pieces (p : Char → Bool) (s : Str) : ∀ (b : Str) (v : List Str), (∀ c ∈ b, p c = false) →
    ∃ ps, splitLoop p s b v = v ++ ps ∧ Pieces p (b ++ s) ps := by
  induction s with
  | nil =>
    intro b v hb
    simp only [splitLoop]
    split
    · rename_i h
      refine ⟨[b], rfl, ?_⟩
      have := Pieces.piece [] b [] [] (by simp) h hb (Or.inl rfl) (.none _ (by simp))
      simpa using this
    · rename_i h
      have : b = [] := Decidable.byContradiction h
      subst this
      exact ⟨[], by simp, .none _ (by simp)⟩
  | cons n s ih =>
    intro b v hb
    simp only [splitLoop]
    split
    · rename_i hn
      obtain ⟨ps, h1, h2⟩ := ih (b ++ [n]) v (by simpa using fun c h => h.elim (hb c) (fun e => by subst e; simpa using hn))
      exact ⟨ps, h1, by simpa using h2⟩
    · rename_i hn
      have hn' : p n = true := by simpa using hn
      split
      · rename_i hne
        obtain ⟨ps, h1, h2⟩ := ih [] (v ++ [b]) (by simp)
        refine ⟨b :: ps, by rw [h1]; simp, ?_⟩
        have := Pieces.piece [] b (n :: s) ps (by simp) hne hb (Or.inr ⟨n, s, rfl, hn'⟩)
          (pieces_cons_delim hn' (by simpa using h2))
        simpa using this
      · rename_i hne
        have : b = [] := Decidable.byContradiction hne
        subst this
        obtain ⟨ps, h1, h2⟩ := ih [] v (by simp)
        exact ⟨ps, h1, pieces_cons_delim hn' (by simpa using h2)⟩

theorem splitLoop_delims (p : Char → Bool) (ds s : Str) (v : List Str) (h : ∀ c ∈ ds, p c = true) :
    splitLoop p (ds ++ s) [] v = splitLoop p s [] v := by
  induction ds with
  | nil => rfl
  | cons d ds ih =>
    have hd := h d (by simp)
    simp only [List.cons_append, splitLoop, hd]
    simpa using ih (fun c hc => h c (by simp [hc]))

theorem splitLoop_word (p : Char → Bool) (w s b : Str) (v : List Str) (h : ∀ c ∈ w, p c = false) :
    splitLoop p (w ++ s) b v = splitLoop p s (b ++ w) v := by
  induction w generalizing b with
  | nil => simp
  | cons d w ih =>
    have hd := h d (by simp)
    simp only [List.cons_append, splitLoop, hd]
    rw [show b ++ d :: w = (b ++ [d]) ++ w by simp]
    simpa using ih (b ++ [d]) (fun c hc => h c (by simp [hc]))

theorem pieces_splitLoop {p : Char → Bool} {s : Str} {ps : List Str} (h : Pieces p s ps) :
    ∀ v, splitLoop p s [] v = v ++ ps := by
  induction h with
  | none s h =>
    intro v
    have := splitLoop_delims p s [] v h
    simp only [List.append_nil] at this
    rw [this]; simp [splitLoop]
  | piece ds w rest ps h1 h2 h3 h4 h5 ih =>
    intro v
    rw [List.append_assoc, splitLoop_delims p ds _ v h1, splitLoop_word p w rest [] v h3]
    rcases h4 with rfl | ⟨c, r, rfl, hc⟩
    · have := ih []
      simp [splitLoop] at this
      simp [splitLoop, h2, ← this]
    · have := ih (v ++ [w])
      simp only [splitLoop, hc, List.nil_append] at this ⊢
      simp only [Bool.not_true, Bool.false_eq_true, if_false, ne_eq, not_true_eq_false] at this ⊢
      rw [if_pos h2, this]; simp

/-- Splitting at a character (parseDelimitedVectorList/ListList with a `char`) gives exactly the maximal pieces. -/
theorem C37_split_exact (c : Char) (s : Str) (ps : List Str) :
    splitChar c s = ps ↔ Pieces (fun x => x = c) s ps := by
  constructor
  · intro h
    obtain ⟨qs, h1, h2⟩ := splitLoop_pieces (fun x => decide (x = c)) s [] [] (by simp)
    unfold splitChar at h
    rw [h] at h1; simp at h1; subst h1; simpa using h2
  · intro h
    have := pieces_splitLoop h []
    simpa [splitChar] using this

example : splitChar ' ' "  a bc  d ".toList = ["a".toList, "bc".toList, "d".toList] := by decide

theorem strtokLoop_pieces (p : Char → Bool) (n : Nat) : ∀ s : Str, s.length < n → Pieces p s (strtokLoop p n s) := by
  induction n with
  | zero => intro s h; omega
  | succ n ih =>
    intro s hs
    simp only [strtokLoop]
    have hsplit : s = s.takeWhile p ++ s.dropWhile p := (List.takeWhile_append_dropWhile).symm
    split
    · rename_i h
      apply Pieces.none
      intro c hc
      rw [hsplit, h] at hc
      simp at hc
      exact mem_takeWhile_imp hc
    · rename_i h
      generalize ht : s.dropWhile p = t at h
      have hne : t.takeWhile (fun x => !p x) ≠ [] := by
        cases t with
        | nil => exact absurd rfl h
        | cons c t =>
          have : p c = false := by
            have := List.head?_dropWhile_not p s
            rw [ht] at this; simpa using this
          simp [this]
      have hpiece := fun ps hp => Pieces.piece (p := p) (s.takeWhile p) (t.takeWhile (fun x => !p x)) (t.dropWhile (fun x => !p x)) ps
        (fun c hc => mem_takeWhile_imp hc) hne (fun c hc => by simpa using mem_takeWhile_imp hc) (by
          have := List.head?_dropWhile_not (fun x => !p x) t
          cases hd : t.dropWhile (fun x => !p x) with
          | nil => exact Or.inl rfl
          | cons c r => rw [hd] at this; exact Or.inr ⟨c, r, rfl, by simpa using this⟩) hp
      have heq : s = s.takeWhile p ++ t.takeWhile (fun x => !p x) ++ t.dropWhile (fun x => !p x) := by
        rw [List.append_assoc, List.takeWhile_append_dropWhile, ← ht, List.takeWhile_append_dropWhile]
      conv => arg 2; rw [heq]
      apply hpiece
      have hlen : (t.dropWhile (fun x => !p x)).length < s.length := by
        have := congrArg List.length heq
        simp only [List.length_append] at this
        have : 0 < (t.takeWhile (fun x => !p x)).length := List.length_pos_iff.mpr hne
        omega
      cases hd : t.dropWhile (fun x => !p x) with
      | nil => exact ih _ (by simp; omega)
      | cons c r =>
        rw [hd] at hlen
        have hc : p c = true := by
          have := List.head?_dropWhile_not (fun x => !p x) t
          rw [hd] at this; simpa using this
        exact pieces_cons_delim hc (by simpa using ih r (by simp at hlen; omega))

/-- Splitting with `strtok` gives exactly the maximal pieces. -/
theorem C37_strtok_exact (delims : List Char) (s : Str) (ps : List Str) :
    strtokAll delims s = ps ↔ Pieces (fun x => delims.contains x) s ps := by
  have h := strtokLoop_pieces (fun x => delims.contains x) (s.length + 1) s (by omega)
  have hu := pieces_splitLoop h []
  constructor
  · intro h'; unfold strtokAll at h'; rw [h'] at h; exact h
  · intro h'
    have := pieces_splitLoop h' []
    rw [this, List.nil_append, List.nil_append] at hu
    exact hu.symm

example : strtokAll [' ', '\t'] " a\tb ".toList = ["a".toList, "b".toList] := by decide

/-! ## Stripping -/

theorem isSpaceC_iff (c : Char) : isSpaceC c = true ↔ White c := by
  simp [isSpaceC, White]; grind

theorem strip_iff (s r : Str) : stripWhiteSpace s = r ↔ Stripped s r := by
  have hex : Stripped s (stripWhiteSpace s) := by
    unfold stripWhiteSpace
    generalize hl : s.dropWhile isSpaceC = line
    have h1 : s = s.takeWhile isSpaceC ++ line := by rw [← hl]; exact List.takeWhile_append_dropWhile.symm
    have h2 : line = (line.reverse.dropWhile isSpaceC).reverse ++ (line.reverse.takeWhile isSpaceC).reverse := by
      rw [← List.reverse_append, List.takeWhile_append_dropWhile, List.reverse_reverse]
    refine ⟨s.takeWhile isSpaceC, (line.reverse.takeWhile isSpaceC).reverse, ?_, ?_, ?_, ?_, ?_⟩
    · rw [List.append_assoc, ← h2]; exact h1
    · intro c hc; exact (isSpaceC_iff c).mp (mem_takeWhile_imp hc)
    · intro c hc; exact (isSpaceC_iff c).mp (mem_takeWhile_imp (List.mem_reverse.mp hc))
    · intro c hc
      have hh : line.head? = some c := by
        rw [h2]
        cases hq : (line.reverse.dropWhile isSpaceC).reverse with
        | nil => rw [hq] at hc; simp at hc
        | cons x y => rw [hq] at hc; simpa using hc
      have := List.head?_dropWhile_not isSpaceC s
      rw [hl, hh] at this
      rw [← isSpaceC_iff]; simpa using this
    · intro c hc
      have := List.head?_dropWhile_not isSpaceC line.reverse
      rw [List.getLast?_reverse] at hc
      rw [hc] at this
      rw [← isSpaceC_iff]; simpa using this
  constructor
  · rintro rfl; exact hex
  · rintro ⟨l, t, rfl, hl, ht, hh, hlast⟩
    unfold stripWhiteSpace
    have hl' : ∀ c ∈ l, isSpaceC c = true := fun c hc => (isSpaceC_iff c).mpr (hl c hc)
    have ht' : ∀ c ∈ t, isSpaceC c = true := fun c hc => (isSpaceC_iff c).mpr (ht c hc)
    rw [List.append_assoc, List.dropWhile_append_of_pos hl']
    cases r with
    | nil =>
      simp only [List.nil_append]
      rw [show t.dropWhile isSpaceC = [] by
        rw [dropWhile_eq_nil_iff']; exact ht']
      rfl
    | cons x y =>
      have hx : isSpaceC x = false := by
        rw [Bool.eq_false_iff]; intro h; exact hh x rfl ((isSpaceC_iff x).mp h)
      have : (x :: y ++ t).dropWhile isSpaceC = x :: y ++ t := by simp [hx]
      simp only [this]
      rw [List.reverse_append, List.dropWhile_append_of_pos (by simpa using ht')]
      cases hr : (x :: y).reverse with
      | nil => simp at hr
      | cons a b =>
        have ha : isSpaceC a = false := by
          rw [Bool.eq_false_iff]; intro h
          apply hlast a _ ((isSpaceC_iff a).mp h)
          rw [← List.head?_reverse, hr]; rfl
        simp only [List.dropWhile_cons, ha, Bool.false_eq_true, if_false]
        rw [← hr]; simp

/-- Stripping removes exactly the leading and trailing white space: the result is the only string with that property. -/
theorem C37_strip_exact (s r : Str) : stripWhiteSpace s = r ↔ Stripped s r := strip_iff s r

example : stripWhiteSpace " \ta b \n".toList = "a b".toList := by decide

/-! ## Replacing -/

theorem cutFirst_none {pat s : Str} : cutFirst pat s = none ↔ ¬ pat <:+: s := by
  induction s with
  | nil => simp only [cutFirst]; split <;> simp_all
  | cons c cs ih =>
    simp only [cutFirst]
    split
    · rename_i h
      have := List.isPrefixOf_iff_prefix.mp h
      simp [this.isInfix]
    · rename_i h
      have h' : ¬ pat <+: (c :: cs) := by rw [← List.isPrefixOf_iff_prefix]; exact h
      rw [List.infix_cons_iff]
      split
      · rename_i he
        have : ¬ (cutFirst pat cs = none) := by rw [he]; simp
        rw [ih] at this; simp at this; simp [this]
      · rename_i he; simp [h', ih.mp he]

theorem replaceStep_none {old new s : Str} : replaceStep old new s = none ↔ ¬ old <:+: s := by
  rw [← cutFirst_none]
  unfold replaceStep; split <;> simp_all

/-- When `replaceAll` ends, no occurrence of the old string is left. -/
theorem C37_replaceAll_none_left (old new s r : Str) (n : Nat) (h : replaceAllN old new n s = some r) : ¬ old <:+: r := by
  induction n generalizing s with
  | zero =>
    simp only [replaceAllN] at h
    split at h
    · rename_i hn; simp at h; subst h; exact replaceStep_none.mp hn
    · simp at h
  | succ n ih =>
    simp only [replaceAllN] at h
    split at h
    · rename_i hn; simp at h; subst h; exact replaceStep_none.mp hn
    · exact ih _ h

/-- `replaceAll` ends whenever the new string is shorter than the old one. -/
theorem C37_replaceAll_terminates_shorter (old new s : Str) (h : new.length < old.length) :
    ∃ r, replaceAllN old new s.length s = some r := by
  have key : ∀ n (s : Str), s.length ≤ n → ∃ r, replaceAllN old new n s = some r := by
    intro n
    induction n with
    | zero =>
      intro s hs
      simp only [replaceAllN]
      split
      · exact ⟨_, rfl⟩
      · rename_i s' he
        have := replaceStep_length he; omega
    | succ n ih =>
      intro s hs
      simp only [replaceAllN]
      split
      · exact ⟨_, rfl⟩
      · rename_i s' he
        have := replaceStep_length he
        exact ih s' (by omega)
  exact key _ s (Nat.le_refl _)

theorem cutFirst_single {c : Char} {b a : Str} (h : c ∉ b) : cutFirst [c] (b ++ c :: a) = some (b, a) := by
  induction b with
  | nil => simp [cutFirst]
  | cons d b ih =>
    simp at h
    simp [cutFirst, h.1, ih h.2]

/-- Replacing a single character by a string without it (the only use in the code: `,` and `\` by a blank, pkgfile.cxx:118-119) ends
and replaces every occurrence and nothing else. -/
theorem C37_replaceAll_char (c : Char) (new s : Str) (h : c ∉ new) :
    ∃ n, replaceAllN [c] new n s = some (s.flatMap (fun x => if x = c then new else [x])) := by
  have key : ∀ (s pre : Str), c ∉ pre → ∃ n, replaceAllN [c] new n (pre ++ s) =
      some (pre ++ s.flatMap (fun x => if x = c then new else [x])) := by
    intro s
    induction s with
    | nil =>
      intro pre hp
      refine ⟨0, ?_⟩
      simp only [replaceAllN, List.append_nil, List.flatMap_nil]
      have : replaceStep [c] new pre = none := by
        rw [replaceStep_none]; intro hi
        exact hp (hi.subset (by simp))
      rw [this]
    | cons x s ih =>
      intro pre hp
      by_cases hx : x = c
      · subst hx
        obtain ⟨n, hn⟩ := ih (pre ++ new) (by simp [hp, h])
        refine ⟨n + 1, ?_⟩
        simp only [replaceAllN, replaceStep, cutFirst_single hp]
        rw [hn]; simp
      · obtain ⟨n, hn⟩ := ih (pre ++ [x]) (by simp [hp, Ne.symm hx])
        refine ⟨n, ?_⟩
        simp only [List.append_assoc, List.singleton_append] at hn
        rw [hn]; simp [hx]
  have := key s [] (by simp)
  simpa using this

example : replaceAllN [','] [' '] 5 "a,b,,c".toList = some "a b  c".toList := by decide

/-- The full claim (replaceAll always ends) is false: when the new string contains the old one and the old one occurs, the loop never ends. -/
theorem C37_replaceAll_diverges (old new s : Str) (h1 : old <:+: new) (h2 : old <:+: s) : ∀ n, replaceAllN old new n s = none := by
  have step : ∀ s : Str, old <:+: s → ∃ s', replaceStep old new s = some s' ∧ old <:+: s' := by
    intro s hs
    cases hr : replaceStep old new s with
    | none => exact absurd hs (replaceStep_none.mp hr)
    | some s' =>
      refine ⟨s', rfl, ?_⟩
      unfold replaceStep at hr
      split at hr
      · rename_i b a _
        simp at hr; subst hr
        exact h1.trans ⟨b, a, by simp⟩
      · simp at hr
  intro n
  induction n generalizing s with
  | zero => obtain ⟨s', h, _⟩ := step s h2; simp [replaceAllN, h]
  | succ n ih => obtain ⟨s', h, h'⟩ := step s h2; simp only [replaceAllN, h]; exact ih s' h'

example : "/".toList <:+: "//".toList ∧ "/".toList <:+: "a/b".toList := by
  refine ⟨⟨[], ['/'], by decide⟩, ⟨['a'], ['b'], by decide⟩⟩

/-! ## Keys and values -/

/-- A string with a delimiter is cut at the first one. -/
theorem C37_key_value (s : Str) (c : Char) :
    (c ∈ s → s = getValueBefore s c ++ c :: getValue s c) ∧ c ∉ getValueBefore s c ∧
    (c ∉ s → getValueBefore s c = s ∧ getValue s c = []) := by
  refine ⟨?_, ?_, ?_⟩
  · intro h
    unfold getValueBefore getValue
    have := (List.takeWhile_append_dropWhile (p := fun x => decide (x ≠ c)) (l := s))
    cases hd : s.dropWhile (fun x => decide (x ≠ c)) with
    | nil =>
      rw [dropWhile_eq_nil_iff'] at hd
      have := hd c h; simp at this
    | cons d r =>
      have hdc : d = c := by
        have := List.head?_dropWhile_not (fun x => decide (x ≠ c)) s
        rw [hd] at this; simpa using this
      rw [hd, hdc] at this
      simpa using this.symm
  · intro h
    have := mem_takeWhile_imp h
    simp at this
  · intro h
    unfold getValueBefore getValue
    have hall : ∀ x ∈ s, decide (x ≠ c) = true := by
      intro x hx; simp; rintro rfl; exact h hx
    constructor
    · have h2 := List.takeWhile_append_dropWhile (p := fun x => decide (x ≠ c)) (l := s)
      rw [dropWhile_eq_nil_iff'.mpr hall] at h2
      simpa using h2
    · rw [dropWhile_eq_nil_iff'.mpr hall]; rfl

/-- `splitKeyValue` of a text without the delimiter gives the text as the key, and no value. -/
theorem C37_splitKeyValue_none (s : Str) (c : Char) (h : c ∉ s) : splitKeyValue s c = (s, []) := by
  unfold splitKeyValue; rw [if_neg h]

example : splitKeyValue "dir".toList '|' = ("dir".toList, []) := C37_splitKeyValue_none _ _ (by decide)

/-- `splitKeyValue` of `key<delim>value` gives the stripped key and value. -/
theorem C37_splitKeyValue (k v : Str) (c : Char) (h : c ∉ k) :
    Stripped k (splitKeyValue (k ++ c :: v) c).1 ∧ Stripped v (splitKeyValue (k ++ c :: v) c).2 := by
  have hb : getValueBefore (k ++ c :: v) c = k := by
    unfold getValueBefore
    rw [List.takeWhile_append_of_pos (by intro x hx; simp; rintro rfl; exact h hx)]
    simp
  have hv : getValue (k ++ c :: v) c = v := by
    unfold getValue
    rw [List.dropWhile_append_of_pos (by intro x hx; simp; rintro rfl; exact h hx)]
    simp
  simp only [splitKeyValue, List.mem_append, List.mem_cons, true_or, or_true, if_true, hb, hv]
  exact ⟨(strip_iff _ _).mp rfl, (strip_iff _ _).mp rfl⟩

/-! ## C35 -/

theorem squeeze_step {s s' : Str} (h : replaceStep "//".toList "/".toList s = some s') : squeeze s' = squeeze s := by
  unfold replaceStep at h
  split at h
  · rename_i b a he
    have := cutFirst_eq he
    simp only [Option.some.injEq] at h
    subst h; subst this
    clear he
    induction b with
    | nil => simp [squeeze]
    | cons c b ih =>
      cases b with
      | nil => simp only [List.cons_append, List.nil_append] at ih ⊢; simp [squeeze]
      | cons d b =>
        simp only [List.cons_append] at ih ⊢
        simp only [squeeze, ih]
  · simp at h

theorem squeeze_of_none {s : Str} (h : ¬ "//".toList <:+: s) : squeeze s = s := by
  induction s with
  | nil => rfl
  | cons c r ih =>
    rw [List.infix_cons_iff] at h
    have h1 : ¬ "//".toList <+: c :: r := fun x => h (Or.inl x)
    have h2 : ¬ "//".toList <:+: r := fun x => h (Or.inr x)
    cases r with
    | nil => rfl
    | cons d r =>
      simp only [squeeze]
      rw [if_neg, ih h2]
      rintro ⟨rfl, rfl⟩
      exact h1 ⟨r, by simp⟩

theorem trim_unfold (s : Str) : trimFileName s =
    match replaceStep "//".toList "/".toList s with | none => s | some s' => trimFileName s' := by
  rw [trimFileName]
  split <;> simp_all

theorem trim_props (s : Str) : trimFileName s = squeeze s ∧ ¬ "//".toList <:+: trimFileName s := by
  suffices ∀ n (s : Str), s.length ≤ n → trimFileName s = squeeze s ∧ ¬ "//".toList <:+: trimFileName s from
    this s.length s (Nat.le_refl _)
  intro n
  induction n with
  | zero =>
    intro s hs
    have : s = [] := List.length_eq_zero_iff.mp (by omega)
    subst this
    rw [trim_unfold]
    simp [replaceStep, cutFirst, squeeze]
  | succ n ih =>
    intro s hs
    rw [trim_unfold]
    cases hr : replaceStep "//".toList "/".toList s with
    | none =>
      have := replaceStep_none.mp hr
      exact ⟨(squeeze_of_none this).symm, this⟩
    | some s' =>
      have hl := replaceStep_length hr
      simp at hl
      have := ih s' (by omega)
      simp only [← squeeze_step hr]
      exact this

/-- Path trimming terminates with every run of slashes reduced to one and nothing else changed. -/
theorem C35_trim_exact (s : Str) : trimFileName s = squeeze s := (trim_props s).1

/-- No double slash is left. -/
theorem C35_no_double_slash (s : Str) : ¬ "//".toList <:+: trimFileName s := (trim_props s).2

/-- Trimming twice is trimming once. -/
theorem C35_idempotent (s : Str) : trimFileName (trimFileName s) = trimFileName s := by
  rw [trim_unfold (trimFileName s), replaceStep_none.mpr (C35_no_double_slash s)]

theorem comps_squeeze (s : Str) : comps (squeeze s) = comps s ∧ (splitSlash (squeeze s)).head? = (splitSlash s).head? := by
  induction s with
  | nil => simp [squeeze]
  | cons c r ih =>
    cases r with
    | nil => simp [squeeze]
    | cons d r =>
      simp only [squeeze]
      split
      · rename_i h
        obtain ⟨rfl, rfl⟩ := h
        refine ⟨?_, ?_⟩
        · rw [ih.1]; simp [comps, splitSlash]
        · rw [ih.2]; simp [splitSlash]
      · rename_i h
        generalize hq : squeeze (d :: r) = q at ih
        generalize hp : d :: r = p at ih
        obtain ⟨i1, i2⟩ := ih
        by_cases hc : c = '/'
        · subst hc
          simp only [splitSlash, if_true]
          constructor
          · simp only [comps, splitSlash, if_true, ne_eq, not_true_eq_false, decide_false, Bool.false_eq_true,
              not_false_eq_true, List.filter_cons_of_neg]
            exact i1
          · rfl
        · cases h1 : splitSlash q with
          | nil => exact absurd h1 (splitSlash_ne_nil q)
          | cons a b =>
            cases h2 : splitSlash p with
            | nil => exact absurd h2 (splitSlash_ne_nil p)
            | cons a' b' =>
              rw [h1, h2] at i2
              simp at i2
              subst i2
              simp only [splitSlash, hc, if_false, h1, h2]
              refine ⟨?_, rfl⟩
              simp only [comps, splitSlash, hc, if_false, h1, h2]
              simp only [comps, h1, h2] at i1
              simp only [List.filter_cons] at i1 ⊢
              by_cases ha : a = []
              · simp [ha] at i1 ⊢; exact i1
              · simp [ha] at i1 ⊢; exact i1

/-- The trimmed path denotes the same file: it has the same components. -/
theorem C35_same_components (s : Str) : comps (trimFileName s) = comps s := by
  rw [C35_trim_exact]; exact (comps_squeeze s).1

example : trimFileName "//usr///lib/".toList = "/usr/lib/".toList := by
  rw [C35_trim_exact]; decide

/-! ## Letter case and the part before the last separator -/

/-- The pairs of letters that differ in case only. -/
def lowers : Str := "abcdefghijklmnopqrstuvwxyz".toList
def uppers : Str := "ABCDEFGHIJKLMNOPQRSTUVWXYZ".toList

theorem char_range {lo hi : Nat} (c : Char) (h1 : lo ≤ c.toNat) (h2 : c.toNat ≤ hi) : ∃ n, lo ≤ n ∧ n ≤ hi ∧ c = Char.ofNat n := by
  refine ⟨c.toNat, h1, h2, ?_⟩
  rw [Char.ofNat_toNat]

theorem char_le {a b : Char} : a ≤ b ↔ a.toNat ≤ b.toNat := by
  rw [Char.le_def]; exact UInt32.le_iff_toNat_le

/-- `toupper`: the letter with the same place in the other alphabet; any other character is kept. -/
theorem C37_upper (c : Char) : (c ∉ lowers → upperC c = c) ∧ ∀ k : Nat, lowers[k]? = some c → uppers[k]? = some (upperC c) := by
  constructor
  · intro h
    unfold upperC
    rw [if_neg]
    rintro ⟨h1, h2⟩
    obtain ⟨n, a, b, rfl⟩ := char_range c (char_le.mp h1) (char_le.mp h2)
    apply h
    have a : 97 ≤ n := a
    have b : n ≤ 122 := b
    clear h h1 h2
    have : ∀ m, 97 ≤ m → m ≤ 122 → Char.ofNat m ∈ lowers := by
      intro m ha hb
      have : m = 97 + (m - 97) := by omega
      rw [this]
      have hk : m - 97 < 26 := by omega
      generalize m - 97 = k at hk
      revert k; decide
    exact this n a b
  · intro k hk
    have hl : k < 26 := by
      rcases Nat.lt_or_ge k 26 with h | h
      · exact h
      · rw [List.getElem?_eq_none (by rw [show lowers.length = 26 by decide +kernel]; exact h)] at hk; exact absurd hk (by simp)
    have hd : ∀ k : Nat, k < 26 → uppers[k]? = (lowers[k]?).map upperC := by decide
    rw [hd k hl, hk]; rfl

/-- `tolower`, likewise. -/
theorem C37_lower (c : Char) : (c ∉ uppers → lowerC c = c) ∧ ∀ k : Nat, uppers[k]? = some c → lowers[k]? = some (lowerC c) := by
  constructor
  · intro h
    unfold lowerC
    rw [if_neg]
    rintro ⟨h1, h2⟩
    obtain ⟨n, a, b, rfl⟩ := char_range c (char_le.mp h1) (char_le.mp h2)
    apply h
    have a : 65 ≤ n := a
    have b : n ≤ 90 := b
    clear h h1 h2
    have : ∀ m, 65 ≤ m → m ≤ 90 → Char.ofNat m ∈ uppers := by
      intro m ha hb
      have : m = 65 + (m - 65) := by omega
      rw [this]
      have hk : m - 65 < 26 := by omega
      generalize m - 65 = k at hk
      revert k; decide
    exact this n a b
  · intro k hk
    have hl : k < 26 := by
      rcases Nat.lt_or_ge k 26 with h | h
      · exact h
      · rw [List.getElem?_eq_none (by rw [show uppers.length = 26 by decide +kernel]; exact h)] at hk; exact absurd hk (by simp)
    have hd : ∀ k : Nat, k < 26 → lowers[k]? = (uppers[k]?).map lowerC := by decide
    rw [hd k hl, hk]; rfl

/-- `convertToUpperCase` and `convertToLowerCase`: letter by letter, the length stays. -/
theorem C37_upperString (s : Str) : (convertToUpperCase s).length = s.length ∧
    ∀ i : Nat, (convertToUpperCase s)[i]? = (s[i]?).map (fun c => if c ∈ lowers then uppers[lowers.idxOf c]?.getD c else c) := by
  refine ⟨by simp [convertToUpperCase], fun i => ?_⟩
  unfold convertToUpperCase
  rw [List.getElem?_map]
  congr 1
  funext c
  by_cases h : c ∈ lowers
  · rw [if_pos h]
    have := (C37_upper c).2 (lowers.idxOf c) (by rw [List.getElem?_eq_getElem (List.idxOf_lt_length_iff.2 h), List.getElem_idxOf])
    rw [this]; rfl
  · rw [if_neg h]; exact (C37_upper c).1 h

theorem C37_lowerString (s : Str) : (convertToLowerCase s).length = s.length ∧
    ∀ i : Nat, (convertToLowerCase s)[i]? = (s[i]?).map (fun c => if c ∈ uppers then lowers[uppers.idxOf c]?.getD c else c) := by
  refine ⟨by simp [convertToLowerCase], fun i => ?_⟩
  unfold convertToLowerCase
  rw [List.getElem?_map]
  congr 1
  funext c
  by_cases h : c ∈ uppers
  · rw [if_pos h]
    have := (C37_lower c).2 (uppers.idxOf c) (by rw [List.getElem?_eq_getElem (List.idxOf_lt_length_iff.2 h), List.getElem_idxOf])
    rw [this]; rfl
  · rw [if_neg h]; exact (C37_lower c).1 h

example : convertToUpperCase "libX-1a".toList = "LIBX-1A".toList ∧ convertToLowerCase "libX-1A".toList = "libx-1a".toList := by decide

/-- `startsWithNoCase s p`: some beginning of `s` differs from `p` in letter case only. -/
theorem C37_startsWithNoCase (s p : Str) : startsWithNoCase s p = true ↔ ∃ q r, s = q ++ r ∧ q.map upperC = p.map upperC := by
  induction s generalizing p with
  | nil =>
    cases p with
    | nil => simp [startsWithNoCase]
    | cons b p => simp [startsWithNoCase]
  | cons a s ih =>
    cases p with
    | nil => simp only [startsWithNoCase, true_iff]; exact ⟨[], a :: s, rfl, rfl⟩
    | cons b p =>
      simp only [startsWithNoCase]
      by_cases hab : upperC a = upperC b
      · simp only [hab, ne_eq, not_true_eq_false, if_false, ih]
        constructor
        · rintro ⟨q, r, rfl, h⟩; exact ⟨a :: q, r, rfl, by simp [hab, h]⟩
        · rintro ⟨q, r, h, h'⟩
          cases q with
          | nil => simp at h'
          | cons x q =>
            simp only [List.cons_append, List.cons.injEq] at h
            simp only [List.map_cons, List.cons.injEq] at h'
            exact ⟨q, r, h.2, h'.2⟩
      · simp only [hab, ne_eq, not_false_eq_true, if_true, Bool.false_eq_true, false_iff]
        rintro ⟨q, r, h, h'⟩
        cases q with
        | nil => simp at h'
        | cons x q =>
          simp only [List.cons_append, List.cons.injEq] at h
          simp only [List.map_cons, List.cons.injEq] at h'
          rw [h.1] at hab
          exact hab h'.1

example : startsWithNoCase "Zlib-1.3".toList "zLIB".toList = true ∧ startsWithNoCase "zli".toList "zlib".toList = false := by decide
example : upperC 'z' = 'Z' ∧ upperC 'a' = 'A' ∧ upperC '{' = '{' ∧ lowerC 'Z' = 'z' ∧ lowerC '[' = '[' := by decide

theorem not_mem_takeWhile_ne (c : Char) (s : Str) : c ∉ s.takeWhile (fun x => decide (x ≠ c)) := by
  induction s with
  | nil => simp
  | cons a s ih =>
    rw [List.takeWhile_cons]
    split
    · rename_i h
      simp only [ne_eq, decide_eq_true_eq] at h
      intro hc
      rcases List.mem_cons.mp hc with e | hc
      · exact h e.symm
      · exact ih hc
    · simp

/-- The part before the last separator: what follows the separator has none; without separator it is everything. -/
theorem C37_beforeLast (s : Str) (c : Char) :
    (c ∈ s → ∃ r, s = getValueBeforeLast s c ++ c :: r ∧ c ∉ r) ∧ (c ∉ s → getValueBeforeLast s c = s) := by
  constructor
  · intro h
    unfold getValueBeforeLast
    rw [if_pos h]
    have hd := List.takeWhile_append_dropWhile (p := fun x => decide (x ≠ c)) (l := s.reverse)
    have hne : s.reverse.dropWhile (fun x => decide (x ≠ c)) ≠ [] := by
      intro he
      rw [he, List.append_nil] at hd
      exact not_mem_takeWhile_ne c s.reverse (by rw [hd]; simpa using h)
    obtain ⟨y, ys, hy⟩ := List.exists_cons_of_ne_nil hne
    have hyc : y = c := by
      have := List.head_dropWhile_not (p := fun x => decide (x ≠ c)) (l := s.reverse) hne
      simp only [hy, List.head_cons, decide_eq_false_iff_not, ne_eq] at this
      exact Classical.not_not.mp this
    refine ⟨(s.reverse.takeWhile (fun x => decide (x ≠ c))).reverse, ?_, ?_⟩
    · have : s = (s.reverse.takeWhile (fun x => decide (x ≠ c)) ++ s.reverse.dropWhile (fun x => decide (x ≠ c))).reverse := by
        rw [hd, List.reverse_reverse]
      conv => lhs; rw [this]
      rw [hy, hyc]
      simp
    · intro hc
      exact not_mem_takeWhile_ne c s.reverse (List.mem_reverse.mp hc)
  · intro h
    unfold getValueBeforeLast
    rw [if_neg h]

example : getValueBeforeLast "a/b/c".toList '/' = "a/b".toList := by decide

end Cards.Props
