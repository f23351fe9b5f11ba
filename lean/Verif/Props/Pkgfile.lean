import Verif.Model.Pkgfile
import Verif.Spec.Pkgfile
import Verif.Spec.Ports
import Verif.Props.Strings
import Mathlib.Tactic.Common
import Mathlib.Data.List.Induction
import Mathlib.Tactic.FinCases
import Verif.Props.Repo
/-!
# C48: reading Pkgfiles
-/
namespace Cards.Props
open Cards Cards.Spec

/-! ### Words -/

theorem pieces_append {p : Char → Bool} {a b : Str} {ps qs : List Str} {c : Char} (hc : p c = true) (h : Pieces p a ps) (h' : Pieces p b qs) :
    Pieces p (a ++ c :: b) (ps ++ qs) := by
  induction h with
  | none s hs =>
    clear * - hs h' hc
    induction s with
    | nil => exact pieces_cons_delim hc h'
    | cons x s ih => exact pieces_cons_delim (hs x (by simp)) (ih (fun c hc => hs c (by simp [hc])))
  | piece ds w rest ps h1 h2 h3 h4 h5 ih =>
    have := Pieces.piece ds w (rest ++ c :: b) (ps ++ qs) h1 h2 h3 (by
      rcases h4 with rfl | ⟨d, r, rfl, hd⟩
      · exact Or.inr ⟨c, b, rfl, hc⟩
      · exact Or.inr ⟨d, r ++ c :: b, rfl, hd⟩) ih
    simpa using this

/-- The words of a text separated by blanks. -/
def words (s : Str) : List Str := strtokAll [' '] s

theorem words_pieces (s : Str) : Pieces (fun x => [' '].contains x) s (words s) := (C37_strtok_exact [' '] s _).1 rfl

theorem words_snoc (a b : Str) : words (a ++ ' ' :: b) = words a ++ words b :=
  (C37_strtok_exact _ _ _).2 (pieces_append (by decide) (words_pieces a) (words_pieces b))

theorem words_nil : words [] = [] := rfl

theorem words_end (a : Str) : words (a ++ [' ']) = words a := by rw [words_snoc, words_nil, List.append_nil]

theorem cleanChar_sep (c : Char) : cleanChar c = ' ' ↔ nameSep c = true := by
  unfold cleanChar nameSep
  by_cases h : c = ',' ∨ c = '\\'
  · rw [if_pos h]; rcases h with h | h <;> simp [h]
  · rw [if_neg h]
    push Not at h
    simp [h.1, h.2]

theorem cleanChar_of_not (c : Char) (h : nameSep c = false) : cleanChar c = c := by
  unfold cleanChar
  rw [if_neg]
  rintro (rfl | rfl) <;> simp [nameSep] at h

theorem cleanChar_eq {c d : Char} (hd : d ≠ ' ') : cleanChar c = d ↔ c = d ∧ d ≠ ',' ∧ d ≠ '\\' := by
  unfold cleanChar
  by_cases h : c = ',' ∨ c = '\\'
  · rw [if_pos h]
    constructor
    · rintro rfl; exact absurd rfl hd
    · rintro ⟨rfl, h1, h2⟩; rcases h with h | h <;> contradiction
  · rw [if_neg h]
    push Not at h
    constructor
    · rintro rfl; exact ⟨rfl, h⟩
    · exact fun h => h.1

theorem pieces_clean {t : Str} {ps : List Str} (h : Pieces nameSep t ps) : Pieces (fun x => [' '].contains x) (t.map cleanChar) ps := by
  induction h with
  | none s hs =>
    apply Pieces.none
    intro c hc
    obtain ⟨d, hd, rfl⟩ := List.mem_map.1 hc
    simpa using (cleanChar_sep d).2 (hs d hd)
  | piece ds w rest ps h1 h2 h3 h4 h5 ih =>
    have hw : w.map cleanChar = w := by
      conv => rhs; rw [← List.map_id w]
      apply List.map_congr_left
      intro c hc
      exact cleanChar_of_not c (h3 c hc)
    rw [List.map_append, List.map_append, hw]
    refine Pieces.piece _ _ _ _ ?_ h2 ?_ ?_ ih
    · intro c hc
      obtain ⟨d, hd, rfl⟩ := List.mem_map.1 hc
      simpa using (cleanChar_sep d).2 (h1 d hd)
    · intro c hc
      have := h3 c hc
      simp only [List.contains_cons, List.contains_nil, Bool.or_false, beq_eq_false_iff_ne, ne_eq]
      rintro rfl
      simp [nameSep] at this
    · rcases h4 with rfl | ⟨c, r, rfl, hc⟩
      · exact Or.inl rfl
      · exact Or.inr ⟨_, _, rfl, by simpa using (cleanChar_sep c).2 hc⟩

theorem pieces_exists (p : Char → Bool) (s : Str) : ∃ ps, Pieces p s ps := ⟨_, strtokLoop_pieces p (s.length + 1) s (by omega)⟩

theorem pieces_unique {p : Char → Bool} {s : Str} {ps qs : List Str} (h : Pieces p s ps) (h' : Pieces p s qs) : ps = qs := by
  have h1 := pieces_splitLoop h []
  have h2 := pieces_splitLoop h' []
  rw [h1] at h2
  simpa using h2

/-- The names in a text: separated by blanks, commas and backslashes. -/
theorem mem_words_clean {t w : Str} : w ∈ words (t.map cleanChar) ↔ ∃ ps, Pieces nameSep t ps ∧ w ∈ ps := by
  constructor
  · intro h
    obtain ⟨ps, hp⟩ := pieces_exists nameSep t
    refine ⟨ps, hp, ?_⟩
    rw [pieces_unique (pieces_clean hp) (words_pieces _)]
    exact h
  · rintro ⟨ps, hp, hw⟩
    rw [pieces_unique (words_pieces _) (pieces_clean hp)]
    exact hw

/-! ### Lines -/

/-- One line already stripped. -/
def strippedLine (st : PkgState) (q : Str) : PkgState :=
  let line := q.map cleanChar
  if line.head? = some '#' then st
  else if "makedepends=(".toList.isPrefixOf line then openArray st (line.drop 13)
  else if "run=(".toList.isPrefixOf line then openArray st (line.drop 5)
  else
    let st := if "version=".toList.isPrefixOf line then { st with version := pkgValue line }
      else if "release=".toList.isPrefixOf line then { st with release := (atoi (pkgValue line) % 65536).toNat } else st
    if st.found then
      if ')' ∈ line then { st with s := st.s ++ line.takeWhile (fun c => c ≠ ')') ++ [' '], found := false }
      else { st with s := st.s ++ line ++ [' '] }
    else st

theorem fold_stripped (lines : List Str) (st : PkgState) : lines.foldl pkgLine st = (lines.map stripWhiteSpace).foldl strippedLine st := by
  rw [List.foldl_map]
  rfl

theorem isPrefixOf_clean (k q : Str) (h : ∀ c ∈ k, c ≠ ' ' ∧ c ≠ ',' ∧ c ≠ '\\') : k.isPrefixOf (q.map cleanChar) = k.isPrefixOf q := by
  induction k generalizing q with
  | nil => simp
  | cons c k ih =>
    cases q with
    | nil => rfl
    | cons d q =>
      simp only [List.map_cons, List.isPrefixOf]
      rw [ih q (fun x hx => h x (by simp [hx]))]
      congr 1
      obtain ⟨h1, h2, h3⟩ := h c (by simp)
      rw [Bool.eq_iff_iff]
      simp only [beq_iff_eq]
      constructor
      · intro e; exact ((cleanChar_eq h1).1 e.symm).1.symm
      · intro e; exact ((cleanChar_eq h1).2 ⟨e.symm, h2, h3⟩).symm

theorem kw1_clean (q : Str) : "makedepends=(".toList.isPrefixOf (q.map cleanChar) = "makedepends=(".toList.isPrefixOf q :=
  isPrefixOf_clean _ _ (by decide)
theorem kw2_clean (q : Str) : "run=(".toList.isPrefixOf (q.map cleanChar) = "run=(".toList.isPrefixOf q :=
  isPrefixOf_clean _ _ (by decide)

theorem head_clean (q : Str) : (q.map cleanChar).head? = some '#' ↔ q.head? = some '#' := by
  cases q with
  | nil => simp
  | cons c q =>
    simp only [List.map_cons, List.head?_cons, Option.some.injEq]
    rw [cleanChar_eq (by decide)]
    exact ⟨fun h => h.1, fun h => ⟨h, by decide, by decide⟩⟩

theorem paren_clean (q : Str) : ')' ∈ q.map cleanChar ↔ ')' ∈ q := by
  rw [List.mem_map]
  constructor
  · rintro ⟨c, hc, e⟩
    rw [cleanChar_eq (by decide)] at e
    exact e.1 ▸ hc
  · intro h
    exact ⟨')', h, by decide⟩

theorem startsArray_iff (q : Str) : StartsArray q ↔ "makedepends=(".toList.isPrefixOf q = true ∨ "run=(".toList.isPrefixOf q = true := by
  unfold StartsArray IsKeyword
  rw [List.isPrefixOf_iff_prefix, List.isPrefixOf_iff_prefix]
  constructor
  · rintro ⟨k, rfl | rfl, h⟩
    · exact Or.inl h
    · exact Or.inr h
  · rintro (h | h)
    · exact ⟨_, Or.inl rfl, h⟩
    · exact ⟨_, Or.inr rfl, h⟩

theorem strippedLine_comment {st : PkgState} {q : Str} (h : q.head? = some '#') : strippedLine st q = st := by
  unfold strippedLine
  simp only
  rw [if_pos ((head_clean q).2 h)]

/-- A line that begins no array: what it does to the dependencies. -/
theorem strippedLine_plain {st : PkgState} {q : Str} (hh : q.head? ≠ some '#') (hn : ¬ StartsArray q) :
    (strippedLine st q).found = (st.found && !(decide (')' ∈ q))) ∧
    (strippedLine st q).s = if st.found then st.s ++ (q.map cleanChar).takeWhile (fun c => c ≠ ')') ++ [' '] else st.s := by
  rw [startsArray_iff] at hn
  push Not at hn
  unfold strippedLine
  simp only
  rw [if_neg (by rw [head_clean]; exact hh), kw1_clean, kw2_clean, if_neg hn.1, if_neg hn.2]
  generalize hst : (if "version=".toList.isPrefixOf (q.map cleanChar) = true then { st with version := pkgValue (q.map cleanChar) }
      else if "release=".toList.isPrefixOf (q.map cleanChar) = true then
        { st with release := (atoi (pkgValue (q.map cleanChar)) % 65536).toNat } else st) = st2
  have e1 : st2.found = st.found := by rw [← hst]; split <;> [rfl; (split <;> rfl)]
  have e2 : st2.s = st.s := by rw [← hst]; split <;> [rfl; (split <;> rfl)]
  rw [e1, e2]
  by_cases hf : st.found = true
  · rw [if_pos hf]
    by_cases hp : ')' ∈ q
    · rw [if_pos ((paren_clean q).2 hp)]
      simp [hp, hf]
    · rw [if_neg (fun h => hp ((paren_clean q).1 h))]
      have htw : (q.map cleanChar).takeWhile (fun c => c ≠ ')') = q.map cleanChar := by
        have all : ∀ l : Str, ')' ∉ l → l.takeWhile (fun c => c ≠ ')') = l := by
          intro l
          induction l with
          | nil => intro _; rfl
          | cons c l ih =>
            intro hl
            simp only [List.mem_cons, not_or] at hl
            rw [List.takeWhile_cons, if_pos (by simp [Ne.symm hl.1]), ih hl.2]
        exact all _ (fun h => hp ((paren_clean q).1 h))
      rw [htw]
      simp [hp, hf]
  · rw [if_neg hf]
    simp [hf, e1, e2]

theorem strippedLine_kw {st : PkgState} {kw r : Str} (hk : IsKeyword kw) : strippedLine st (kw ++ r) = openArray st (r.map cleanChar) := by
  unfold strippedLine
  simp only
  have hh : ¬ ((kw ++ r).map cleanChar).head? = some '#' := by
    rw [head_clean]
    rcases hk with rfl | rfl <;> simp
  rw [if_neg hh]
  rcases hk with rfl | rfl
  · rw [kw1_clean, if_pos (by rw [List.isPrefixOf_iff_prefix]; exact List.prefix_append _ _), List.map_append]
    rfl
  · rw [kw1_clean, if_neg (by simp [List.isPrefixOf]), kw2_clean,
      if_pos (by rw [List.isPrefixOf_iff_prefix]; exact List.prefix_append _ _), List.map_append]
    rfl

/-- Between two parts: no array is open, and the text gathered ends with a blank. -/
structure BetweenParts (st : PkgState) : Prop where
  found : st.found = false
  paren : ')' ∉ st.s
  ended : st.s = [] ∨ ∃ r, st.s = r ++ [' ']

theorem words_ended {s : Str} (h : s = [] ∨ ∃ r, s = r ++ [' ']) (t : Str) : words (s ++ t) = words s ++ words t := by
  rcases h with rfl | ⟨r, rfl⟩
  · simp [words_nil]
  · rw [List.append_assoc, List.singleton_append, words_snoc, words_end]

theorem blankParen_first {a : Str} (h : ')' ∉ a) (b : Str) : blankParen (a ++ ')' :: b) = a ++ ' ' :: b := by
  induction a with
  | nil => simp [blankParen]
  | cons c a ih =>
    simp only [List.mem_cons, not_or] at h
    simp [blankParen, Ne.symm h.1, ih h.2]

theorem takeWhile_paren {a : Str} (h : ')' ∉ a) (b : Str) : (a ++ ')' :: b).takeWhile (fun c => c ≠ ')') = a := by
  induction a with
  | nil => simp
  | cons c a ih =>
    simp only [List.mem_cons, not_or] at h
    rw [List.cons_append, List.takeWhile_cons, if_pos (by simp [Ne.symm h.1]), ih h.2]

/-- One part. -/
theorem item_spec {st : PkgState} (hb : BetweenParts st) {i : PkgItem} (hi : i.Ok) :
    BetweenParts (i.lines.foldl strippedLine st) ∧
      words (i.lines.foldl strippedLine st).s = words st.s ++ i.texts.flatMap (fun t => words (t.map cleanChar)) := by
  cases i with
  | other t =>
    simp only [PkgItem.lines, List.foldl_cons, List.foldl_nil, PkgItem.texts, List.flatMap_nil, List.append_nil]
    by_cases hh : t.head? = some '#'
    · rw [strippedLine_comment hh]; exact ⟨hb, rfl⟩
    · obtain ⟨h1, h2⟩ := strippedLine_plain (st := st) hh hi
      rw [hb.found] at h1 h2
      simp only [Bool.false_and, Bool.false_eq_true, if_false] at h1 h2
      exact ⟨⟨h1, by rw [h2]; exact hb.paren, by rw [h2]; exact hb.ended⟩, by rw [h2]⟩
  | short kw body =>
    obtain ⟨hk, hp⟩ := hi
    simp only [PkgItem.lines, List.foldl_cons, List.foldl_nil, PkgItem.texts, List.flatMap_cons, List.flatMap_nil, List.append_nil]
    rw [List.append_assoc, strippedLine_kw hk, List.map_append]
    have hc : [')'].map cleanChar = [')'] := by decide
    rw [hc]
    have hp' : ')' ∉ st.s ++ body.map cleanChar := by
      rw [List.mem_append, paren_clean]
      rintro (h | h)
      · exact hb.paren h
      · exact hp h
    unfold openArray
    simp only
    rw [← List.append_assoc, if_pos (by simp), blankParen_first hp']
    refine ⟨⟨rfl, ?_, Or.inr ⟨_, rfl⟩⟩, ?_⟩
    · simp only [List.mem_append, List.mem_singleton] at hp' ⊢
      rintro (h | h)
      · exact hp' h
      · exact absurd h (by decide)
    · simp only
      rw [words_end, words_ended hb.ended]
  | long kw first mids last trail =>
    obtain ⟨hk, hf, hm, hl, hh, hns⟩ := hi
    simp only [PkgItem.lines, List.foldl_cons, PkgItem.texts, List.flatMap_cons]
    rw [strippedLine_kw hk]
    have hp' : ')' ∉ st.s ++ first.map cleanChar := by
      rw [List.mem_append, paren_clean]
      rintro (h | h)
      · exact hb.paren h
      · exact hf h
    have ho : openArray st (first.map cleanChar) = { st with s := (st.s ++ first.map cleanChar) ++ [' '], found := true } := by
      unfold openArray
      simp only
      rw [if_neg hp']
    rw [ho]
    -- the lines in the middle
    have mid : ∀ (ms : List Str) (s0 : PkgState), (∀ t ∈ ms, t.head? = some '#' ∨ Inner t) → s0.found = true → ')' ∉ s0.s →
        (∃ r, s0.s = r ++ [' ']) →
        (ms.foldl strippedLine s0).found = true ∧ ')' ∉ (ms.foldl strippedLine s0).s ∧ (∃ r, (ms.foldl strippedLine s0).s = r ++ [' ']) ∧
        words (ms.foldl strippedLine s0).s = words s0.s ++ (ms.filter (fun t => t.head? ≠ some '#')).flatMap (fun t => words (t.map cleanChar)) := by
      intro ms
      induction ms with
      | nil => intro s0 _ h1 h2 h3; exact ⟨h1, h2, h3, by simp⟩
      | cons t ms ih =>
        intro s0 hall h1 h2 h3
        simp only [List.foldl_cons]
        by_cases ht : t.head? = some '#'
        · rw [strippedLine_comment ht]
          have := ih s0 (fun x hx => hall x (by simp [hx])) h1 h2 h3
          rw [List.filter_cons, if_neg (by simp [ht])]
          exact this
        · obtain ⟨_, hp, hn⟩ := (hall t (by simp)).resolve_left ht
          obtain ⟨a1, a2⟩ := strippedLine_plain (st := s0) ht hn
          have htw : (t.map cleanChar).takeWhile (fun c => c ≠ ')') = t.map cleanChar := by
            have hq : ')' ∉ t.map cleanChar := fun h => hp ((paren_clean t).1 h)
            clear * - hq
            generalize t.map cleanChar = l at hq
            induction l with
            | nil => rfl
            | cons c l ih =>
              simp only [List.mem_cons, not_or] at hq
              rw [List.takeWhile_cons, if_pos (by simp [Ne.symm hq.1]), ih hq.2]
          rw [h1] at a1 a2
          simp only [if_true, htw] at a2
          simp only [hp, decide_false, Bool.not_false, Bool.and_true] at a1
          obtain ⟨b1, b2, b3, b4⟩ := ih (strippedLine s0 t) (fun x hx => hall x (by simp [hx])) a1 (by
            rw [a2]
            simp only [List.mem_append, List.mem_singleton, paren_clean]
            rintro ((h | h) | h)
            · exact h2 h
            · exact hp h
            · exact absurd h (by decide)) (by rw [a2]; exact ⟨_, rfl⟩)
          refine ⟨b1, b2, b3, ?_⟩
          rw [b4, a2, words_end, words_ended (Or.inr h3), List.filter_cons, if_pos (by simp [ht]), List.flatMap_cons, List.append_assoc]
    rw [List.foldl_append]
    obtain ⟨m1, m2, m3, m4⟩ := mid mids { st with s := (st.s ++ first.map cleanChar) ++ [' '], found := true } hm rfl (by
      simp only [List.mem_append, List.mem_singleton] at hp' ⊢
      rintro (h | h)
      · exact hp' h
      · exact absurd h (by decide)) ⟨_, rfl⟩
    generalize mids.foldl strippedLine { st with s := (st.s ++ first.map cleanChar) ++ [' '], found := true } = s1 at *
    simp only [List.foldl_cons, List.foldl_nil]
    obtain ⟨a1, a2⟩ := strippedLine_plain (st := s1) hh hns
    have hc : (last ++ ')' :: trail).map cleanChar = last.map cleanChar ++ ')' :: trail.map cleanChar := by
      rw [List.map_append, List.map_cons]; congr 1
    rw [m1, hc, takeWhile_paren (fun h => hl ((paren_clean last).1 h))] at a2
    rw [m1] at a1
    simp only [if_true] at a2
    refine ⟨⟨by rw [a1]; simp, ?_, Or.inr ⟨_, a2⟩⟩, ?_⟩
    · rw [a2]
      simp only [List.mem_append, List.mem_singleton, paren_clean]
      rintro ((h | h) | h)
      · exact m2 h
      · exact hl h
      · exact absurd h (by decide)
    · rw [a2, words_end, words_ended (Or.inr m3), m4]
      simp only
      rw [words_end, words_ended hb.ended, List.flatMap_append, List.flatMap_cons, List.flatMap_nil, List.append_nil]
      simp only [List.append_assoc]

theorem items_spec (items : List PkgItem) (st : PkgState) (hb : BetweenParts st) (hi : ∀ i ∈ items, i.Ok) :
    BetweenParts ((items.flatMap PkgItem.lines).foldl strippedLine st) ∧
      words ((items.flatMap PkgItem.lines).foldl strippedLine st).s =
        words st.s ++ items.flatMap (fun i => i.texts.flatMap (fun t => words (t.map cleanChar))) := by
  induction items generalizing st with
  | nil => simpa using hb
  | cons i items ih =>
    obtain ⟨h1, h2⟩ := item_spec hb (hi i (by simp))
    obtain ⟨h3, h4⟩ := ih _ h1 (fun x hx => hi x (by simp [hx]))
    rw [List.flatMap_cons, List.foldl_append, List.flatMap_cons]
    exact ⟨h3, by rw [h4, h2, List.append_assoc]⟩

theorem stripped_map {lines qs : List Str} (h : List.Forall₂ Stripped lines qs) : lines.map stripWhiteSpace = qs := by
  induction h with
  | nil => rfl
  | cons h _ ih => rw [List.map_cons, ih, (strip_iff _ _).2 h]

theorem mem_depSet (s w : Str) : w ∈ depSet s ↔ w ∈ words s := by
  unfold depSet words; exact mem_sofList

/-- **C48 (one Pkgfile).** The dependencies read from a Pkgfile are exactly the names in its `makedepends` and `run` arrays, and
no array is left open for the next Pkgfile. -/
theorem pkgfile_deps (lines : List Str) (items : List PkgItem) (h : Written lines items) (version : Str) (release : Nat) :
    let st := lines.foldl pkgLine ⟨false, [], version, release⟩
    st.found = false ∧ ∀ w, w ∈ depSet st.s ↔ Lists items w := by
  have hb : BetweenParts ⟨false, [], version, release⟩ := ⟨rfl, by simp, Or.inl rfl⟩
  obtain ⟨h1, h2⟩ := items_spec items _ hb h.1
  simp only
  rw [fold_stripped, stripped_map h.2]
  refine ⟨h1.found, fun w => ?_⟩
  rw [mem_depSet, h2, words_nil, List.nil_append, List.mem_flatMap]
  unfold Lists
  constructor
  · rintro ⟨i, hi, hw⟩
    obtain ⟨t, ht, hw⟩ := List.mem_flatMap.1 hw
    exact ⟨i, hi, t, ht, mem_words_clean.1 hw⟩
  · rintro ⟨i, hi, t, ht, hw⟩
    exact ⟨i, hi, List.mem_flatMap.2 ⟨t, ht, mem_words_clean.2 hw⟩⟩

/-! ### The scan -/

/-- A readable Pkgfile whose arrays are all closed. -/
def GoodEntry (e : PkgEntry) : Prop := ∃ lines items, e.lines = some lines ∧ Written lines items

theorem scan_snoc (junk : Nat) (es : List PkgEntry) (e : PkgEntry) : scanPorts junk (es ++ [e]) = scanOne (scanPorts junk es) e := by
  unfold scanPorts
  rw [List.foldl_append]
  rfl

/-- What one Pkgfile says, whatever the version left over from the one before. -/
def readPkgfile (v : Str) (lines : List Str) : PkgState := lines.foldl pkgLine ⟨false, [], v, 1⟩

/-- The port of one entry at its place in the scan. -/
def EntryPort (e : PkgEntry) (k : Nat) (p : Port) : Prop :=
  ∃ lines v, e.lines = some lines ∧ p = mkPort e.collection (readPkgfile v lines).version (readPkgfile v lines).release k (depSet (readPkgfile v lines).s)

theorem scan_inv (junk : Nat) (es : List PkgEntry) (h : ∀ e ∈ es, GoodEntry e) :
    (scanPorts junk es).found = false ∧ (scanPorts junk es).next = es.length ∧ MSorted (scanPorts junk es).ports ∧
    (∀ q ∈ (scanPorts junk es).ports, ∃ pre e post, es = pre ++ e :: post ∧ q.1 = e.name ∧ EntryPort e pre.length q.2) ∧
    (∀ pre e post, es = pre ++ e :: post → (∀ e' ∈ post, e'.name ≠ e.name) →
      ∃ p, mget (scanPorts junk es).ports e.name = some p ∧ EntryPort e pre.length p) := by
  induction es using List.reverseRecOn with
  | nil =>
    refine ⟨rfl, rfl, List.Pairwise.nil, ?_, ?_⟩
    · intro q hq; exact absurd hq (List.not_mem_nil)
    · intro pre e post he; simp at he
  | append_singleton es e ih =>
    obtain ⟨h1, h2, h3, h4, h5⟩ := ih (fun x hx => h x (by simp [hx]))
    obtain ⟨lines, items, hl, hw⟩ := h e (by simp)
    have hs : scanPorts junk (es ++ [e]) =
        { version := (readPkgfile (scanPorts junk es).version lines).version, deps := depSet (readPkgfile (scanPorts junk es).version lines).s,
          index := es.length, found := (readPkgfile (scanPorts junk es).version lines).found, next := es.length + 1,
          ports := mset e.name (mkPort e.collection (readPkgfile (scanPorts junk es).version lines).version
            (readPkgfile (scanPorts junk es).version lines).release es.length (depSet (readPkgfile (scanPorts junk es).version lines).s))
            (scanPorts junk es).ports } := by
      rw [scan_snoc]
      unfold scanOne
      rw [hl, h1, h2]
      rfl
    have hp := pkgfile_deps lines items hw (scanPorts junk es).version 1
    rw [hs]
    refine ⟨hp.1, by simp, msorted_mset h3, ?_, ?_⟩
    · intro q hq
      rcases (mem_mset_of_sorted h3).1 hq with rfl | ⟨hq, _⟩
      · exact ⟨es, e, [], rfl, rfl, lines, _, hl, rfl⟩
      · obtain ⟨pre, e', post, a, b, c⟩ := h4 q hq
        exact ⟨pre, e', post ++ [e], by rw [a]; simp, b, c⟩
    · intro pre e' post he hlast
      rcases List.eq_nil_or_concat post with rfl | ⟨post', x, rfl⟩
      · obtain ⟨rfl, hh⟩ := List.append_inj' he (by simp)
        simp only [List.cons.injEq, and_true] at hh
        subst hh
        refine ⟨_, ?_, lines, (scanPorts junk es).version, hl, rfl⟩
        simp only
        rw [mget_mset, if_pos rfl]
      · rw [List.concat_eq_append, ← List.cons_append, ← List.append_assoc] at he
        have he : es ++ [e] = (pre ++ e' :: post') ++ [x] := he
        obtain ⟨he2, hh⟩ := List.append_inj' he (by simp)
        simp only [List.cons.injEq, and_true] at hh
        subst hh
        obtain ⟨p, hp1, hp2⟩ := h5 pre e' post' he2 (fun y hy => hlast y (by simp [hy]))
        refine ⟨p, ?_, hp2⟩
        simp only
        rw [mget_mset, if_neg (hlast e (by simp)), hp1]

theorem last_of_name (es : List PkgEntry) (n : Str) (h : ∃ e ∈ es, e.name = n) :
    ∃ pre e post, es = pre ++ e :: post ∧ e.name = n ∧ ∀ e' ∈ post, e'.name ≠ n := by
  induction es with
  | nil => obtain ⟨e, he, _⟩ := h; simp at he
  | cons x es ih =>
    by_cases hx : ∃ e ∈ es, e.name = n
    · obtain ⟨pre, e, post, rfl, b, c⟩ := ih hx
      exact ⟨x :: pre, e, post, rfl, b, c⟩
    · obtain ⟨e, he, hn⟩ := h
      rcases List.mem_cons.1 he with rfl | he
      · exact ⟨[], e, es, rfl, hn, fun e' he' hn' => hx ⟨e', he', hn'⟩⟩
      · exact absurd ⟨e, he, hn⟩ hx

/-- **C48.** When every Pkgfile can be read and closes its arrays, the tree holds one port per name, the last one of that name in the
scan; its dependencies are exactly the names in the arrays of that Pkgfile, and the tree is the one C18-C21 start from. -/
theorem C48_scan_partial (junk : Nat) (es : List PkgEntry) (h : ∀ e ∈ es, GoodEntry e) :
    FreshPorts (scanPorts junk es).ports ∧
    (∀ n, n ∈ keys (scanPorts junk es).ports ↔ ∃ e ∈ es, e.name = n) ∧
    ∀ pre e post, es = pre ++ e :: post → (∀ e' ∈ post, e'.name ≠ e.name) →
      ∃ p, mget (scanPorts junk es).ports e.name = some p ∧ p.collection = e.collection ∧ p.index = pre.length ∧
        ∀ lines items, e.lines = some lines → Written lines items → ∀ w, w ∈ p.deps ↔ Lists items w := by
  obtain ⟨h1, h2, h3, h4, h5⟩ := scan_inv junk es h
  have entry : ∀ pre e post, es = pre ++ e :: post → (∀ e' ∈ post, e'.name ≠ e.name) →
      ∃ p, mget (scanPorts junk es).ports e.name = some p ∧ p.collection = e.collection ∧ p.index = pre.length ∧
        ∀ lines items, e.lines = some lines → Written lines items → ∀ w, w ∈ p.deps ↔ Lists items w := by
    intro pre e post he hl
    obtain ⟨p, hp, lines, v, hlines, rfl⟩ := h5 pre e post he hl
    refine ⟨_, hp, rfl, rfl, ?_⟩
    intro lines' items hl' hw
    rw [hlines] at hl'
    injection hl' with hl'
    subst hl'
    exact (pkgfile_deps lines items hw v 1).2
  have names : ∀ n, n ∈ keys (scanPorts junk es).ports ↔ ∃ e ∈ es, e.name = n := by
    intro n
    constructor
    · intro hn
      obtain ⟨q, hq, rfl⟩ := List.mem_map.1 hn
      obtain ⟨pre, e, post, a, b, _⟩ := h4 q hq
      exact ⟨e, by rw [a]; simp, b.symm⟩
    · intro hn
      obtain ⟨pre, e, post, a, rfl, c⟩ := last_of_name es n hn
      obtain ⟨p, hp, _⟩ := entry pre e post a c
      exact List.mem_map.2 ⟨_, (mget_iff_mem h3).1 hp, rfl⟩
  refine ⟨⟨h3, ?_, ?_, ?_, ?_⟩, names, entry⟩
  · have hk : (scanPorts junk es).ports.Pairwise (fun p q => p.1 < q.1) := List.pairwise_map.1 h3
    refine List.Pairwise.imp_of_mem ?_ hk
    intro p q hp hq hlt hidx
    obtain ⟨pre, e, post, a, b, _, _, _, c⟩ := h4 p hp
    obtain ⟨pre', e', post', a', b', _, _, _, c'⟩ := h4 q hq
    rw [c, c'] at hidx
    have hlen : pre.length = pre'.length := hidx
    rw [a] at a'
    obtain ⟨_, hh⟩ := List.append_inj a' hlen
    simp only [List.cons.injEq] at hh
    rw [b, b', hh.1] at hlt
    exact absurd hlt (str_lt_irrefl _)
  all_goals
    intro q hq
    obtain ⟨_, _, _, _, _, _, _, _, c⟩ := h4 q hq
    rw [c]
    rfl

/-! ### Version and release -/

theorem clean_value {v : Str} (h : ∀ c ∈ v, ¬ White c ∧ c ≠ ',' ∧ c ≠ '\\' ∧ c ≠ '#') : v.map cleanChar = v := by
  conv => rhs; rw [← List.map_id v]
  apply List.map_congr_left
  intro c hc
  obtain ⟨_, h2, h3, _⟩ := h c hc
  unfold cleanChar
  rw [if_neg (by rintro (h | h) <;> contradiction)]
  rfl

theorem strip_clean {v : Str} (h : ∀ c ∈ v, ¬ White c ∧ c ≠ ',' ∧ c ≠ '\\' ∧ c ≠ '#') : stripWhiteSpace v = v := by
  rw [strip_iff]
  refine ⟨[], [], by simp, by simp, by simp, ?_, ?_⟩
  · intro c hc; exact (h c (List.mem_of_mem_head? hc)).1
  · intro c hc; exact (h c (List.mem_of_mem_getLast? hc)).1

theorem before_clean {v : Str} (h : ∀ c ∈ v, ¬ White c ∧ c ≠ ',' ∧ c ≠ '\\' ∧ c ≠ '#') : getValueBefore v '#' = v := by
  unfold getValueBefore
  induction v with
  | nil => rfl
  | cons c v ih =>
    rw [List.takeWhile_cons, if_pos (by simpa using (h c (by simp)).2.2.2), ih (fun x hx => h x (by simp [hx]))]

theorem pkgValue_version {v : Str} (h : ∀ c ∈ v, ¬ White c ∧ c ≠ ',' ∧ c ≠ '\\' ∧ c ≠ '#') : pkgValue ("version=".toList ++ v) = v := by
  unfold pkgValue
  have : getValue ("version=".toList ++ v) '=' = v := by simp [getValue]
  rw [this, before_clean h, strip_clean h]

theorem pkgValue_release {v : Str} (h : ∀ c ∈ v, ¬ White c ∧ c ≠ ',' ∧ c ≠ '\\' ∧ c ≠ '#') : pkgValue ("release=".toList ++ v) = v := by
  unfold pkgValue
  have : getValue ("release=".toList ++ v) '=' = v := by simp [getValue]
  rw [this, before_clean h, strip_clean h]

theorem openArray_texts (st : PkgState) (r : Str) : (openArray st r).version = st.version ∧ (openArray st r).release = st.release := by
  unfold openArray
  simp only
  split <;> exact ⟨rfl, rfl⟩

theorem line_found_texts (st : PkgState) (q : Str) :
    (if st.found = true then
      if ')' ∈ q then { st with s := st.s ++ q.takeWhile (fun c => c ≠ ')') ++ [' '], found := false }
      else { st with s := st.s ++ q ++ [' '] }
    else st).version = st.version ∧
    (if st.found = true then
      if ')' ∈ q then { st with s := st.s ++ q.takeWhile (fun c => c ≠ ')') ++ [' '], found := false }
      else { st with s := st.s ++ q ++ [' '] }
    else st).release = st.release := by
  split
  · split <;> exact ⟨rfl, rfl⟩
  · exact ⟨rfl, rfl⟩

theorem version_clean (q : Str) : "version=".toList.isPrefixOf (q.map cleanChar) = "version=".toList.isPrefixOf q :=
  isPrefixOf_clean _ _ (by decide)
theorem release_clean (q : Str) : "release=".toList.isPrefixOf (q.map cleanChar) = "release=".toList.isPrefixOf q :=
  isPrefixOf_clean _ _ (by decide)

/-- A line that does not set the version leaves it. -/
theorem strippedLine_version {st : PkgState} {q : Str} (h : ¬ "version=".toList <+: q) : (strippedLine st q).version = st.version := by
  unfold strippedLine
  simp only
  split
  · rfl
  · split
    · exact (openArray_texts _ _).1
    · split
      · exact (openArray_texts _ _).1
      · refine (line_found_texts _ _).1.trans ?_
        rw [version_clean, if_neg (by rw [List.isPrefixOf_iff_prefix]; exact h)]
        split <;> rfl

theorem strippedLine_release {st : PkgState} {q : Str} (h : ¬ "release=".toList <+: q) : (strippedLine st q).release = st.release := by
  unfold strippedLine
  simp only
  split
  · rfl
  · split
    · exact (openArray_texts _ _).2
    · split
      · exact (openArray_texts _ _).2
      · refine (line_found_texts _ _).2.trans ?_
        split
        · rfl
        · rw [release_clean, if_neg (by rw [List.isPrefixOf_iff_prefix]; exact h)]

theorem fold_version {qs : List Str} {st : PkgState} (h : ∀ q ∈ qs, ¬ "version=".toList <+: q) : (qs.foldl strippedLine st).version = st.version := by
  induction qs generalizing st with
  | nil => rfl
  | cons q qs ih => rw [List.foldl_cons, ih (fun x hx => h x (by simp [hx])), strippedLine_version (h q (by simp))]

theorem fold_release {qs : List Str} {st : PkgState} (h : ∀ q ∈ qs, ¬ "release=".toList <+: q) : (qs.foldl strippedLine st).release = st.release := by
  induction qs generalizing st with
  | nil => rfl
  | cons q qs ih => rw [List.foldl_cons, ih (fun x hx => h x (by simp [hx])), strippedLine_release (h q (by simp))]

theorem line_sets_version (st : PkgState) {v : Str} (h : ∀ c ∈ v, ¬ White c ∧ c ≠ ',' ∧ c ≠ '\\' ∧ c ≠ '#') :
    (strippedLine st ("version=".toList ++ v)).version = v := by
  unfold strippedLine
  simp only
  have e : ("version=".toList ++ v).map cleanChar = "version=".toList ++ v := by
    rw [List.map_append, clean_value h]; rfl
  rw [e, if_neg (by simp), if_neg (by simp [List.isPrefixOf]), if_neg (by simp [List.isPrefixOf])]
  refine (line_found_texts _ _).1.trans ?_
  rw [if_pos (by rw [List.isPrefixOf_iff_prefix]; exact List.prefix_append _ _)]
  exact pkgValue_version h

theorem line_sets_release (st : PkgState) {v : Str} (h : ∀ c ∈ v, ¬ White c ∧ c ≠ ',' ∧ c ≠ '\\' ∧ c ≠ '#') :
    (strippedLine st ("release=".toList ++ v)).release = (atoi v % 65536).toNat := by
  unfold strippedLine
  simp only
  have e : ("release=".toList ++ v).map cleanChar = "release=".toList ++ v := by
    rw [List.map_append, clean_value h]; rfl
  rw [e, if_neg (by simp), if_neg (by simp [List.isPrefixOf]), if_neg (by simp [List.isPrefixOf])]
  refine (line_found_texts _ _).2.trans ?_
  rw [if_neg (by simp [List.isPrefixOf]), if_pos (by rw [List.isPrefixOf_iff_prefix]; exact List.prefix_append _ _)]
  simp only [pkgValue_release h]

/-- **C48, version.** The version of a port is what its last `version=` line says. -/
theorem C48_version (lines : List Str) (v : Str) (h : Sets lines "version=".toList v) (st : PkgState) :
    (lines.foldl pkgLine st).version = v := by
  obtain ⟨hv, pre, l, post, rfl, hl, hpost⟩ := h
  rw [List.foldl_append, List.foldl_cons, fold_stripped post, fold_version]
  · rw [show ∀ s, pkgLine s l = strippedLine s (stripWhiteSpace l) from fun _ => rfl, (strip_iff _ _).2 hl, line_sets_version _ hv]
  · intro q hq
    obtain ⟨x, hx, rfl⟩ := List.mem_map.1 hq
    exact hpost x hx _ ((strip_iff _ _).1 rfl)

/-- **C48, release.** The release of a port is the number of its last `release=` line, 1 without one. -/
theorem C48_release (lines : List Str) (n : Nat) (h : n < 65536) (hs : Sets lines "release=".toList (dec n)) (st : PkgState) :
    (lines.foldl pkgLine st).release = n := by
  obtain ⟨hv, pre, l, post, rfl, hl, hpost⟩ := hs
  rw [List.foldl_append, List.foldl_cons, fold_stripped post, fold_release]
  · rw [show ∀ s, pkgLine s l = strippedLine s (stripWhiteSpace l) from fun _ => rfl, (strip_iff _ _).2 hl, line_sets_release _ hv]
    unfold atoi
    rw [numText10_dec]
    simp only [Bool.false_eq_true, if_false]
    omega
  · intro q hq
    obtain ⟨x, hx, rfl⟩ := List.mem_map.1 hq
    exact hpost x hx _ ((strip_iff _ _).1 rfl)

theorem C48_release_default (lines : List Str) (hs : ∀ l ∈ lines, ∀ r, Stripped l r → ¬ "release=".toList <+: r) (found : Bool) (s v : Str) :
    (lines.foldl pkgLine ⟨found, s, v, 1⟩).release = 1 := by
  rw [fold_stripped, fold_release]
  intro q hq
  obtain ⟨x, hx, rfl⟩ := List.mem_map.1 hq
  exact hs x hx _ ((strip_iff _ _).1 rfl)

/-! ### A concrete tree, and what goes wrong -/

def pkgA : List Str := ["# a comment".toList, "version=1.2".toList, "release=3".toList, "run=(b, c)".toList, "makedepends=(d".toList,
  "# e".toList, "  f \\".toList, "g)".toList]
def pkgAItems : List PkgItem := [.other "# a comment".toList, .other "version=1.2".toList, .other "release=3".toList,
  .short "run=(".toList "b, c".toList, .long "makedepends=(".toList "d".toList ["# e".toList, "f \\".toList] "g".toList []]

example : depSet (readPkgfile [] pkgA).s = ["b".toList, "c".toList, "d".toList, "f".toList, "g".toList] := by decide +kernel
example : (readPkgfile [] pkgA).version = "1.2".toList ∧ (readPkgfile [] pkgA).release = 3 := by decide +kernel

theorem pkgA_written : Written pkgA pkgAItems := by
  constructor
  · intro i hi
    fin_cases hi <;> simp [PkgItem.Ok, IsKeyword, startsArray_iff, List.isPrefixOf, Inner]
  · have : pkgA.map stripWhiteSpace = pkgAItems.flatMap PkgItem.lines := by decide +kernel
    rw [← this]
    clear this
    induction pkgA with
    | nil => exact .nil
    | cons q l ih => exact .cons ((strip_iff _ _).1 rfl) ih

example : Sets pkgA "version=".toList "1.2".toList := by
  refine ⟨by unfold White; decide +kernel, pkgA.take 1, "version=1.2".toList, pkgA.drop 2, by decide +kernel, (strip_iff _ _).1 (by decide +kernel), ?_⟩
  intro l hl r hr
  rw [← (strip_iff _ _).2 hr, ← List.isPrefixOf_iff_prefix]
  clear hr
  revert l
  decide +kernel

/-- Two readable Pkgfiles: the hypothesis of `C48_scan_partial`. -/
example : ∀ e ∈ [⟨"/c".toList, "a".toList, some pkgA⟩, ⟨"/c".toList, "b".toList, some pkgA⟩], GoodEntry e := by
  intro e he
  fin_cases he <;> exact ⟨pkgA, pkgAItems, rfl, pkgA_written⟩

/-- **C48** is false when a comment follows an array on one line: its words become dependencies. -/
theorem C48_comment_counterexample :
    depSet (readPkgfile [] ["run=(a) # see note".toList]).s = ["#".toList, "a".toList, "note".toList, "see".toList] := by decide +kernel

/-- **C48** is false for names separated by tabulations: they are read as one name. -/
theorem C48_tab_counterexample : depSet (readPkgfile [] ["run=(a\tb)".toList]).s = ["a\tb".toList] := by decide +kernel

/-- **C48** is false for a comment at the end of a line of an array: it is read as names. -/
theorem C48_inner_comment_counterexample :
    depSet (readPkgfile [] ["run=(a # not b".toList, "c)".toList]).s = ["#".toList, "a".toList, "b".toList, "c".toList, "not".toList] := by
  decide +kernel

/-- **C48** is false after a Pkgfile with an open array: the lines of the next Pkgfile become its dependencies. -/
theorem C48_open_array_counterexample :
    (mget (scanPorts 0 [⟨"/c".toList, "a".toList, some ["run=(x".toList]⟩, ⟨"/c".toList, "b".toList, some ["name=b".toList, "build() {".toList]⟩]).ports
      "b".toList).map (·.deps) = some ["build(".toList, "name=b".toList] := by decide +kernel

/-- **C48** is false for a Pkgfile that sets no version: the port gets the version of the port read before. -/
theorem C48_version_counterexample :
    (mget (scanPorts 0 [⟨"/c".toList, "a".toList, some ["version=7".toList]⟩, ⟨"/c".toList, "b".toList, some ["name=b".toList]⟩]).ports
      "b".toList).map (·.version) = some "7".toList := by decide +kernel

/-- **C48** is false for a Pkgfile that cannot be read: the port gets the dependencies and the index of the port read before, and the
tree is not one C18-C21 speak about. -/
theorem C48_unreadable_counterexample :
    let T := (scanPorts 0 [⟨"/c".toList, "a".toList, some ["run=(x)".toList]⟩, ⟨"/c".toList, "b".toList, none⟩]).ports
    (mget T "b".toList).map (fun p => (p.deps, p.index)) = some (["x".toList], 0) ∧ ¬ FreshPorts T := by
  intro T
  have e : T = [("a".toList, mkPort "/c".toList [] 1 0 ["x".toList]), ("b".toList, mkPort "/c".toList [] 1 0 ["x".toList])] := by decide +kernel
  rw [e]
  constructor
  · decide +kernel
  · intro h
    have := h.distinct
    simp [mkPort] at this

end Cards.Props
