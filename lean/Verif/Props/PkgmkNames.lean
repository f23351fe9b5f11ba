import Mathlib.Tactic.Common
import Verif.Model.PkgmkNames
import Verif.Model.Repo
import Verif.Props.WebPkgs
import Verif.Props.Repo
/-!
# C95: the names of packages
-/
namespace Cards.Props
open Cards

/-! ## What is accepted -/

theorem dropWhile_nil {p : Char → Bool} : ∀ {l : Str}, l.dropWhile p = [] ↔ ∀ c ∈ l, p c = true := by
  intro l
  induction l with
  | nil => simp
  | cons x l ih =>
    by_cases h : p x = true
    · rw [List.dropWhile_cons_of_pos h, ih]
      simp [h]
    · rw [List.dropWhile_cons_of_neg h]
      simp [h]

theorem leftOver_nil {ok : Char → Bool} {s : Str} : leftOver ok s = [] ↔ ∀ c ∈ s, ok c = true ∨ c = '\n' := by
  unfold leftOver stripLf
  rw [List.reverse_eq_nil_iff]
  constructor
  · intro h c hc
    by_cases ho : ok c = true
    · exact Or.inl ho
    · refine Or.inr ?_
      have hm : c ∈ (s.filter (fun c => !ok c)).reverse := by
        rw [List.mem_reverse, List.mem_filter]
        exact ⟨hc, by simpa using ho⟩
      have := (dropWhile_nil.mp h) c hm
      simpa using this
  · intro h
    rw [dropWhile_nil]
    intro c hc
    rw [List.mem_reverse, List.mem_filter] at hc
    rcases h c hc.1 with ho | ho
    · rw [ho] at hc; cases hc.2
    · simpa using ho

/-- What a Pkgfile must look like to be accepted. -/
structure Accepted (v : PkgVars) : Prop where
  name : v.name ≠ [] ∧ v.name.length ≤ 50
  chars : ∀ c ∈ v.name, ('a' ≤ c ∧ c ≤ 'z') ∨ ('0' ≤ c ∧ c ≤ '9') ∨ c ∈ ['-', '_', '+', '[', ']', '\n']
  version : v.version ≠ []
  release : v.release ≠ [] ∧ ∀ c ∈ v.release, ('0' ≤ c ∧ c ≤ '9') ∨ c = '\n'
  limit : decValue v.release ≤ 99999999 ∨ 2 ^ 63 ≤ decValue v.release
  description : v.description ≠ [] ∧ v.description.length ≤ 255

theorem nameChar_iff {c : Char} : (nameChar c = true ∨ c = '\n') ↔ ('a' ≤ c ∧ c ≤ 'z') ∨ ('0' ≤ c ∧ c ≤ '9') ∨ c ∈ ['-', '_', '+', '[', ']', '\n'] := by
  unfold nameChar
  simp only [Bool.or_eq_true, Bool.and_eq_true, decide_eq_true_eq, List.mem_cons, List.not_mem_nil, or_false]
  tauto

/-- **C95**: exactly which Pkgfiles are accepted. -/
theorem C95_accepted_iff (v : PkgVars) : checkPkgfile v = true ↔ Accepted v := by
  unfold checkPkgfile gtMax
  simp only [Bool.and_eq_true, decide_eq_true_eq, leftOver_nil, Bool.not_eq_true', Bool.and_eq_false_iff, decide_eq_false_iff_not]
  have hd : ∀ c, digitChar c = true ↔ '0' ≤ c ∧ c ≤ '9' := by
    intro c
    unfold digitChar
    simp only [Bool.and_eq_true, decide_eq_true_eq]
  constructor
  · rintro ⟨⟨⟨⟨⟨⟨⟨⟨h1, h2⟩, h3⟩, h4⟩, h5⟩, h6⟩, h7⟩, h8⟩, h9⟩
    refine ⟨⟨h1, h3⟩, fun c hc => nameChar_iff.mp (h2 c hc), h4, ⟨h5, fun c hc => ?_⟩, ?_, ⟨h8, h9⟩⟩
    · rcases h6 c hc with h | h
      · exact Or.inl ((hd c).mp h)
      · exact Or.inr h
    · omega
  · rintro ⟨⟨h1, h3⟩, h2, h4, ⟨h5, h6⟩, h7, ⟨h8, h9⟩⟩
    refine ⟨⟨⟨⟨⟨⟨⟨⟨h1, fun c hc => nameChar_iff.mpr (h2 c hc)⟩, h3⟩, h4⟩, h5⟩, fun c hc => ?_⟩, ?_⟩, h8⟩, h9⟩
    · rcases h6 c hc with h | h
      · exact Or.inl ((hd c).mpr h)
      · exact Or.inr h
    · omega

/-- There is no point in an accepted name. -/
theorem C95_no_point {v : PkgVars} (h : checkPkgfile v = true) : '.' ∉ v.name := by
  intro hm
  have := ((C95_accepted_iff v).mp h).chars '.' hm
  revert this
  decide

example : checkPkgfile ⟨"gtk+3_x-y".toList, "1.0".toList, "12".toList, "a library".toList⟩ = true := by decide +kernel
example : checkPkgfile ⟨"Gtk".toList, "1.0".toList, "1".toList, "a library".toList⟩ = false := by decide +kernel
example : checkPkgfile ⟨"gtk".toList, "1.0".toList, "100000000".toList, "a library".toList⟩ = false := by decide +kernel

/-! ## The way back from the file name -/

/-- Sub-packages: no point in the name of the group, and it does not begin with `cards-`. -/
def SubOk (sub : Option Str) : Prop := ∀ g, sub = some g → '.' ∉ g ∧ ¬ "cards-".toList <+: g

/-- The name of the package of a port. -/
def fullName (name : Str) : Option Str → Str
  | none => name
  | some g => name ++ '.' :: g

theorem cutFirst_at {pat : Str} : ∀ (a b : Str), (∀ k < a.length, ¬ pat <+: (a ++ pat ++ b).drop k) → cutFirst pat (a ++ pat ++ b) = some (a, b) := by
  intro a
  induction a with
  | nil =>
    intro b _
    rw [List.nil_append]
    cases pat with
    | nil => cases b <;> simp [cutFirst]
    | cons p ps =>
      rw [List.cons_append, cutFirst, if_pos (by simp [List.isPrefixOf_iff_prefix])]
      simp
  | cons c a ih =>
    intro b h
    have h0 := h 0 (by simp)
    rw [List.drop_zero] at h0
    rw [List.cons_append, List.cons_append, cutFirst]
    rw [if_neg (fun hp => h0 (by rw [List.cons_append, List.cons_append]; exact List.isPrefixOf_iff_prefix.mp hp))]
    rw [ih b (fun k hk => by
      have := h (k + 1) (by simpa using hk)
      simpa using this)]

theorem noExt_before {a rest : Str} (h : '.' ∉ a) : ∀ k < a.length, ¬ cardsExt <+: (a ++ rest).drop k := by
  intro k hk hp
  have hc : (a ++ rest).drop k = a[k] :: (a ++ rest).drop (k + 1) := by
    rw [List.drop_eq_getElem_cons (by simp; omega), List.getElem_append_left hk]
  rw [hc] at hp
  obtain ⟨t, ht⟩ := hp
  have : '.' = a[k] := (List.cons.inj ht).1
  exact h (this ▸ List.getElem_mem hk)

theorem cards_not_both {g rest : Str} (h : ¬ "cards-".toList <+: g) : ¬ "cards-".toList <+: g ++ '.' :: rest := by
  intro hp
  rcases List.prefix_or_prefix_of_prefix hp (List.prefix_append g ('.' :: rest)) with h1 | h1
  · exact h h1
  · obtain ⟨t, ht⟩ := h1
    cases t with
    | nil => rw [List.append_nil] at ht; exact h (by rw [ht])
    | cons c t =>
      rw [← ht, List.prefix_append_right_inj] at hp
      obtain ⟨u, hu⟩ := hp
      have hc : c = '.' := (List.cons.inj hu).1
      have : '.' ∈ "cards-".toList := by rw [← ht, hc]; simp
      exact absurd this (by decide)

/-- **C95**: from the file of a package its name is found again … -/
theorem C95_name_back (name : Str) (sub : Option Str) (version release : Str) (hn : '.' ∉ name) (hs : SubOk sub) :
    getPackageName (pkgFileName name sub version release) = fullName name sub := by
  unfold getPackageName pkgFileName
  cases sub with
  | none =>
    show (match cutFirst cardsExt (name ++ cardsExt ++ version ++ '-' :: release) with | none => _ | some (b, _) => b) = name
    rw [List.append_assoc _ version, cutFirst_at name _ (fun k hk => by rw [List.append_assoc]; exact noExt_before hn k hk)]
  | some g =>
    obtain ⟨hg, hgc⟩ := hs g rfl
    show (match cutFirst cardsExt (name ++ '.' :: g ++ cardsExt ++ version ++ '-' :: release) with | none => _ | some (b, _) => b) = name ++ '.' :: g
    rw [List.append_assoc _ version, cutFirst_at (name ++ '.' :: g) _ ?_]
    intro k hk hp
    rw [List.append_assoc] at hp
    by_cases h1 : k < name.length
    · rw [List.append_assoc] at hp
      exact noExt_before hn k h1 hp
    · rw [List.append_assoc, List.drop_append, List.drop_eq_nil_of_le (by omega), List.nil_append] at hp
      generalize hj : k - name.length = j at hp
      have hjl : j < g.length + 1 := by simp at hk; omega
      cases j with
      | zero =>
        rw [List.drop_zero, List.cons_append] at hp
        have h6 : "cards-".toList <+: g ++ (cardsExt ++ (version ++ '-' :: release)) := by
          obtain ⟨t, ht⟩ := hp
          exact ⟨t, (List.cons.inj ht).2⟩
        exact cards_not_both hgc h6
      | succ j =>
        rw [List.cons_append, List.drop_succ_cons] at hp
        exact noExt_before hg j (by omega) hp

/-- … and from its name the group: of the main package, the whole name. -/
theorem C95_group_back (name : Str) (sub : Option Str) (hn : '.' ∉ name) (hs : SubOk sub) :
    cutSecond (fullName name sub) = (match sub with | none => name | some g => g) := by
  unfold cutSecond
  cases sub with
  | none =>
    rw [show fullName name none = name from rfl, cutFirst_none.mpr]
    rintro ⟨a, b, e⟩
    exact hn (by rw [← e]; simp)
  | some g =>
    obtain ⟨hg, _⟩ := hs g rfl
    rw [show fullName name (some g) = name ++ '.' :: g from rfl, show ".".toList = ['.'] from rfl, cutFirst_single hn]
    simp only
    rw [cutFirst_none.mpr]
    rintro ⟨a, b, e⟩
    exact hg (by rw [← e]; simp)

theorem fullName_inj {n n' : Str} {s s' : Option Str} (hn : '.' ∉ n) (hn' : '.' ∉ n') (h : fullName n s = fullName n' s') : n = n' ∧ s = s' := by
  have first : ∀ (a a' r r' : Str), '.' ∉ a → '.' ∉ a' → a ++ '.' :: r = a' ++ '.' :: r' → a = a' ∧ r = r' := by
    intro a a' r r' h1 h2 e
    have := cutFirst_single (a := r) h1
    rw [e, cutFirst_single h2] at this
    simp only [Option.some.injEq, Prod.mk.injEq] at this
    exact ⟨this.1.symm, this.2.symm⟩
  cases s with
  | none =>
    cases s' with
    | none => exact ⟨h, rfl⟩
    | some g => exact absurd (show '.' ∈ n by rw [show n = n' ++ '.' :: g from h]; simp) hn
  | some g =>
    cases s' with
    | none => exact absurd (show '.' ∈ n' by rw [show n' = n ++ '.' :: g from h.symm]; simp) hn'
    | some g' =>
      obtain ⟨h1, h2⟩ := first _ _ _ _ hn hn' h
      exact ⟨h1, by rw [h2]⟩

/-- **C95**: two packages — of the same port or of two — never have the same file, whatever their versions. -/
theorem C95_distinct (n n' : Str) (s s' : Option Str) (v r v' r' : Str) (hn : '.' ∉ n) (hn' : '.' ∉ n') (hs : SubOk s) (hs' : SubOk s')
    (h : pkgFileName n s v r = pkgFileName n' s' v' r') : n = n' ∧ s = s' := by
  have := congrArg getPackageName h
  rw [C95_name_back n s v r hn hs, C95_name_back n' s' v' r' hn' hs'] at this
  exact fullName_inj hn hn' this

/-! ## The packages of the port -/

theorem fnmatch_star {n : Nat} {p s : Str} : fnmatch (n + 1) ('*' :: p) s = true ↔ ∃ a b, s = a ++ b ∧ fnmatch n p b = true := by
  rw [fnmatch, List.any_eq_true]
  constructor
  · rintro ⟨k, _, h⟩
    exact ⟨s.take k, s.drop k, (List.take_append_drop k s).symm, h⟩
  · rintro ⟨a, b, rfl, h⟩
    exact ⟨a.length, by simp; omega, by simpa using h⟩

theorem fnmatch_lit {x : Char} (h1 : x ≠ '*') (h2 : x ≠ '[') {n : Nat} {p s : Str} :
    fnmatch (n + 1) (x :: p) s = true ↔ ∃ t, s = x :: t ∧ fnmatch n p t = true := by
  cases s with
  | nil =>
    rw [fnmatch]
    · simp
    · exact h1
    · exact h2
  | cons c s =>
    rw [fnmatch]
    · simp only [Bool.and_eq_true, decide_eq_true_eq, List.cons.injEq]
      constructor
      · rintro ⟨rfl, h⟩; exact ⟨s, ⟨rfl, rfl⟩, h⟩
      · rintro ⟨t, ⟨rfl, rfl⟩, h⟩; exact ⟨rfl, h⟩
    · exact h1
    · exact h2

theorem fnmatch_plain {x : Str} (hx : ∀ c ∈ x, c ≠ '*' ∧ c ≠ '[') {n : Nat} {p s : Str} :
    fnmatch (x.length + n) (x ++ p) s = true ↔ ∃ t, s = x ++ t ∧ fnmatch n p t = true := by
  induction x generalizing s with
  | nil => simp
  | cons c x ih =>
    rw [List.length_cons, show x.length + 1 + n = (x.length + n) + 1 by omega, List.cons_append, fnmatch_lit (hx c (by simp)).1 (hx c (by simp)).2]
    constructor
    · rintro ⟨t, rfl, h⟩
      obtain ⟨u, rfl, h'⟩ := (ih (fun d hd => hx d (by simp [hd]))).mp h
      exact ⟨u, rfl, h'⟩
    · rintro ⟨u, rfl, h⟩
      exact ⟨x ++ u, rfl, (ih (fun d hd => hx d (by simp [hd]))).mpr ⟨u, rfl, h⟩⟩

theorem fnmatch_any (s : Str) : fnmatch 1 "*".toList s = true := by
  rw [show (1 : Nat) = 0 + 1 from rfl, show "*".toList = '*' :: [] from rfl, fnmatch_star]
  exact ⟨s, [], by simp, by simp [fnmatch]⟩

theorem mem_packagesList {name f : Str} {dir : List Str} (h : ∀ c ∈ name, c ≠ '*' ∧ c ≠ '[') :
    f ∈ packagesList name dir ↔ f ∈ dir ∧ ∃ a b, f = name ++ '.' :: a ++ "cards-".toList ++ b := by
  unfold packagesList
  simp only
  rw [List.mem_filter, List.length_append, fnmatch_plain h]
  have e : ".*cards-*".toList = '.' :: '*' :: ("cards-".toList ++ "*".toList) := by decide
  rw [e, show ('.' :: '*' :: ("cards-".toList ++ "*".toList)).length = 7 + 1 + 1 by decide]
  constructor
  · rintro ⟨hd, t, rfl, h⟩
    rw [fnmatch_lit (by decide) (by decide)] at h
    obtain ⟨t, rfl, h⟩ := h
    rw [fnmatch_star] at h
    obtain ⟨a, b, rfl, h⟩ := h
    rw [show (7 : Nat) = "cards-".toList.length + 1 by decide, fnmatch_plain (by decide)] at h
    obtain ⟨u, rfl, _⟩ := h
    exact ⟨hd, a, u, by simp⟩
  · rintro ⟨hd, a, b, rfl⟩
    refine ⟨hd, '.' :: (a ++ ("cards-".toList ++ b)), by simp, ?_⟩
    rw [fnmatch_lit (by decide) (by decide)]
    refine ⟨_, rfl, ?_⟩
    rw [fnmatch_star]
    refine ⟨a, "cards-".toList ++ b, rfl, ?_⟩
    rw [show (7 : Nat) = "cards-".toList.length + 1 by decide, fnmatch_plain (by decide)]
    exact ⟨b, rfl, fnmatch_any b⟩

/-- What stands between the point after the name and `cards-`. -/
def subPart : Option Str → Str
  | none => []
  | some g => g ++ ['.']

/-- **C95**: what `pkgmk` removes, compresses and installs as the packages of the port are the packages of this port — of all versions — and no others. -/
theorem C95_only_own_partial (name : Str) (hn : '.' ∉ name) (hb : '[' ∉ name ∧ '*' ∉ name) (dir : List Str) (n : Str) (sub : Option Str) (v r : Str)
    (hn' : '.' ∉ n) (hm : pkgFileName n sub v r ∈ dir) : pkgFileName n sub v r ∈ packagesList name dir ↔ n = name := by
  rw [mem_packagesList (fun c hc => ⟨fun e => hb.2 (e ▸ hc), fun e => hb.1 (e ▸ hc)⟩)]
  have hf : pkgFileName n sub v r = n ++ '.' :: (subPart sub ++ "cards-".toList ++ (v ++ '-' :: r)) := by
    unfold pkgFileName cardsExt
    cases sub <;> simp [subPart]
  constructor
  · rintro ⟨_, a, b, e⟩
    have e : n ++ '.' :: (subPart sub ++ "cards-".toList ++ (v ++ '-' :: r)) = name ++ '.' :: (a ++ "cards-".toList ++ b) := by
      rw [← hf, e]
      simp
    have h1 := cutFirst_single (a := subPart sub ++ "cards-".toList ++ (v ++ '-' :: r)) hn'
    rw [e, cutFirst_single hn] at h1
    simp only [Option.some.injEq, Prod.mk.injEq] at h1
    exact h1.1.symm
  · rintro rfl
    exact ⟨hm, subPart sub, v ++ '-' :: r, by rw [hf]; simp⟩

example : packagesList "gtk".toList ["gtk.cards-4.0-1".toList, "gtk.devel.cards-4.0-1".toList, "gtk-doc.cards-1.0-1".toList, "gtk.footprint".toList] =
    ["gtk.cards-4.0-1".toList, "gtk.devel.cards-4.0-1".toList] := by decide +kernel

/-- An accepted name with brackets is taken for a pattern: `pkgmk -co` in a port of the name `[ab]` removes the packages of the port `a`. -/
theorem C95_counterexample_brackets : checkPkgfile ⟨"[ab]".toList, "1".toList, "1".toList, "x".toList⟩ = true ∧
    packagesList "[ab]".toList [pkgFileName "a".toList none "1".toList "1".toList, pkgFileName "[ab]".toList none "1".toList "1".toList] =
      [pkgFileName "a".toList none "1".toList "1".toList] := by decide +kernel

/-! ## The release -/

/-- **C95**: an accepted release below 65536 is the one `cards` reads. -/
theorem C95_release_back_partial (n : Nat) (h : n < 65536) (s : RepoSt) : (s.field ('r' :: dec n)).info.release = n := by
  unfold RepoSt.field
  simp only [List.head?_cons, List.drop_succ_cons, List.drop_zero]
  rw [if_neg (by decide), if_neg (by decide), if_pos trivial]
  simp only
  rw [stoi10_dec n (by omega)]
  simp only [Option.getD_some]
  omega

/-- Two accepted releases that `cards` cannot tell from each other: the second counts as older than release 2. -/
theorem C95_counterexample_release (s : RepoSt) : checkPkgfile ⟨"a".toList, "1".toList, "65537".toList, "x".toList⟩ = true ∧
    (s.field "r65537".toList).info.release = 1 ∧ (s.field "r1".toList).info.release = 1 ∧ (s.field "r2".toList).info.release = 2 := by
  have key : ∀ v : Str, (s.field ('r' :: v)).info.release = (((stoi10 v).getD 0) % 65536).toNat := by
    intro v
    unfold RepoSt.field
    simp only [List.head?_cons, List.drop_succ_cons, List.drop_zero]
    rw [if_neg (by decide), if_neg (by decide), if_pos trivial]
  refine ⟨by decide +kernel, ?_, ?_, ?_⟩
  · exact (key "65537".toList).trans (by decide +kernel)
  · exact (key "1".toList).trans (by decide +kernel)
  · exact (key "2".toList).trans (by decide +kernel)

/-- A release that does not fit 64 bits is accepted, and `cards` stops when it reads it. -/
theorem C95_counterexample_huge (s : RepoSt) (h : s.found = true) :
    checkPkgfile ⟨"a".toList, "1".toList, "9223372036854775808".toList, "x".toList⟩ = true ∧ s.line "r9223372036854775808".toList = none := by
  refine ⟨by decide +kernel, ?_⟩
  unfold RepoSt.line
  rw [if_neg (by decide), if_neg (by decide), if_pos h, if_pos]
  exact ⟨by decide +kernel, by decide +kernel⟩

end Cards.Props
