import Mathlib.Tactic.Common
import Verif.Props.WebReq
import Verif.Props.Repo
import Verif.Props.Report
/-!
# C89 (the search for packages on the site), C90 (the list of packages of the site)
-/
namespace Cards.Props
open Cards Cards.Spec

/-! ## C89 -/

/-- The rows of a page: the lines that begin with a cell. -/
def rowsOf (page : List Str) : List Str := page.filter (fun l => "<td>".toList.isPrefixOf l)

/-- `w` occurs in `s`, upper and lower case being the same. -/
def Contains (w s : Str) : Prop := convertToLowerCase w <:+: convertToLowerCase s

/-- The package belongs to the branch and the system asked for. -/
def InBranch (branch system : Str) (p : WebPkg) : Prop :=
  (branch = "all".toList ∨ branch = p.branch) ∧ (system = "all".toList ∨ system = p.system)

theorem td_row (date : Nat → Str) (p : WebPkg) : "<td>".toList.isPrefixOf (webRow date p) = true := by
  rw [List.isPrefixOf_iff_prefix]
  unfold webRow
  simp only [List.append_assoc]
  exact List.prefix_append ..

theorem td_lit : "<td>".toList = ['<', 't', 'd', '>'] := by decide

theorem noTd {l : Str} (h : l.head? ≠ some '<') : "<td>".toList.isPrefixOf l = false := by
  rw [td_lit]
  cases l with
  | nil => rfl
  | cons c cs =>
    have : ('<' == c) = false := by
      rw [beq_eq_false_iff_ne]
      intro e
      exact h (by rw [e]; rfl)
    simp [List.isPrefixOf, this]

theorem head_append_web {l : Str} {c : Char} (h : l.head? = some c) (r : Str) : (l ++ r).head? = some c := by
  rw [List.head?_append, h]
  rfl

theorem form_head (a : WebArgs) : ∀ l ∈ searchForm a, l.head? = some ' ' := by
  unfold searchForm
  simp only [List.forall_mem_cons]
  refine ⟨by decide, by decide, by decide, by decide, by decide, by decide, by decide, ?_, ?_, by decide, by decide, by decide, by decide, ?_,
    by decide, ?_, by decide, ?_, by decide, by decide, by decide, by decide, ?_, by decide, by decide, by decide, nofun⟩
  · split <;> decide
  · split <;> decide
  · split <;> decide
  · split <;> decide
  · split <;> decide
  · rw [List.append_assoc]
    exact head_append_web (by decide) _

theorem filter_none {l : List Str} (h : ∀ x ∈ l, "<td>".toList.isPrefixOf x = false) : rowsOf l = [] := by
  unfold rowsOf
  rw [List.filter_eq_nil_iff]
  intro x hx
  rw [h x hx]
  decide

theorem rowsOf_append (a b : List Str) : rowsOf (a ++ b) = rowsOf a ++ rowsOf b := List.filter_append ..

theorem rowsOf_lines (rows : List Str) (h : ∀ r ∈ rows, "<td>".toList.isPrefixOf r = true) (odd : Bool) : rowsOf (rowLines odd rows) = rows := by
  induction rows generalizing odd with
  | nil => rfl
  | cons r rs ih =>
    unfold rowLines
    have h1 : "<td>".toList.isPrefixOf (if odd = true then "<tr class=\"odd\">".toList else "<tr class=\"even\">".toList) = false := by
      cases odd <;> decide
    have h2 : "<td>".toList.isPrefixOf "</tr>".toList = false := by decide
    have h3 := h r (by simp)
    have := ih (fun x hx => h x (by simp [hx])) (!odd)
    unfold rowsOf at this ⊢
    rw [List.filter_cons_of_neg (by rw [h1]; decide), List.filter_cons_of_pos h3, List.filter_cons_of_neg (by rw [h2]; decide), this]

theorem count_head (n : Nat) : (countLine n).head? = some ' ' := by
  unfold countLine
  split
  · decide
  · split
    · rw [List.append_assoc]; exact head_append_web (by decide) _
    · rw [List.append_assoc]; exact head_append_web (by decide) _

theorem mem_webRows (date : Nat → Str) (a : WebArgs) (m : List (Str × WebPkg)) (l : Str) :
    l ∈ webRows date a m ↔ ∃ k p, (k, p) ∈ m ∧ webListed a (searchText a.pkgSearch) p = true ∧ webRow date p = l := by
  unfold webRows
  rw [mem_sofList]
  simp only [List.mem_map, List.mem_filter]
  constructor
  · rintro ⟨⟨k, p⟩, ⟨h1, h2⟩, h3⟩
    exact ⟨k, p, h1, h2, h3⟩
  · rintro ⟨k, p, h1, h2, h3⟩
    exact ⟨(k, p), ⟨h1, h2⟩, h3⟩

theorem rowsOf_package (date : Nat → Str) (a : WebArgs) (m : List (Str × WebPkg)) (h : searchText a.pkgSearch ≠ []) (now : Str) :
    rowsOf (lastUpdate now :: packageLines date a m) = webRows date a m := by
  have hr : ∀ r ∈ webRows date a m, "<td>".toList.isPrefixOf r = true := by
    intro r hr
    obtain ⟨_, p, _, _, rfl⟩ := (mem_webRows date a m r).mp hr
    exact td_row date p
  unfold packageLines
  simp only
  rw [if_pos h]
  generalize webRows date a m = rows at hr ⊢
  have e0 : lastUpdate now :: ("<h1>NuTyX Packages</h1>".toList :: countLine rows.length :: searchForm a ++
      ["<table>".toList, "  <tr class=\"header\">".toList,
       "  <td>SYSTEM</td><td>BRANCH</td><td>COLLECTION</td><td>NAME</td><td>VERSION</td><td>DESCRIPTION</td><td>UPDATE</td>".toList,
       "<tbody id=\"fbody\">".toList] ++ rowLines true rows ++ [" </tbody>".toList, " </table>".toList]) =
      [lastUpdate now, "<h1>NuTyX Packages</h1>".toList, countLine rows.length] ++ searchForm a ++
      ["<table>".toList, "  <tr class=\"header\">".toList,
       "  <td>SYSTEM</td><td>BRANCH</td><td>COLLECTION</td><td>NAME</td><td>VERSION</td><td>DESCRIPTION</td><td>UPDATE</td>".toList,
       "<tbody id=\"fbody\">".toList] ++ rowLines true rows ++ [" </tbody>".toList, " </table>".toList] := rfl
  rw [e0, rowsOf_append, rowsOf_append, rowsOf_append, rowsOf_append, rowsOf_lines rows hr]
  have n1 : rowsOf [lastUpdate now, "<h1>NuTyX Packages</h1>".toList, countLine rows.length] = [] := by
    refine filter_none ?_
    simp only [List.forall_mem_cons]
    refine ⟨noTd ?_, by decide, noTd (by rw [count_head]; decide), nofun⟩
    unfold lastUpdate
    rw [List.append_assoc, head_append_web (by decide : _ = some ' ')]
    decide
  have n2 : rowsOf (searchForm a) = [] := filter_none (fun l hl => noTd (by rw [form_head a l hl]; decide))
  have n3 : rowsOf ["<table>".toList, "  <tr class=\"header\">".toList,
       "  <td>SYSTEM</td><td>BRANCH</td><td>COLLECTION</td><td>NAME</td><td>VERSION</td><td>DESCRIPTION</td><td>UPDATE</td>".toList,
       "<tbody id=\"fbody\">".toList] = [] := by
    refine filter_none ?_
    simp only [List.forall_mem_cons]
    exact ⟨by decide, noTd (by decide +kernel), noTd (by decide +kernel), by decide, nofun⟩
  have n4 : rowsOf [" </tbody>".toList, " </table>".toList] = [] := by
    refine filter_none ?_
    simp only [List.forall_mem_cons]
    exact ⟨noTd (by decide), noTd (by decide), nofun⟩
  rw [n1, n2, n3, n4, List.append_nil, List.nil_append, List.nil_append, List.nil_append]

theorem firstPiece_ne {c : Char} {s : Str} (h : s ≠ []) : firstPiece c s ≠ [] := by
  unfold firstPiece
  cases hf : (strtokAll [c] s).find? (fun i => i ≠ []) with
  | none => exact h
  | some x => simpa using List.find?_some hf

theorem searchText_ne {s : Str} (h : s ≠ []) : searchText s ≠ [] := firstPiece_ne (firstPiece_ne h)

theorem firstPiece_plain {c : Char} {s : Str} (h : c ∉ s) : firstPiece c s = s := by
  by_cases hs : s = []
  · subst hs
    unfold firstPiece
    rfl
  · have hp : Pieces (fun x => [c].contains x) s [s] := by
      have := Pieces.piece (p := fun x => [c].contains x) [] s [] [] nofun hs
        (by intro x hx; simp; intro e; exact h (e ▸ hx)) (Or.inl rfl) (.none [] nofun)
      simpa using this
    unfold firstPiece
    rw [(C37_strtok_exact [c] s [s]).2 hp]
    simp [List.find?, hs]

theorem searchText_plain {s : Str} (h1 : '%' ∉ s) (h2 : '+' ∉ s) : searchText s = s := by
  unfold searchText
  rw [firstPiece_plain h1, firstPiece_plain h2]

theorem body_rows (site : Site) (q : Str) (h : 2 ≤ (webArgs q).pkgSearch.length) :
    rowsOf (webBody site q) = webRows site.date (webArgs q) site.packages := by
  have h0 : (webArgs q).pkgSearch ≠ [] := by
    intro e
    rw [e] at h
    exact absurd h (by decide)
  unfold webBody
  simp only
  rw [if_pos h0, if_neg (by omega)]
  exact rowsOf_package _ _ _ (searchText_ne h0) _

theorem isSome_infix {pat s : Str} : (cutFirst pat s).isSome = true ↔ pat <:+: s := by
  rw [← not_iff_not, ← cutFirst_none]
  cases cutFirst pat s <;> simp

theorem branch_no (a b x : Str) : (decide (a ≠ b) && decide (a ≠ x)) = true ↔ ¬ (a = x ∨ a = b) := by
  simp only [Bool.and_eq_true, decide_eq_true_eq]
  tauto

theorem branch_yes (a b x : Str) : (!(decide (a ≠ b) && decide (a ≠ x))) = true ↔ (a = x ∨ a = b) := by
  rw [Bool.not_eq_true', ← Bool.not_eq_true, branch_no, not_not]

/-- `w` is the first piece of `s` between characters `c`; `s` itself when there is none. -/
def FirstPiece (c : Char) (s w : Str) : Prop := ∃ ps, Pieces (fun x => [c].contains x) s ps ∧ w = ps.headD s

theorem pieces_ne {p : Char → Bool} {s : Str} {ps : List Str} (h : Pieces p s ps) : ∀ w ∈ ps, w ≠ [] := by
  induction h with
  | none s _ => nofun
  | piece ds w rest ps _ hw _ _ _ ih =>
    intro x hx
    rcases List.mem_cons.mp hx with rfl | hx
    · exact hw
    · exact ih x hx

theorem firstPiece_spec (c : Char) (s : Str) : FirstPiece c s (firstPiece c s) := by
  have h : Pieces (fun x => [c].contains x) s (strtokAll [c] s) := (C37_strtok_exact _ _ _).1 rfl
  refine ⟨_, h, ?_⟩
  unfold firstPiece
  have hn := pieces_ne h
  cases e : strtokAll [c] s with
  | nil => rfl
  | cons w ps =>
    rw [e] at hn
    simp [List.find?, hn w (by simp)]

/-- **C89, any text without blanks or other encoded characters.** The rows of the answer to a search for a package are those of the packages of the branch whose
name, collection or description contains the text; for packages whose name and collection have no capital letters. The rows are sorted and none is there twice. -/
theorem C89_packages_partial (site : Site) (q w : Str) (hw : Asks q "searchpkg=".toList w) (hl : 2 ≤ w.length) (h1 : '%' ∉ w) (h2 : '+' ∉ w)
    (ht : (webArgs q).type ≠ "col".toList)
    (hlow : ∀ k p, (k, p) ∈ site.packages → convertToLowerCase p.baseName = p.baseName ∧ convertToLowerCase p.collection = p.collection) :
    Sorted (rowsOf (webBody site q)) ∧
    ∀ l, l ∈ rowsOf (webBody site q) ↔ ∃ k p, (k, p) ∈ site.packages ∧ InBranch (webArgs q).branch (webArgs q).system p ∧
      (Contains w p.baseName ∨ Contains w p.collection ∨ Contains w p.description) ∧ l = webRow site.date p := by
  have hv := (C88_value q w).2.2.1 hw
  have hlen : 2 ≤ (webArgs q).pkgSearch.length := by rw [hv]; exact hl
  rw [body_rows site q hlen]
  refine ⟨sorted_sofList _, fun l => ?_⟩
  rw [mem_webRows, hv, searchText_plain h1 h2]
  have hne : w ≠ [] := by
    intro e
    rw [e] at hl
    exact absurd hl (by decide)
  have key : ∀ p : WebPkg, convertToLowerCase p.baseName = p.baseName → convertToLowerCase p.collection = p.collection →
      (webListed (webArgs q) w p = true ↔ InBranch (webArgs q).branch (webArgs q).system p ∧
        (Contains w p.baseName ∨ Contains w p.collection ∨ Contains w p.description)) := by
    intro p e1 e2
    unfold webListed InBranch Contains
    rw [if_neg ht, if_neg hne, e1, e2]
    split
    · rename_i hx
      have := (branch_no _ _ _).mp hx
      simp only [Bool.false_eq_true, false_iff]
      exact fun h => this h.1.1
    · rename_i hx
      have y1 : _ := not_not.mp (fun h => hx ((branch_no _ _ _).mpr h))
      split
      · rename_i hx
        have := (branch_no _ _ _).mp hx
        simp only [Bool.false_eq_true, false_iff]
        exact fun h => this h.1.2
      · rename_i hx
        have y2 : _ := not_not.mp (fun h => hx ((branch_no _ _ _).mpr h))
        simp only [Bool.or_eq_true, isSome_infix]
        constructor
        · rintro ((h | h) | h)
          · exact ⟨⟨y1, y2⟩, Or.inr (Or.inl h)⟩
          · exact ⟨⟨y1, y2⟩, Or.inl h⟩
          · exact ⟨⟨y1, y2⟩, Or.inr (Or.inr h)⟩
        · rintro ⟨-, h | h | h⟩
          · exact Or.inl (Or.inr h)
          · exact Or.inl (Or.inl h)
          · exact Or.inr h
  constructor
  · rintro ⟨k, p, hp, hL, hr⟩
    have := (key p (hlow k p hp).1 (hlow k p hp).2).mp hL
    exact ⟨k, p, hp, this.1, this.2, hr.symm⟩
  · rintro ⟨k, p, hp, hB, hC, hr⟩
    exact ⟨k, p, hp, (key p (hlow k p hp).1 (hlow k p hp).2).mpr ⟨hB, hC⟩, hr.symm⟩

/-- **C89, exactly, for every request and every list**: the text looked for is the first piece of the searched text between `%` and, of that, the first between
`+`; a row is shown for each package of the branch whose name or collection contains it in lower case, or whose description contains it in any case. -/
theorem C89_exact (site : Site) (q : Str) (hl : 2 ≤ (webArgs q).pkgSearch.length) :
    (∃ p1 p2, FirstPiece '%' (webArgs q).pkgSearch p1 ∧ FirstPiece '+' p1 p2 ∧
      ∀ l, l ∈ rowsOf (webBody site q) ↔ ∃ k p, (k, p) ∈ site.packages ∧ InBranch (webArgs q).branch (webArgs q).system p ∧ l = webRow site.date p ∧
        (if (webArgs q).type = "col".toList then p.collection = convertToLowerCase p2
         else convertToLowerCase p2 <:+: p.baseName ∨ convertToLowerCase p2 <:+: p.collection ∨ Contains p2 p.description)) ∧
    Sorted (rowsOf (webBody site q)) := by
  rw [body_rows site q hl]
  refine ⟨⟨_, _, firstPiece_spec _ _, firstPiece_spec _ _, fun l => ?_⟩, sorted_sofList _⟩
  rw [mem_webRows]
  have hne : searchText (webArgs q).pkgSearch ≠ [] := searchText_ne (by
    intro e
    rw [e] at hl
    exact absurd hl (by decide))
  change _ ↔ ∃ k p, (k, p) ∈ site.packages ∧ InBranch (webArgs q).branch (webArgs q).system p ∧ l = webRow site.date p ∧
        (if (webArgs q).type = "col".toList then p.collection = convertToLowerCase (searchText (webArgs q).pkgSearch)
         else convertToLowerCase (searchText (webArgs q).pkgSearch) <:+: p.baseName ∨ convertToLowerCase (searchText (webArgs q).pkgSearch) <:+: p.collection ∨
          Contains (searchText (webArgs q).pkgSearch) p.description)
  have key : ∀ p : WebPkg, webListed (webArgs q) (searchText (webArgs q).pkgSearch) p = true ↔ InBranch (webArgs q).branch (webArgs q).system p ∧
      (if (webArgs q).type = "col".toList then p.collection = convertToLowerCase (searchText (webArgs q).pkgSearch)
         else convertToLowerCase (searchText (webArgs q).pkgSearch) <:+: p.baseName ∨ convertToLowerCase (searchText (webArgs q).pkgSearch) <:+: p.collection ∨
          Contains (searchText (webArgs q).pkgSearch) p.description) := by
    intro p
    unfold webListed InBranch Contains
    by_cases ht : (webArgs q).type = "col".toList
    · rw [if_pos ht, if_pos ht]
      simp only [Bool.and_eq_true, branch_yes, decide_eq_true_eq]
      constructor
      · rintro ⟨⟨h1, h2⟩, h3⟩
        exact ⟨⟨h2, h3⟩, h1.symm⟩
      · rintro ⟨⟨h2, h3⟩, h1⟩
        exact ⟨⟨h1.symm, h2⟩, h3⟩
    · rw [if_neg ht, if_neg ht, if_neg hne]
      split
      · rename_i hx
        have := (branch_no _ _ _).mp hx
        simp only [Bool.false_eq_true, false_iff]
        exact fun h => this h.1.1
      · rename_i hx
        have y1 : _ := not_not.mp (fun h => hx ((branch_no _ _ _).mpr h))
        split
        · rename_i hx
          have := (branch_no _ _ _).mp hx
          simp only [Bool.false_eq_true, false_iff]
          exact fun h => this h.1.2
        · rename_i hx
          have y2 : _ := not_not.mp (fun h => hx ((branch_no _ _ _).mpr h))
          simp only [Bool.or_eq_true, isSome_infix]
          constructor
          · rintro ((h | h) | h)
            · exact ⟨⟨y1, y2⟩, Or.inr (Or.inl h)⟩
            · exact ⟨⟨y1, y2⟩, Or.inl h⟩
            · exact ⟨⟨y1, y2⟩, Or.inr (Or.inr h)⟩
          · rintro ⟨-, h | h | h⟩
            · exact Or.inl (Or.inr h)
            · exact Or.inl (Or.inl h)
            · exact Or.inr h
  constructor
  · rintro ⟨k, p, hp, hL, hr⟩
    have := (key p).mp hL
    exact ⟨k, p, hp, this.1, hr.symm, this.2⟩
  · rintro ⟨k, p, hp, hB, hr, hC⟩
    exact ⟨k, p, hp, (key p).mpr ⟨hB, hC⟩, hr.symm⟩

/-- A search for `c++` looks for `c`. -/
example : FirstPiece '+' "c++".toList "c".toList := firstPiece_spec '+' "c++".toList

/-- **C89.** A search for a collection shows the packages of the branch that are in it. -/
theorem C89_collection_partial (site : Site) (q w : Str) (hw : Asks q "searchpkg=".toList w) (hl : 2 ≤ w.length) (h1 : '%' ∉ w) (h2 : '+' ∉ w)
    (ht : (webArgs q).type = "col".toList) :
    ∀ l, l ∈ rowsOf (webBody site q) ↔ ∃ k p, (k, p) ∈ site.packages ∧ InBranch (webArgs q).branch (webArgs q).system p ∧
      p.collection = convertToLowerCase w ∧ l = webRow site.date p := by
  have hv := (C88_value q w).2.2.1 hw
  have hlen : 2 ≤ (webArgs q).pkgSearch.length := by rw [hv]; exact hl
  rw [body_rows site q hlen]
  intro l
  rw [mem_webRows, hv, searchText_plain h1 h2]
  have key : ∀ p : WebPkg, webListed (webArgs q) w p = true ↔ InBranch (webArgs q).branch (webArgs q).system p ∧ p.collection = convertToLowerCase w := by
    intro p
    unfold webListed InBranch
    rw [if_pos ht]
    simp only [Bool.and_eq_true, branch_yes, decide_eq_true_eq]
    constructor
    · rintro ⟨⟨h1, h2⟩, h3⟩
      exact ⟨⟨h2, h3⟩, h1.symm⟩
    · rintro ⟨⟨h2, h3⟩, h1⟩
      exact ⟨⟨h1.symm, h2⟩, h3⟩
  constructor
  · rintro ⟨k, p, hp, hL, hr⟩
    have := (key p).mp hL
    exact ⟨k, p, hp, this.1, this.2, hr.symm⟩
  · rintro ⟨k, p, hp, hB, hC, hr⟩
    exact ⟨k, p, hp, (key p).mpr ⟨hB, hC⟩, hr.symm⟩

/-- **C89.** The heading tells the number of rows. -/
theorem C89_count (site : Site) (q : Str) (h : 2 ≤ (webArgs q).pkgSearch.length) (hn : (rowsOf (webBody site q)).length < 2 ^ 32) :
    ∃ l, (webBody site q)[2]? = some l ∧
      ((rowsOf (webBody site q)).length = 0 → l = " <h2>no matching package found</h2>".toList) ∧
      ((rowsOf (webBody site q)).length = 1 → l = " <h2>1 package found</h2>".toList) ∧
      (2 ≤ (rowsOf (webBody site q)).length → l = " <h2>".toList ++ dec (rowsOf (webBody site q)).length ++ " packages founds</h2>".toList) := by
  have hb := body_rows site q h
  rw [hb] at hn ⊢
  have h0 : (webArgs q).pkgSearch ≠ [] := by
    intro e
    rw [e] at h
    exact absurd h (by decide)
  refine ⟨countLine (webRows site.date (webArgs q) site.packages).length, ?_, ?_, ?_, ?_⟩
  · unfold webBody
    simp only
    rw [if_pos h0, if_neg (by omega)]
    rfl
  · intro e
    rw [e]
    rfl
  · intro e
    rw [e]
    decide +kernel
  · intro e
    unfold countLine
    rw [if_neg (by omega), if_neg (by omega), itos, Nat.mod_eq_of_lt hn]

/-- **C89.** A row tells the package: system, branch, collection, name with the place of its port, version and release, description and date. -/
theorem C89_row (date : Nat → Str) (p : WebPkg) (hr : p.release < 65536) :
    ("<td>".toList ++ p.system ++ "</td>".toList) <+: webRow date p ∧
    ("/tree/".toList ++ p.branch ++ '/' :: p.collection ++ '/' :: p.baseName ++ "\">".toList ++ p.baseName ++ "</a></td>".toList) <:+: webRow date p ∧
    ("\">".toList ++ p.version ++ '-' :: dec p.release ++ "</a></td><td>".toList ++ p.description ++ "</td><td>".toList ++ date p.build ++ "</td>".toList) <:+
      webRow date p := by
  have e1 : "</a></td><td>".toList = "</a></td>".toList ++ "<td>".toList := by decide
  have e2 : "</td><td>".toList = "</td>".toList ++ "<td>".toList := by decide
  unfold webRow
  rw [e1, e2, itos_short hr]
  generalize "<td> <a href=\"https://github.com/NuTyX/".toList = A
  generalize "<td>".toList = B
  generalize "</td>".toList = C
  generalize "</a></td>".toList = D
  generalize "/tree/".toList = E
  generalize "/commits/".toList = F
  generalize "\">".toList = G
  refine ⟨?_, ⟨B ++ p.system ++ C ++ B ++ p.branch ++ C ++ B ++ p.collection ++ C ++ A ++ p.system, A ++ p.system ++ F ++ p.branch ++ '/' :: (p.collection ++ '/' :: p.baseName) ++ G ++ p.version ++ '-' :: dec p.release ++ D ++ B ++ p.description ++ C ++ B ++ date p.build ++ C, ?_⟩,
    ⟨B ++ p.system ++ C ++ B ++ p.branch ++ C ++ B ++ p.collection ++ C ++ A ++ p.system ++ E ++ p.branch ++ '/' :: (p.collection ++ '/' :: p.baseName) ++ G ++ p.baseName ++ D ++ A ++ p.system ++ F ++ p.branch ++ '/' :: (p.collection ++ '/' :: p.baseName), ?_⟩⟩
  · simp only [List.append_assoc, List.cons_append]
    rw [List.prefix_append_right_inj, List.prefix_append_right_inj]
    exact List.prefix_append ..
  · simp only [List.append_assoc, List.cons_append]
  · simp only [List.append_assoc, List.cons_append]

/-- A site with one package. -/
def xWeb (name : Str) : Site where
  french := false
  content := []
  packages := [("k".toList, ⟨"systemd".toList, "systemd".toList, "cli".toList, name, "9".toList, 1, "An editor".toList, 0⟩)]
  date := fun _ => []
  now := []

/-- The search for `EDIT` finds the editor by its description. -/
example : (rowsOf (webBody (xWeb "vim".toList) "searchpkg=EDIT".toList)).length = 1 := by decide +kernel

/-- **C89 fails** for names with capital letters: the name itself is not found, however it is written. -/
theorem C89_capital_counterexample :
    rowsOf (webBody (xWeb "GConf".toList) "searchpkg=GConf".toList) = [] ∧ rowsOf (webBody (xWeb "GConf".toList) "searchpkg=gconf".toList) = [] := by
  decide +kernel

/-- **C89 fails** for several words: only the first one is looked for, and an encoded character makes a word of its own. The search for `vim nox` finds `vim`; the
one for `-vim` with an encoded sign looks for `2Dvim`. -/
theorem C89_words_counterexample :
    (rowsOf (webBody (xWeb "vim".toList) "searchpkg=vim+nox".toList)).length = 1 ∧ searchText "%2Dvim".toList = "2Dvim".toList := by
  decide +kernel

/-! ## C90 -/

/-- The list has one line for this letter, and it says `v` (or several that say the same). -/
def Says1 (ls : List Str) (c : Char) (v : Str) : Prop := c :: v ∈ ls ∧ ∀ w, c :: w ∈ ls → w = v

/-- A package of a list: the lines of its record and what they say. -/
structure ListRec where
  lines : List Str
  name : Str
  version : Str
  release : Nat
  description : Str
  build : Nat

/-- The record is in order: it has the five fields the site shows. -/
def ListRec.Good (r : ListRec) : Prop :=
  (∀ l ∈ r.lines, l ≠ [] ∧ '\n' ∉ l) ∧ Says1 r.lines 'N' r.name ∧ Says1 r.lines 'V' r.version ∧ Says1 r.lines 'r' (dec r.release) ∧
  Says1 r.lines 'D' r.description ∧ Says1 r.lines 'B' (dec r.build) ∧ r.release < 65536 ∧ 0 < r.build ∧ r.build < 2 ^ 64

/-- A directory the site knows: `place/version/collection`, with its list. -/
structure ListDir where
  place : Str
  version : Str
  collection : Str
  recs : List ListRec

/-- The system and the branch of a version. -/
def BranchOf (version system branch : Str) : Prop :=
  (version = "systemd".toList ∧ system = "systemd".toList ∧ branch = "systemd".toList) ∨
  (version = "rolling".toList ∧ system = "sys-v".toList ∧ branch = "rolling".toList) ∨
  (version = "testingd".toList ∧ system = "systemd".toList ∧ branch = "testingd".toList) ∨
  (version = "testing".toList ∧ system = "sys-v".toList ∧ branch = "testing".toList)

/-- The text of a list: the lines of each record, each ended by a newline, and an empty line behind every record. -/
def ListDir.text (d : ListDir) : Str := ((d.recs.flatMap (fun r => r.lines ++ [[]])).map (fun l => l ++ ['\n'])).flatten

/-- As it is found on the disk. -/
def ListDir.coll (d : ListDir) : WebColl := ⟨d.place ++ '/' :: d.version, d.collection, some d.text⟩

/-- What the site should know of a package: the key under which it is stored and the record. -/
inductive Entry (d : ListDir) (r : ListRec) : Str → WebPkg → Prop
  | mk (system branch : Str) : BranchOf d.version system branch →
      Entry d r (system ++ ' ' :: branch ++ ' ' :: r.name) ⟨system, branch, d.collection, r.name, r.version, r.release, r.description, r.build⟩

theorem webLines_line (l : Str) (h : '\n' ∉ l) (rest : Str) : ∀ cur : Str, webLines cur (l ++ '\n' :: rest) = (webLines [] rest).map ((cur ++ l) :: ·) := by
  induction l with
  | nil =>
    intro cur
    rw [List.nil_append, webLines, if_pos rfl, List.append_nil]
  | cons c l ih =>
    intro cur
    simp only [List.mem_cons, not_or] at h
    rw [List.cons_append, webLines, if_neg (fun e => h.1 e.symm), ih h.2]
    simp

theorem webLines_text (ls : List Str) (h : ∀ l ∈ ls, '\n' ∉ l) : webLines [] ((ls.map (fun l => l ++ ['\n'])).flatten) = some ls := by
  induction ls with
  | nil => rfl
  | cons l ls ih =>
    rw [List.map_cons, List.flatten_cons, List.append_assoc, List.singleton_append, webLines_line l (h l (by simp)), ih (fun x hx => h x (by simp [hx]))]
    rfl

theorem block_fold (r : ListRec) (hr : r.release < 65536) (hb : 0 < r.build ∧ r.build < 2 ^ 64) (ls : List Str) :
    ∀ s : WebSt, (∀ l ∈ ls, l ≠ []) → (∀ w, 'N' :: w ∈ ls → w = r.name) → (∀ w, 'V' :: w ∈ ls → w = r.version) →
    (∀ w, 'r' :: w ∈ ls → w = dec r.release) → (∀ w, 'D' :: w ∈ ls → w = r.description) → (∀ w, 'B' :: w ∈ ls → w = dec r.build) →
    ∃ s', ls.foldlM WebSt.line s = some s' ∧ s'.map = s.map ∧ s'.version = s.version ∧
      (s'.info.system = s.info.system ∧ s'.info.branch = s.info.branch ∧ s'.info.collection = s.info.collection) ∧
      ('N' :: r.name ∈ ls ∨ (s.info.baseName = r.name ∧ s.name = s.info.system ++ ' ' :: s.info.branch ++ ' ' :: r.name) →
        s'.info.baseName = r.name ∧ s'.name = s.info.system ++ ' ' :: s.info.branch ++ ' ' :: r.name) ∧
      ('V' :: r.version ∈ ls ∨ s.info.version = r.version → s'.info.version = r.version) ∧
      ('r' :: dec r.release ∈ ls ∨ s.info.release = r.release → s'.info.release = r.release) ∧
      ('D' :: r.description ∈ ls ∨ s.info.description = r.description → s'.info.description = r.description) ∧
      ('B' :: dec r.build ∈ ls ∨ s.info.build = r.build → s'.info.build = r.build) := by
  induction ls with
  | nil =>
    intro s _ _ _ _ _ _
    refine ⟨s, rfl, rfl, rfl, ⟨rfl, rfl, rfl⟩, ?_, ?_, ?_, ?_, ?_⟩ <;> simp
  | cons l ls ih =>
    intro s hne hN hV hR hD hB
    obtain ⟨c, v, rfl⟩ : ∃ c v, l = c :: v := by
      cases l with
      | nil => exact absurd rfl (hne [] (by simp))
      | cons c v => exact ⟨c, v, rfl⟩
    have mem : ∀ {x : Str}, x ∈ ls → x ∈ (c :: v) :: ls := fun h => List.mem_cons_of_mem _ h
    have ih := fun s' => ih s' (fun l hl => hne l (mem hl)) (fun w h => hN w (mem h)) (fun w h => hV w (mem h)) (fun w h => hR w (mem h))
      (fun w h => hD w (mem h)) (fun w h => hB w (mem h))
    have step : ∃ s1, WebSt.line s (c :: v) = some s1 ∧ s1.map = s.map ∧ s1.version = s.version ∧
        (s1.info.system = s.info.system ∧ s1.info.branch = s.info.branch ∧ s1.info.collection = s.info.collection) ∧
        (c = 'N' ∨ (s.info.baseName = r.name ∧ s.name = s.info.system ++ ' ' :: s.info.branch ++ ' ' :: r.name) →
          s1.info.baseName = r.name ∧ s1.name = s.info.system ++ ' ' :: s.info.branch ++ ' ' :: r.name) ∧
        (c = 'V' ∨ s.info.version = r.version → s1.info.version = r.version) ∧
        (c = 'r' ∨ s.info.release = r.release → s1.info.release = r.release) ∧
        (c = 'D' ∨ s.info.description = r.description → s1.info.description = r.description) ∧
        (c = 'B' ∨ s.info.build = r.build → s1.info.build = r.build) := by
      show ∃ s1, WebSt.field s c v = some s1 ∧ _
      unfold WebSt.field
      by_cases c1 : c = 'N'
      · subst c1
        have e := hN v (by simp)
        subst e
        refine ⟨_, if_pos rfl, rfl, rfl, ⟨rfl, rfl, rfl⟩, fun _ => ⟨rfl, rfl⟩, ?_, ?_, ?_, ?_⟩ <;>
          (rintro (h | h); · cases h) <;> exact h
      · rw [if_neg c1]
        by_cases c2 : c = 'V'
        · subst c2
          have e := hV v (by simp)
          subst e
          refine ⟨_, if_pos rfl, rfl, rfl, ⟨rfl, rfl, rfl⟩, ?_, fun _ => rfl, ?_, ?_, ?_⟩ <;>
            (rintro (h | h); · cases h) <;> exact h
        · rw [if_neg c2]
          by_cases c3 : c = 'r'
          · subst c3
            have e := hR v (by simp)
            rw [if_pos rfl, e, stoi10_dec _ (by omega)]
            refine ⟨_, rfl, rfl, rfl, ⟨rfl, rfl, rfl⟩, ?_, ?_, fun _ => ?_, ?_, ?_⟩
            · rintro (h | h)
              · cases h
              · exact h
            · rintro (h | h)
              · cases h
              · exact h
            · show ((r.release : Int) % 65536).toNat = r.release
              omega
            · rintro (h | h)
              · cases h
              · exact h
            · rintro (h | h)
              · cases h
              · exact h
          · rw [if_neg c3]
            by_cases c4 : c = 'D'
            · subst c4
              have e := hD v (by simp)
              subst e
              refine ⟨_, if_pos rfl, rfl, rfl, ⟨rfl, rfl, rfl⟩, ?_, ?_, ?_, fun _ => rfl, ?_⟩ <;>
                (rintro (h | h); · cases h) <;> exact h
            · rw [if_neg c4]
              by_cases c5 : c = 'B'
              · subst c5
                have e := hB v (by simp)
                rw [if_pos rfl, e, strtoul0_dec _ hb.1 hb.2]
                refine ⟨_, rfl, rfl, rfl, ⟨rfl, rfl, rfl⟩, ?_, ?_, ?_, ?_, fun _ => rfl⟩ <;>
                  (rintro (h | h); · cases h) <;> exact h
              · rw [if_neg c5]
                refine ⟨s, rfl, rfl, rfl, ⟨rfl, rfl, rfl⟩, ?_, ?_, ?_, ?_, ?_⟩
                · rintro (h | h)
                  · exact absurd h c1
                  · exact h
                · rintro (h | h)
                  · exact absurd h c2
                  · exact h
                · rintro (h | h)
                  · exact absurd h c3
                  · exact h
                · rintro (h | h)
                  · exact absurd h c4
                  · exact h
                · rintro (h | h)
                  · exact absurd h c5
                  · exact h
    obtain ⟨s1, e1, a1, a2, ⟨a3, a4, a5⟩, b1, b2, b3, b4, b5⟩ := step
    obtain ⟨s', e2, p1, p2, ⟨p3, p4, p5⟩, q1, q2, q3, q4, q5⟩ := ih s1
    refine ⟨s', ?_, by rw [p1, a1], by rw [p2, a2], ⟨by rw [p3, a3], by rw [p4, a4], by rw [p5, a5]⟩, ?_, ?_, ?_, ?_, ?_⟩
    · rw [List.foldlM_cons, e1]
      exact e2
    · intro h
      rw [a3, a4] at q1
      apply q1
      rcases h with h | h
      · rcases List.mem_cons.mp h with h | h
        · exact Or.inr (b1 (Or.inl (List.cons.inj h).1.symm))
        · exact Or.inl h
      · exact Or.inr (b1 (Or.inr h))
    · intro h
      apply q2
      rcases h with h | h
      · rcases List.mem_cons.mp h with h | h
        · exact Or.inr (b2 (Or.inl (List.cons.inj h).1.symm))
        · exact Or.inl h
      · exact Or.inr (b2 (Or.inr h))
    · intro h
      apply q3
      rcases h with h | h
      · rcases List.mem_cons.mp h with h | h
        · exact Or.inr (b3 (Or.inl (List.cons.inj h).1.symm))
        · exact Or.inl h
      · exact Or.inr (b3 (Or.inr h))
    · intro h
      apply q4
      rcases h with h | h
      · rcases List.mem_cons.mp h with h | h
        · exact Or.inr (b4 (Or.inl (List.cons.inj h).1.symm))
        · exact Or.inl h
      · exact Or.inr (b4 (Or.inr h))
    · intro h
      apply q5
      rcases h with h | h
      · rcases List.mem_cons.mp h with h | h
        · exact Or.inr (b5 (Or.inl (List.cons.inj h).1.symm))
        · exact Or.inl h
      · exact Or.inr (b5 (Or.inr h))

/-- The record `entry` of a package in the directory. -/
def entryOf (system branch collection : Str) (r : ListRec) : Str × WebPkg :=
  (system ++ ' ' :: branch ++ ' ' :: r.name, ⟨system, branch, collection, r.name, r.version, r.release, r.description, r.build⟩)

theorem recs_fold (rs : List ListRec) (hg : ∀ r ∈ rs, r.Good) : ∀ s : WebSt, ∃ s',
    (rs.flatMap (fun r => r.lines ++ [[]])).foldlM WebSt.line s = some s' ∧
    s'.map = rs.foldl (fun m r => mset (entryOf s.info.system s.info.branch s.info.collection r).1 (entryOf s.info.system s.info.branch s.info.collection r).2 m) s.map := by
  induction rs with
  | nil => intro s; exact ⟨s, rfl, rfl⟩
  | cons r rs ih =>
    intro s
    obtain ⟨g0, gN, gV, gR, gD, gB, g1, g2, g3⟩ := hg r (by simp)
    obtain ⟨s1, e1, m1, -, ⟨s3, s4, s5⟩, q1, q2, q3, q4, q5⟩ := block_fold r g1 ⟨g2, g3⟩ r.lines s (fun l hl => (g0 l hl).1) gN.2 gV.2 gR.2 gD.2 gB.2
    have n := q1 (Or.inl gN.1)
    have v := q2 (Or.inl gV.1)
    have re := q3 (Or.inl gR.1)
    have d := q4 (Or.inl gD.1)
    have b := q5 (Or.inl gB.1)
    obtain ⟨s', e2, m2⟩ := ih (fun x hx => hg x (by simp [hx])) { s1 with map := mset s1.name s1.info s1.map }
    refine ⟨s', ?_, ?_⟩
    · rw [List.flatMap_cons, List.foldlM_append, List.foldlM_append, e1]
      exact e2
    · rw [m2, List.foldl_cons]
      simp only [s3, s4, s5]
      have hi : s1.info = (entryOf s.info.system s.info.branch s.info.collection r).2 := by
        obtain ⟨⟨i1, i2, i3, i4, i5, i6, i7, i8⟩, _, _, _⟩ := s1
        simp only at s3 s4 s5 n v re d b
        simp only [entryOf, s3, s4, s5, n.1, v, re, d, b]
      rw [hi, n.2, m1]
      rfl

theorem at_known (s : WebSt) (d : ListDir) (system branch : Str) (h : BranchOf d.version system branch) :
    (s.at d.coll).info.system = system ∧ (s.at d.coll).info.branch = branch ∧ (s.at d.coll).info.collection = d.collection ∧ (s.at d.coll).map = s.map := by
  have hv : '/' ∉ d.version := by
    rcases h with ⟨h, -⟩ | ⟨h, -⟩ | ⟨h, -⟩ | ⟨h, -⟩ <;> rw [h] <;> decide
  have hver : (s.at d.coll).version = stripWhiteSpace d.version := by
    unfold WebSt.at ListDir.coll
    simp only
    rw [if_pos (by simp)]
    have : (d.place ++ '/' :: d.version).reverse.takeWhile (fun x => decide (x ≠ '/')) = d.version.reverse := by
      rw [List.reverse_append, List.reverse_cons, List.append_assoc, List.singleton_append]
      rw [List.takeWhile_append_of_pos]
      · simp
      · intro x hx
        simp only [ne_eq, decide_not, Bool.not_eq_true', decide_eq_false_iff_not]
        intro e
        subst e
        exact hv (by simpa using hx)
    rw [this, List.reverse_reverse]
  have key : ∀ w : Str, (s.at d.coll).version = w → ((w = "systemd".toList → (s.at d.coll).info.system = "systemd".toList ∧ (s.at d.coll).info.branch = "systemd".toList) ∧
      (w = "rolling".toList → (s.at d.coll).info.system = "sys-v".toList ∧ (s.at d.coll).info.branch = "rolling".toList) ∧
      (w = "testingd".toList → (s.at d.coll).info.system = "systemd".toList ∧ (s.at d.coll).info.branch = "testingd".toList) ∧
      (w = "testing".toList → (s.at d.coll).info.system = "sys-v".toList ∧ (s.at d.coll).info.branch = "testing".toList)) := by
    intro w hw
    unfold WebSt.at at hw ⊢
    simp only at hw ⊢
    rw [hw]
    clear hw hver
    refine ⟨?_, ?_, ?_, ?_⟩ <;> rintro rfl <;> (constructor <;> rfl)
  refine ⟨?_, ?_, rfl, rfl⟩
  · rcases h with ⟨h1, h2, h3⟩ | ⟨h1, h2, h3⟩ | ⟨h1, h2, h3⟩ | ⟨h1, h2, h3⟩
    · rw [h2]; exact ((key _ hver).1 (by rw [h1]; decide)).1
    · rw [h2]; exact ((key _ hver).2.1 (by rw [h1]; decide)).1
    · rw [h2]; exact ((key _ hver).2.2.1 (by rw [h1]; decide)).1
    · rw [h2]; exact ((key _ hver).2.2.2 (by rw [h1]; decide)).1
  · rcases h with ⟨h1, h2, h3⟩ | ⟨h1, h2, h3⟩ | ⟨h1, h2, h3⟩ | ⟨h1, h2, h3⟩
    · rw [h3]; exact ((key _ hver).1 (by rw [h1]; decide)).2
    · rw [h3]; exact ((key _ hver).2.1 (by rw [h1]; decide)).2
    · rw [h3]; exact ((key _ hver).2.2.1 (by rw [h1]; decide)).2
    · rw [h3]; exact ((key _ hver).2.2.2 (by rw [h1]; decide)).2

theorem text_ne {d : ListDir} (h : d.recs ≠ []) : d.text ≠ [] := by
  unfold ListDir.text
  obtain ⟨r, rs, e⟩ := List.exists_cons_of_ne_nil h
  rw [e]
  simp

theorem entry_inv {d : ListDir} {r : ListRec} {k : Str} {p : WebPkg} {system branch : Str} (hb : BranchOf d.version system branch) (h : Entry d r k p) :
    (k, p) = entryOf system branch d.collection r := by
  obtain ⟨s', b', hb'⟩ := h
  have : s' = system ∧ b' = branch := by
    rcases hb with ⟨h1, h2, h3⟩ | ⟨h1, h2, h3⟩ | ⟨h1, h2, h3⟩ | ⟨h1, h2, h3⟩ <;>
    rcases hb' with ⟨h4, h5, h6⟩ | ⟨h4, h5, h6⟩ | ⟨h4, h5, h6⟩ | ⟨h4, h5, h6⟩ <;>
    first
    | exact ⟨h5.trans h2.symm, h6.trans h3.symm⟩
    | (rw [h1] at h4; exact absurd h4 (by decide))
  rw [this.1, this.2]
  rfl

/-- Storing entries one after the other: the last one of a key is found. -/
theorem mget_foldl_mset {α : Type} (es : List (Str × α)) : ∀ (m : List (Str × α)) (k : Str),
    mget (es.foldl (fun m e => mset e.1 e.2 m) m) k = ((es.reverse.find? (fun e => e.1 = k)).map (·.2)).or (mget m k) := by
  induction es with
  | nil => intro m k; simp
  | cons e es ih =>
    intro m k
    rw [List.foldl_cons, ih, List.reverse_cons, List.find?_append, mget_mset]
    cases h : es.reverse.find? (fun e => decide (e.1 = k)) with
    | some x => simp
    | none =>
      by_cases hk : e.1 = k
      · simp [hk]
      · simp [hk]

theorem dirs_fold (ds : List ListDir) : ∀ (s : WebSt), (∀ d ∈ ds, d.recs ≠ [] ∧ (∃ sy br, BranchOf d.version sy br) ∧ ∀ r ∈ d.recs, r.Good) →
    ∃ es : List (Str × WebPkg), webParse s (ds.map ListDir.coll) = .packages (es.foldl (fun m e => mset e.1 e.2 m) s.map) ∧
      List.Forall₂ (fun (x : ListDir × ListRec) e => Entry x.1 x.2 e.1 e.2) (ds.flatMap (fun d => d.recs.map (fun r => (d, r)))) es := by
  induction ds with
  | nil => intro s _; exact ⟨[], rfl, .nil⟩
  | cons d ds ih =>
    intro s h
    obtain ⟨hne, ⟨sy, br, hb⟩, hg⟩ := h d (by simp)
    obtain ⟨a1, a2, a3, a4⟩ := at_known s d sy br hb
    obtain ⟨s', e1, m1⟩ := recs_fold d.recs hg (s.at d.coll)
    obtain ⟨es, e2, hf⟩ := ih s' (fun x hx => h x (by simp [hx]))
    refine ⟨d.recs.map (entryOf sy br d.collection) ++ es, ?_, ?_⟩
    · rw [List.map_cons, webParse]
      have ht : d.coll.repo = some d.text := rfl
      have htn := text_ne hne
      obtain ⟨c, cs, hc⟩ := List.exists_cons_of_ne_nil htn
      have hl : webLines [] d.text = some (d.recs.flatMap (fun r => r.lines ++ [[]])) := by
        apply webLines_text
        intro l hl
        rw [List.mem_flatMap] at hl
        obtain ⟨r, hr, hl⟩ := hl
        rcases List.mem_append.mp hl with hl | hl
        · exact ((hg r hr).1 l hl).2
        · rw [List.mem_singleton] at hl
          rw [hl]
          exact List.not_mem_nil
      rw [hc] at ht hl
      rw [ht]
      simp only [hl, e1]
      rw [e2, m1, a1, a2, a3, a4, List.foldl_append, List.foldl_map]
    · rw [List.flatMap_cons]
      refine List.rel_append ?_ hf
      rw [List.forall₂_map_left_iff, List.forall₂_map_right_iff, List.forall₂_same]
      intro r _
      exact .mk sy br hb

theorem key_inj {v v' sy br sy' br' n n' : Str} (h : BranchOf v sy br) (h' : BranchOf v' sy' br')
    (e : sy ++ ' ' :: br ++ ' ' :: n = sy' ++ ' ' :: br' ++ ' ' :: n') : v = v' ∧ n = n' := by
  have cut : ∀ {a b : Str} {x y : Str}, ' ' ∉ a → ' ' ∉ b → a ++ ' ' :: x = b ++ ' ' :: y → a = b ∧ x = y := by
    intro a
    induction a with
    | nil =>
      intro b x y _ hb e
      cases b with
      | nil => exact ⟨rfl, (List.cons.inj e).2⟩
      | cons c b => exact absurd (List.cons.inj e).1 (fun h => hb (by simp [← h]))
    | cons c a ih =>
      intro b x y ha hb e
      cases b with
      | nil => exact absurd (List.cons.inj e).1 (fun h => ha (by simp [h]))
      | cons d b =>
        obtain ⟨e1, e2⟩ := List.cons.inj e
        obtain ⟨e3, e4⟩ := ih (fun h => ha (by simp [h])) (fun h => hb (by simp [h])) e2
        exact ⟨by rw [e1, e3], e4⟩
  have nb : ∀ {v sy br : Str}, BranchOf v sy br → ' ' ∉ sy ∧ ' ' ∉ br := by
    intro v sy br h
    rcases h with ⟨-, h2, h3⟩ | ⟨-, h2, h3⟩ | ⟨-, h2, h3⟩ | ⟨-, h2, h3⟩ <;> rw [h2, h3] <;> decide
  simp only [List.append_assoc, List.cons_append] at e
  obtain ⟨e1, e2⟩ := cut (nb h).1 (nb h').1 e
  obtain ⟨e3, e4⟩ := cut (nb h).2 (nb h').2 e2
  refine ⟨?_, e4⟩
  rcases h with ⟨h1, h2, h3⟩ | ⟨h1, h2, h3⟩ | ⟨h1, h2, h3⟩ | ⟨h1, h2, h3⟩ <;>
  rcases h' with ⟨h4, h5, h6⟩ | ⟨h4, h5, h6⟩ | ⟨h4, h5, h6⟩ | ⟨h4, h5, h6⟩ <;>
  first
  | (rw [h3, h6] at e3; exact absurd e3 (by decide))
  | exact h1.trans h4.symm

/-- **C90.** The site knows exactly the packages of its lists: for directories of known branches with lists that hold complete records, and packages stored under
different keys (system, branch and name), each package is found with the fields of its record, and there is nothing else. -/
theorem C90_list_partial (junk : Nat × Nat) (ds : List ListDir) (h : ∀ d ∈ ds, d.recs ≠ [] ∧ (∃ sy br, BranchOf d.version sy br) ∧ ∀ r ∈ d.recs, r.Good)
    (hd : (ds.flatMap (fun d => d.recs.map (fun r => (d.version, r.name)))).Nodup) :
    ∃ m, webPackages junk (ds.map ListDir.coll) = .packages m ∧
      ∀ k p, mget m k = some p ↔ ∃ d ∈ ds, ∃ r ∈ d.recs, Entry d r k p := by
  obtain ⟨es, e, hf⟩ := dirs_fold ds ⟨⟨[], [], [], [], [], junk.1, [], junk.2⟩, [], [], []⟩ h
  refine ⟨_, e, ?_⟩
  have hd' : ((ds.flatMap (fun d => d.recs.map (fun r => (d, r)))).map (fun x => (x.1.version, x.2.name))).Nodup := by
    rw [List.map_flatMap]
    simpa [Function.comp_def] using hd
  have hb : ∀ x ∈ ds.flatMap (fun d => d.recs.map (fun r => (d, r))), ∃ sy br, BranchOf x.1.version sy br := by
    intro x hx
    simp only [List.mem_flatMap, List.mem_map] at hx
    obtain ⟨d, hd, r, hr, rfl⟩ := hx
    exact (h d hd).2.1
  have hes : (es.map (·.1)).Nodup ∧ ∀ k p, (k, p) ∈ es ↔ ∃ x ∈ ds.flatMap (fun d => d.recs.map (fun r => (d, r))), Entry x.1 x.2 k p := by
    clear e h hd
    generalize ds.flatMap (fun d => d.recs.map (fun r => (d, r))) = xs0 at hf hd' hb
    induction hf with
    | nil => exact ⟨List.nodup_nil, by simp⟩
    | @cons x e xs es hx hxs ih =>
      rw [List.map_cons, List.nodup_cons] at hd'
      obtain ⟨i1, i2⟩ := ih hd'.2 (fun y hy => hb y (by simp [hy]))
      obtain ⟨sy, br, hbx⟩ := hb x (by simp)
      have ee := entry_inv hbx hx
      refine ⟨?_, ?_⟩
      · rw [List.map_cons, List.nodup_cons]
        refine ⟨?_, i1⟩
        intro hm
        obtain ⟨⟨k, p⟩, hkp, hk⟩ := List.mem_map.mp hm
        obtain ⟨y, hy, hE⟩ := (i2 k p).mp hkp
        obtain ⟨sy', br', hby⟩ := hb y (by simp [hy])
        have ey := entry_inv hby hE
        have key : sy ++ ' ' :: br ++ ' ' :: x.2.name = sy' ++ ' ' :: br' ++ ' ' :: y.2.name := by
          have e1 := congrArg Prod.fst ee
          have e2 := congrArg Prod.fst ey
          simp only [entryOf] at e1 e2
          rw [← e1, ← e2]
          exact hk.symm
        have := key_inj hbx hby key
        apply hd'.1
        rw [List.mem_map]
        exact ⟨y, hy, by rw [this.1, this.2]⟩
      · intro k p
        rw [List.mem_cons, i2]
        constructor
        · rintro (h | ⟨y, hy, hE⟩)
          · refine ⟨x, by simp, ?_⟩
            rw [← h] at hx
            exact hx
          · exact ⟨y, by simp [hy], hE⟩
        · rintro ⟨y, hy, hE⟩
          rcases List.mem_cons.mp hy with rfl | hy
          · left
            rw [entry_inv hbx hE, ← ee]
          · exact Or.inr ⟨y, hy, hE⟩
  intro k p
  rw [mget_foldl_mset]
  simp only [mget, Option.or_none]
  constructor
  · intro hh
    rw [Option.map_eq_some_iff] at hh
    obtain ⟨⟨k', p'⟩, h1, rfl⟩ := hh
    have hk := List.find?_some h1
    have hm := List.mem_of_find?_eq_some h1
    simp only [decide_eq_true_eq] at hk
    subst hk
    obtain ⟨x, hx, hE⟩ := (hes.2 k' p').mp (by simpa using hm)
    simp only [List.mem_flatMap, List.mem_map] at hx
    obtain ⟨d, hd, r, hr, rfl⟩ := hx
    exact ⟨d, hd, r, hr, hE⟩
  · rintro ⟨d, hd, r, hr, hE⟩
    have hm : (k, p) ∈ es := (hes.2 k p).mpr ⟨(d, r), by simp only [List.mem_flatMap, List.mem_map]; exact ⟨d, hd, r, hr, rfl⟩, hE⟩
    rw [Option.map_eq_some_iff]
    have hn : (es.reverse.map (·.1)).Nodup := by
      rw [List.map_reverse]
      exact List.nodup_reverse.mpr hes.1
    refine ⟨(k, p), ?_, rfl⟩
    have hm' : (k, p) ∈ es.reverse := by simpa using hm
    generalize es.reverse = l at hn hm'
    clear * - hn hm'
    induction l with
    | nil => cases hm'
    | cons y l ih =>
      rw [List.map_cons, List.nodup_cons] at hn
      rcases List.mem_cons.mp hm' with e | hl
      · rw [← e]
        simp
      · rw [List.find?_cons_of_neg]
        · exact ih hn.2 hl
        · simp only [decide_eq_true_eq]
          intro e
          exact hn.1 (List.mem_map.mpr ⟨(k, p), hl, e.symm⟩)

/-- A record of the list of `cli`. -/
def xListRec : ListRec :=
  ⟨["@vim.cards-9.tar".toList, "Nvim".toList, "V9".toList, "r1".toList, "DAn editor".toList, "B1700000000".toList], "vim".toList, "9".toList, 1, "An editor".toList, 1700000000⟩

/-- A directory with this record. -/
def xListDir : ListDir := ⟨"/srv".toList, "systemd".toList, "cli".toList, [xListRec]⟩

example : xListRec.Good ∧ BranchOf xListDir.version "systemd".toList "systemd".toList ∧
    webPackages (0, 0) [xListDir.coll] = .packages [("systemd systemd vim".toList,
      ⟨"systemd".toList, "systemd".toList, "cli".toList, "vim".toList, "9".toList, 1, "An editor".toList, 1700000000⟩)] := by
  have once : ∀ (ls : List Str) (c : Char) (v : Str), (c :: v ∈ ls) → (ls.all (fun l => l.head? != some c || l == c :: v)) = true → Says1 ls c v := by
    intro ls c v h1 h2
    refine ⟨h1, fun w hw => ?_⟩
    have := List.all_eq_true.mp h2 _ hw
    simpa using this
  refine ⟨⟨?_, once _ _ _ (by decide) (by decide), once _ _ _ (by decide) (by decide), once _ _ _ (by decide +kernel) (by decide +kernel),
    once _ _ _ (by decide) (by decide), once _ _ _ (by decide +kernel) (by decide +kernel), by decide, by decide, by decide⟩, Or.inl ⟨rfl, rfl, rfl⟩, by decide +kernel⟩
  unfold xListRec
  decide

/-- **C90 fails**: a list that is empty or cannot be opened ends the reading, all directories behind it are missing. -/
theorem C90_empty_counterexample (junk : Nat × Nat) (c : WebColl) (cs : List WebColl) (h : c.repo = none ∨ c.repo = some []) :
    webPackages junk (c :: cs) = .packages [] := by
  unfold webPackages
  rw [webParse]
  rcases h with h | h <;> rw [h]

/-- **C90 fails**: a list whose last line has no newline is read beyond its end. -/
theorem C90_unterminated_counterexample (junk : Nat × Nat) (depot coll text : Str) (cs : List WebColl) (h : text.getLast? ≠ some '\n') (hne : text ≠ []) :
    webPackages junk (⟨depot, coll, some text⟩ :: cs) = .dies := by
  have key : ∀ (text cur : Str), (text ≠ [] ∧ text.getLast? ≠ some '\n') ∨ (text = [] ∧ cur ≠ []) → webLines cur text = none := by
    intro text
    induction text with
    | nil =>
      rintro cur (⟨h, -⟩ | ⟨-, h⟩)
      · exact absurd rfl h
      · obtain ⟨c, cs, rfl⟩ := List.exists_cons_of_ne_nil h
        rfl
    | cons c cs ih =>
      rintro cur (⟨-, h⟩ | ⟨h, -⟩)
      · rw [webLines.eq_def]
        simp only
        by_cases hcs : cs = []
        · subst hcs
          have : c ≠ '\n' := by
            intro e
            rw [e] at h
            exact h rfl
          rw [if_neg this]
          exact ih _ (Or.inr ⟨rfl, by simp⟩)
        · have h' : cs.getLast? ≠ some '\n' := by
            rwa [List.getLast?_cons, List.getLast?_eq_some_getLast hcs, Option.getD_some, ← List.getLast?_eq_some_getLast hcs] at h
          split
          · rw [ih [] (Or.inl ⟨hcs, h'⟩)]
            rfl
          · exact ih _ (Or.inl ⟨hcs, h'⟩)
      · cases h
  obtain ⟨c, cs', rfl⟩ := List.exists_cons_of_ne_nil hne
  unfold webPackages
  rw [webParse]
  simp only
  rw [key (c :: cs') [] (Or.inl ⟨hne, h⟩)]

/-- **C90 fails**: a record without description shows the one of the record before; a package of the same name in another collection of the branch hides the first
one. -/
theorem C90_leak_counterexample :
    (match webPackages (0, 0) [⟨"/srv/systemd".toList, "cli".toList, some "Na\nV1\nDfirst\n\nNb\nV2\n\n".toList⟩] with
      | .packages m => m.map (fun e => (e.2.baseName, e.2.description)) | .dies => []) = [("a".toList, "first".toList), ("b".toList, "first".toList)] ∧
    (match webPackages (0, 0) [⟨"/srv/systemd".toList, "cli".toList, some "Na\nV1\n\n".toList⟩, ⟨"/srv/systemd".toList, "gui".toList, some "Na\nV2\n\n".toList⟩] with
      | .packages m => m.map (fun e => (e.2.collection, e.2.version)) | .dies => []) = [("gui".toList, "2".toList)] := by decide +kernel

end Cards.Props
