import Mathlib.Tactic.Common
import Verif.Props.WebPkgs
/-!
# C91: the documents of the site
-/
namespace Cards.Props
open Cards Cards.Spec

/-- A heading as the authors write it: `before<hN attributes>title</after`. -/
structure Heading where
  before : Str
  level : Char
  attr : Str
  title : Str
  after : Str
deriving DecidableEq, Repr

/-- The opening tag and what stands in front of it. -/
def Heading.opening (h : Heading) : Str := h.before ++ '<' :: 'h' :: h.level :: h.attr ++ ['>']

/-- The line of the document. -/
def Heading.line (h : Heading) : Str := h.opening ++ h.title ++ '<' :: '/' :: h.after

/-- A heading of level 2 to 6 that is the first tag with `h` and whose closing tag is the first closing tag. -/
def Heading.Good (h : Heading) : Prop :=
  ¬ ['<', 'h'] <:+: h.before ∧ h.level ∈ ['2', '3', '4', '5', '6'] ∧ '>' ∉ h.attr ∧ ¬ ['<', '/'] <:+: h.opening ++ h.title

/-- A line of a document. -/
inductive DocLine where
  | text (l : Str)
  | head (h : Heading)
deriving DecidableEq, Repr

/-- The line itself. -/
def DocLine.line : DocLine → Str
  | .text l => l
  | .head h => h.line

/-- A line of text has no tag with `h`; a heading is in order. -/
def DocLine.Good : DocLine → Prop
  | .text l => ¬ ['<', 'h'] <:+: l
  | .head h => h.Good

/-- A line in front of the first heading: a text, or the title of the document, `<h1`. -/
def Front (l : Str) : Prop := ¬ ['<', 'h'] <:+: l ∨ ∃ b r, l = b ++ '<' :: 'h' :: '1' :: r ∧ ¬ ['<', 'h'] <:+: b

/-- The table of contents: an entry per heading, with its number; deeper headings open a list per level, higher ones close one. `n` headings are done, the last
one of level `prev`. -/
def contents : Nat → Nat → List DocLine → List Str
  | _, _, [] => []
  | n, prev, .text _ :: ls => contents n prev ls
  | n, prev, .head h :: ls =>
    ((List.replicate (h.level.toNat - prev) "<li>\n <ul class=\"hN\">".toList).flatten ++ (List.replicate (prev - h.level.toNat) "  </ul>\n</li>".toList).flatten ++
      "<li><a href=\"#".toList ++ dec (n + 1) ++ "\">".toList ++ h.title ++ "</a>".toList) :: contents (n + 1) h.level.toNat ls

/-- The text: the lines of the document, with the number of the heading as anchor in front of its title. -/
def anchored : Nat → List DocLine → List Str
  | _, [] => []
  | n, .text l :: ls => l :: anchored n ls
  | n, .head h :: ls => (h.opening ++ ("<a name=\"".toList ++ dec (n + 1) ++ "\"></a>".toList) ++ h.title ++ '<' :: '/' :: h.after) :: anchored (n + 1) ls

theorem cutFirst_two {x y : Char} (hxy : x ≠ y) {b : Str} (h : ¬ [x, y] <:+: b) (a : Str) : cutFirst [x, y] (b ++ x :: y :: a) = some (b, a) := by
  induction b with
  | nil =>
    rw [List.nil_append, cutFirst, if_pos (by simp [List.isPrefixOf])]
    rfl
  | cons c b ih =>
    have hb : ¬ [x, y] <:+: b := fun hh => h (List.infix_cons hh)
    rw [List.cons_append, cutFirst, ih hb, if_neg]
    intro hp
    rw [List.isPrefixOf_iff_prefix, List.cons_prefix_cons] at hp
    obtain ⟨e, hp⟩ := hp
    cases b with
    | nil =>
      rw [List.nil_append, List.cons_prefix_cons] at hp
      exact hxy hp.1.symm
    | cons d b =>
      rw [List.cons_append, List.cons_prefix_cons] at hp
      refine h ⟨[], b, ?_⟩
      rw [e, hp.1]
      rfl

theorem itos_dec32 {n : Nat} (h : n < 2 ^ 32) : itos n = dec n := by
  unfold itos; rw [Nat.mod_eq_of_lt h]

theorem tocLine_front (title : Str) (s : TocSt) (l : Str) (h : Front l) (hs : s.has = false) : tocLine title s l = { s with page := s.page ++ [l] } := by
  unfold tocLine
  rcases h with h | ⟨b, r, rfl, h⟩
  · rw [cutFirst_none.mpr h, hs]
    rfl
  · rw [cutFirst_two (by decide) h]
    rfl

theorem tocLine_text (title : Str) (s : TocSt) (l : Str) (h : ¬ ['<', 'h'] <:+: l) (hs : s.has = true) : tocLine title s l = { s with body := s.body ++ [l] } := by
  unfold tocLine
  rw [cutFirst_none.mpr h, hs]
  rfl

theorem level_not_one {c : Char} (h : c ∈ ['2', '3', '4', '5', '6']) : c.toNat ≠ '1'.toNat ∧ c ≠ '>' := by
  simp only [List.mem_cons, List.not_mem_nil, or_false] at h
  rcases h with rfl | rfl | rfl | rfl | rfl <;> decide

theorem tocLine_head (title : Str) (s : TocSt) (h : Heading) (hg : h.Good) (hn : s.ref + 1 < 2 ^ 32) : tocLine title s h.line =
    { page := (if s.has then s.page else s.page ++ ["<div class=\"toc\">\n <h2>".toList, title, "</h2>".toList, "  <ul class=\"h2\">".toList]) ++
        contents s.ref s.prev [.head h],
      body := s.body ++ anchored s.ref [.head h], has := true, ref := s.ref + 1, prev := h.level.toNat } := by
  obtain ⟨g1, g2, g3, g4⟩ := hg
  obtain ⟨l1, l2⟩ := level_not_one g2
  have e1 : h.line = h.before ++ '<' :: 'h' :: (h.level :: h.attr ++ '>' :: (h.title ++ '<' :: '/' :: h.after)) := by
    unfold Heading.line Heading.opening
    simp
  have e2 : cutFirst ['<', 'h'] h.line = some (h.before, h.level :: h.attr ++ '>' :: (h.title ++ '<' :: '/' :: h.after)) := by
    rw [e1]
    exact cutFirst_two (by decide) g1 _
  have e3 : cutFirst ['>'] ('h' :: (h.level :: h.attr ++ '>' :: (h.title ++ '<' :: '/' :: h.after))) =
      some ('h' :: h.level :: h.attr, h.title ++ '<' :: '/' :: h.after) := by
    have := cutFirst_single (c := '>') (b := 'h' :: h.level :: h.attr) (a := h.title ++ '<' :: '/' :: h.after)
      (by simp only [List.mem_cons, not_or]; exact ⟨by decide, fun e => l2 e.symm, g3⟩)
    simpa using this
  have e4 : cutFirst ['<', '/'] h.line = some (h.opening ++ h.title, h.after) := by
    unfold Heading.line
    exact cutFirst_two (by decide) g4 _
  have hlen : h.before.length + 1 + ('h' :: h.level :: h.attr).length + 1 = h.opening.length := by
    unfold Heading.opening
    simp
    omega
  have ht : h.line.take h.opening.length = h.opening := by
    unfold Heading.line
    rw [List.append_assoc]
    exact List.take_left
  have hd : h.line.drop h.opening.length = h.title ++ '<' :: '/' :: h.after := by
    unfold Heading.line
    rw [List.append_assoc]
    exact List.drop_left
  have e5 : titleOf h.line h.opening.length = some h.title := by
    unfold titleOf
    rw [e4]
    simp only
    rw [if_neg (by simp), hd]
    simp
  unfold tocLine
  rw [e2]
  simp only [List.cons_append] at e3 ⊢
  rw [if_neg l1, e3]
  simp only
  rw [hlen, e5]
  simp only
  rw [ht, hd]
  unfold tocEntry tocLists anchor
  rw [itos_dec32 hn]
  simp only [contents, anchored, List.flatten_append, List.append_assoc]

theorem contents_head (n prev : Nat) (h : Heading) (ls : List DocLine) :
    contents n prev [.head h] ++ contents (n + 1) h.level.toNat ls = contents n prev (.head h :: ls) := rfl

theorem anchored_head (n : Nat) (h : Heading) (ls : List DocLine) : anchored n [.head h] ++ anchored (n + 1) ls = anchored n (.head h :: ls) := rfl

theorem toc_fold (title : Str) (ls : List DocLine) : ∀ s : TocSt, (∀ l ∈ ls, l.Good) → s.has = true → s.ref + ls.length < 2 ^ 32 →
    ((ls.map DocLine.line).foldl (tocLine title) s).page = s.page ++ contents s.ref s.prev ls ∧
    ((ls.map DocLine.line).foldl (tocLine title) s).body = s.body ++ anchored s.ref ls ∧
    ((ls.map DocLine.line).foldl (tocLine title) s).has = true := by
  induction ls with
  | nil => intro s _ h _; simp [contents, anchored, h]
  | cons l ls ih =>
    intro s hg hs hn
    have hl := hg l (by simp)
    have hg' : ∀ x ∈ ls, x.Good := fun x hx => hg x (by simp [hx])
    rw [List.length_cons] at hn
    rw [List.map_cons, List.foldl_cons]
    cases l with
    | text t =>
      show _ ∧ _ ∧ _
      rw [DocLine.line, tocLine_text title s t hl hs]
      obtain ⟨i1, i2, i3⟩ := ih { s with body := s.body ++ [t] } hg' hs (by simp only; omega)
      refine ⟨i1, ?_, i3⟩
      rw [i2]
      simp [anchored]
    | head h =>
      rw [DocLine.line, tocLine_head title s h hl (by omega), hs]
      simp only [if_true]
      obtain ⟨i1, i2, i3⟩ := ih ⟨s.page ++ contents s.ref s.prev [.head h], s.body ++ anchored s.ref [.head h], true, s.ref + 1, h.level.toNat⟩ hg' rfl
        (by simp only; omega)
      refine ⟨?_, ?_, i3⟩
      · rw [i1, List.append_assoc]
        rfl
      · rw [i2, List.append_assoc]
        rfl

theorem front_fold (title : Str) (ls : List Str) : ∀ s : TocSt, (∀ l ∈ ls, Front l) → s.has = false →
    ls.foldl (tocLine title) s = { s with page := s.page ++ ls } := by
  induction ls with
  | nil => intro s _ _; simp
  | cons l ls ih =>
    intro s h hs
    rw [List.foldl_cons, tocLine_front title s l (h l (by simp)) hs]
    have := ih { s with page := s.page ++ [l] } (fun x hx => h x (by simp [hx])) hs
    rw [this]
    simp

/-- **C91, documents in order.** What stands in front of the first heading comes first, unchanged; then the table of contents with one entry per heading; then the
rest of the document, every line in its place and unchanged but for the anchors the entries lead to. -/
theorem C91_page_partial (title : Str) (front : List Str) (h : Heading) (ls : List DocLine) (hf : ∀ l ∈ front, Front l) (hh : h.Good)
    (hl : ∀ l ∈ ls, l.Good) (hn : ls.length + 1 < 2 ^ 32) :
    tocPage title (front ++ h.line :: ls.map DocLine.line) =
      front ++ ["<div class=\"toc\">\n <h2>".toList, title, "</h2>".toList, "  <ul class=\"h2\">".toList] ++
      contents 0 '2'.toNat (.head h :: ls) ++ ["</ul>\n</div>".toList] ++ anchored 0 (.head h :: ls) := by
  unfold tocPage
  rw [List.foldl_append, front_fold title front _ hf rfl, List.foldl_cons, tocLine_head title _ h hh (by simp only; decide)]
  simp only [Bool.false_eq_true, if_false, List.nil_append, Nat.zero_add]
  obtain ⟨i1, i2, i3⟩ := toc_fold title ls ⟨front ++ ["<div class=\"toc\">\n <h2>".toList, title, "</h2>".toList, "  <ul class=\"h2\">".toList] ++
    contents 0 '2'.toNat [.head h], anchored 0 [.head h], true, 1, h.level.toNat⟩ hl rfl (by simp only; omega)
  rw [if_pos i3, i1, i2]
  simp only [List.append_assoc]
  rfl

/-- **C91.** A document without headings is shown as it is. -/
theorem C91_plain (title : Str) (ls : List Str) (h : ∀ l ∈ ls, Front l) : tocPage title ls = ls := by
  unfold tocPage
  rw [front_fold title ls _ h rfl]
  rfl

/-- A document with a title and two headings. -/
def xHead : Heading := ⟨[], '2', " class=\"x\"".toList, "Start".toList, "h2>".toList⟩
/-- A heading below it. -/
def xHead3 : Heading := ⟨" ".toList, '3', [], "Next".toList, "h3>".toList⟩

theorem no_infix {pat s : Str} (h : cutFirst pat s = none) : ¬ pat <:+: s := cutFirst_none.mp h

example : xHead.Good ∧ xHead3.Good ∧ Front "<h1>News</h1>".toList ∧ (DocLine.text "<p>hello</p>".toList).Good ∧
    tocPage "Contents".toList ["<h1>News</h1>".toList, xHead.line, "<p>hello</p>".toList, xHead3.line] =
      ["<h1>News</h1>".toList, "<div class=\"toc\">\n <h2>".toList, "Contents".toList, "</h2>".toList, "  <ul class=\"h2\">".toList,
       "<li><a href=\"#1\">Start</a>".toList, "<li>\n <ul class=\"hN\"><li><a href=\"#2\">Next</a>".toList, "</ul>\n</div>".toList,
       "<h2 class=\"x\"><a name=\"1\"></a>Start</h2>".toList, "<p>hello</p>".toList, " <h3><a name=\"2\"></a>Next</h3>".toList] := by
  refine ⟨⟨no_infix (by decide), by decide, by decide, no_infix (by decide)⟩, ⟨no_infix (by decide), by decide, by decide, no_infix (by decide)⟩,
    Or.inr ⟨[], ">News</h1>".toList, by decide, no_infix (by decide)⟩, no_infix (by decide), by decide +kernel⟩

/-- How often a text occurs. -/
def occurrences (pat : Str) : Str → Nat
  | [] => 0
  | c :: cs => (if pat.isPrefixOf (c :: cs) then 1 else 0) + occurrences pat cs

/-- **C91 fails**: when the last heading is below level 2, lists of the table of contents stay open. -/
theorem C91_open_counterexample :
    occurrences "<ul".toList (tocPage "Contents".toList [xHead.line, xHead3.line]).flatten = 2 ∧
    occurrences "</ul".toList (tocPage "Contents".toList [xHead.line, xHead3.line]).flatten = 1 := by decide +kernel

/-- **C91 fails**: a line with a rule (`<hr>`) or with a heading that is closed on another line vanishes from the page; and a title behind a heading is shown
inside of the table of contents. -/
theorem C91_lost_counterexample (title : Str) :
    tocPage title ["a".toList, "<hr>".toList, "b".toList] = ["a".toList, "b".toList] ∧
    tocPage title ["a".toList, "<h2>Start".toList, "</h2>".toList] = ["a".toList, "</h2>".toList] ∧
    tocPage title [xHead.line, "x".toList, "<h1>Late</h1>".toList] =
      ["<div class=\"toc\">\n <h2>".toList, title, "</h2>".toList, "  <ul class=\"h2\">".toList, "<li><a href=\"#1\">Start</a>".toList, "<h1>Late</h1>".toList,
       "</ul>\n</div>".toList, "<h2 class=\"x\"><a name=\"1\"></a>Start</h2>".toList, "x".toList] := by
  refine ⟨by rfl, by rfl, ?_⟩
  have s1 : tocLine title (tocLine title ⟨[], [], false, 0, '2'.toNat⟩ xHead.line) "x".toList =
    ⟨["<div class=\"toc\">\n <h2>".toList, title, "</h2>".toList, "  <ul class=\"h2\">".toList, "<li><a href=\"#1\">Start</a>".toList],
      ["<h2 class=\"x\"><a name=\"1\"></a>Start</h2>".toList, "x".toList], true, 1, '2'.toNat⟩ := by
    rw [tocLine_head title _ xHead ⟨no_infix (by decide), by decide, by decide, no_infix (by decide)⟩ (by decide), tocLine_text title _ _ (no_infix (by decide)) rfl]
    simp only [Bool.false_eq_true, if_false, List.nil_append, List.cons_append, TocSt.mk.injEq, List.cons.injEq, true_and]
    refine ⟨?_, ?_, ?_⟩ <;> decide +kernel
  have s2 : tocLine title ⟨["<div class=\"toc\">\n <h2>".toList, title, "</h2>".toList, "  <ul class=\"h2\">".toList, "<li><a href=\"#1\">Start</a>".toList],
      ["<h2 class=\"x\"><a name=\"1\"></a>Start</h2>".toList, "x".toList], true, 1, '2'.toNat⟩ "<h1>Late</h1>".toList =
    ⟨["<div class=\"toc\">\n <h2>".toList, title, "</h2>".toList, "  <ul class=\"h2\">".toList, "<li><a href=\"#1\">Start</a>".toList, "<h1>Late</h1>".toList],
      ["<h2 class=\"x\"><a name=\"1\"></a>Start</h2>".toList, "x".toList], true, 1, '2'.toNat⟩ := by
    have : cutFirst ['<', 'h'] "<h1>Late</h1>".toList = some ([], "1>Late</h1>".toList) := by decide
    unfold tocLine
    rw [this]
    rfl
  have e : [xHead.line, "x".toList, "<h1>Late</h1>".toList].foldl (tocLine title) ⟨[], [], false, 0, '2'.toNat⟩ = _ :=
    (show _ = tocLine title (tocLine title (tocLine title ⟨[], [], false, 0, '2'.toNat⟩ xHead.line) "x".toList) "<h1>Late</h1>".toList from rfl).trans (by rw [s1, s2])
  unfold tocPage
  simp only [e]
  rfl

/-! ### Which document -/

theorem content_get (files : List (Str × Str × List Str)) (n : Str) :
    mget (getContent files) n = ((files.reverse.find? (fun f => (splitKeyValue f.1 '.').1 = n)).map (fun f => ⟨f.2.1, (splitKeyValue f.1 '.').2, f.2.2⟩)) := by
  unfold getContent
  have e : files.foldl (fun m f => mset (splitKeyValue f.1 '.').1 (⟨f.2.1, (splitKeyValue f.1 '.').2, f.2.2⟩ : WebDoc) m) [] =
      (files.map (fun f => ((splitKeyValue f.1 '.').1, (⟨f.2.1, (splitKeyValue f.1 '.').2, f.2.2⟩ : WebDoc)))).foldl (fun m e => mset e.1 e.2 m) [] := by
    rw [List.foldl_map]
  rw [e, mget_foldl_mset]
  simp only [mget, Option.or_none, ← List.map_reverse, List.find?_map, Option.map_map]
  rfl

/-- **C91.** The request for a page `n` shows the file of `content/` that is named `n`, or `n` and the number of a board behind a point: its date, its text and
the link to its board. Only files of that directory are ever shown. (No other file may have the same name before the point.) -/
theorem C91_request (site : Site) (files : List (Str × Str × List Str)) (hs : site.content = getContent files) (q n board date : Str) (text : List Str) (file : Str)
    (hq : Asks q "page=".toList n) (h1 : Silent q "search=".toList) (h2 : Silent q "searchpkg=".toList) (hp : n ≠ "packages".toList)
    (hm : (file, date, text) ∈ files) (hf : splitKeyValue file '.' = (n, board)) (hu : ∀ f ∈ files, (splitKeyValue f.1 '.').1 = n → f = (file, date, text)) :
    webBody site q = searchBox site.french :: lastUpdate date :: tocPage (if site.french then "Sommaire".toList else "Contents".toList) text ++
      boardLines site.french board := by
  have e1 := (C88_value q n).1 hq
  have e2 := (C88_default q).2.1 h1
  have e3 := (C88_default q).2.2.1 h2
  have e4 : mget site.content n = some ⟨date, board, text⟩ := by
    rw [hs, content_get]
    cases hfd : files.reverse.find? (fun f => decide ((splitKeyValue f.1 '.').1 = n)) with
    | none =>
      have := List.find?_eq_none.mp hfd (file, date, text) (by simpa using hm)
      simp [hf] at this
    | some f =>
      have p1 := List.find?_some hfd
      have p2 := List.mem_of_find?_eq_some hfd
      have := hu f (by simpa using p2) (by simpa using p1)
      subst this
      simp [hf]
  unfold webBody
  simp only [e1, e2, e3, ne_eq, not_true_eq_false, if_false, hp, e4]

/-- **C91.** The request for a page that is not there is answered so, whatever the name is: no other file is read. -/
theorem C91_missing (site : Site) (files : List (Str × Str × List Str)) (hs : site.content = getContent files) (q n : Str)
    (hq : Asks q "page=".toList n) (h1 : Silent q "search=".toList) (h2 : Silent q "searchpkg=".toList) (hp : n ≠ "packages".toList)
    (hm : ∀ f ∈ files, (splitKeyValue f.1 '.').1 ≠ n) :
    (webBody site q).head? = some ("<h1>".toList ++ n ++ " is not existing yet</h1>".toList) := by
  refine body_missing site q n ((C88_value q n).1 hq) ((C88_default q).2.2.1 h2) ((C88_default q).2.1 h1) hp ?_
  rw [hs, content_get, List.find?_eq_none.mpr]
  · rfl
  · intro f hf
    simpa using hm f (by simpa using hf)

/-- **C91.** A search in the documents shows, in the order of the documents and lines, every line that contains the text, with a link to its document, and no
other. -/
theorem C91_search (site : Site) (q w : Str) (hq : Asks q "search=".toList w) (h2 : Silent q "searchpkg=".toList) (hl : 3 ≤ w.length) :
    ∃ hits : List (Str × Str),
      (∀ n j, (n, j) ∈ hits ↔ n ≠ "packages".toList ∧ Contains w j ∧ ∃ d, (n, d) ∈ site.content ∧ j ∈ d.text) ∧
      List.Sublist hits (site.content.flatMap (fun d => d.2.text.map (fun j => (d.1, j)))) ∧
      webBody site q = hits.flatMap (fun h => ["<a href=\"?page=".toList ++ h.1 ++ "\">".toList ++ h.1 ++ "</a><br>...<br>".toList, h.2, "</div></pre>...<br><br>".toList]) := by
  have e1 := (C88_value q w).2.1 hq
  have e3 := (C88_default q).2.2.1 h2
  have hne : w ≠ [] := by
    intro e
    rw [e] at hl
    exact absurd hl (by decide)
  refine ⟨(site.content.flatMap (fun d => d.2.text.map (fun j => (d.1, j)))).filter
    (fun x => decide (x.1 ≠ "packages".toList) && (cutFirst (convertToLowerCase w) (convertToLowerCase x.2)).isSome), ?_, List.filter_sublist, ?_⟩
  · intro n j
    simp only [List.mem_filter, List.mem_flatMap, List.mem_map, Bool.and_eq_true, decide_eq_true_eq, isSome_infix, Contains]
    constructor
    · rintro ⟨⟨d, hd, j', hj, e⟩, h1, h2⟩
      obtain ⟨rfl, rfl⟩ := Prod.mk.inj e
      exact ⟨h1, h2, d.2, hd, hj⟩
    · rintro ⟨h1, h2, d, hd, hj⟩
      exact ⟨⟨(n, d), hd, j, hj, rfl⟩, h1, h2⟩
  · unfold webBody
    simp only [e1, e3, ne_eq, not_true_eq_false, if_false, hne, not_false_eq_true, if_true]
    rw [if_neg (by omega)]
    unfold docSearch
    generalize "<a href=\"?page=".toList = A
    generalize "\">".toList = B
    generalize "</a><br>...<br>".toList = C
    generalize "</div></pre>...<br><br>".toList = D
    generalize "packages".toList = P
    have line : ∀ (n : Str) (text : List Str),
        text.flatMap (fun j => if n = P then [] else if (cutFirst (convertToLowerCase w) (convertToLowerCase j)).isSome then [A ++ n ++ B ++ n ++ C, j, D] else []) =
        ((text.map (fun j => (n, j))).filter (fun x => decide (x.1 ≠ P) && (cutFirst (convertToLowerCase w) (convertToLowerCase x.2)).isSome)).flatMap
          (fun h => [A ++ h.1 ++ B ++ h.1 ++ C, h.2, D]) := by
      intro n text
      induction text with
      | nil => rfl
      | cons j text ih =>
        rw [List.flatMap_cons, ih, List.map_cons, List.filter_cons]
        by_cases hn : n = P
        · simp [hn]
        · cases (cutFirst (convertToLowerCase w) (convertToLowerCase j)).isSome <;> simp [hn]
    induction site.content with
    | nil => rfl
    | cons d ds ih =>
      rw [List.flatMap_cons, List.flatMap_cons, List.filter_append, List.flatMap_append, ih, line]

/-- A site with one document, and the request for it. -/
example : getContent [("news.12".toList, "today".toList, ["hello".toList])] = [("news".toList, ⟨"today".toList, "12".toList, ["hello".toList]⟩)] ∧
    (webBody ⟨false, getContent [("news.12".toList, "today".toList, ["hello".toList])], [], fun _ => [], []⟩ "page=news".toList)[2]? = some "hello".toList := by
  decide +kernel

end Cards.Props
