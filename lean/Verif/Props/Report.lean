import Verif.Model.Report
import Verif.Spec.Report
import Verif.Props.Upgrade
import Verif.Lemmas.Single
/-!
# C85: what cards diff reports
-/
namespace Cards.Props
open Cards

/-! ### Reading a report -/

/-- The lines of a report made of parts. -/
def render (bs : List (Str × List Str)) : List Str := bs.flatMap (fun b => [] :: b.1 :: b.2)

def BlocksOk (bs : List (Str × List Str)) : Prop := ∀ b ∈ bs, b.1 ≠ [] ∧ ∀ l ∈ b.2, l ≠ []

theorem sectionOf_skip (h : Str) (ls rest : List Str) (hl : ∀ l ∈ ls, l ≠ []) : sectionOf h (ls ++ rest) = sectionOf h rest := by
  induction ls with
  | nil => rfl
  | cons l ls ih =>
    rw [List.cons_append, sectionOf, if_neg (fun hc => hl l (by simp) hc.1)]
    exact ih (fun x hx => hl x (by simp [hx]))

theorem sectionOf_block (h t : Str) (rows rest : List Str) (ht : t ≠ []) (hr : ∀ l ∈ rows, l ≠ []) (he : rest = [] ∨ rest.head? = some []) :
    sectionOf h ([] :: t :: rows ++ rest) = if h.isPrefixOf t then some (t.drop h.length, rows) else sectionOf h rest := by
  by_cases hp : h.isPrefixOf t = true
  · rw [if_pos hp]
    show sectionOf h ([] :: (t :: (rows ++ rest))) = _
    rw [sectionOf, if_pos ⟨rfl, by simpa using hp⟩]
    simp only [List.headD_cons, List.tail_cons, Option.some.injEq, Prod.mk.injEq, true_and]
    rw [List.takeWhile_append_of_pos (fun l hl => by simpa using hr l hl)]
    rcases he with rfl | he
    · simp
    · cases rest with
      | nil => simp
      | cons a r => simp at he; subst he; simp
  · rw [if_neg hp]
    show sectionOf h ([] :: (t :: (rows ++ rest))) = _
    rw [sectionOf, if_neg (fun hc => hp (by simpa using hc.2))]
    exact sectionOf_skip h (t :: rows) rest (by intro l hl; rcases List.mem_cons.mp hl with rfl | h'; exacts [ht, hr l h'])

theorem render_head (bs : List (Str × List Str)) (rest : List Str) (he : rest = [] ∨ rest.head? = some []) :
    render bs ++ rest = [] ∨ (render bs ++ rest).head? = some [] := by
  cases bs with
  | nil => simpa [render] using he
  | cons b bs => right; simp [render]

theorem sectionOf_render (h : Str) (bs : List (Str × List Str)) (rest : List Str) (hb : BlocksOk bs) (he : rest = [] ∨ rest.head? = some []) :
    sectionOf h (render bs ++ rest) =
      match bs.find? (fun b => h.isPrefixOf b.1) with
      | some b => some (b.1.drop h.length, b.2)
      | none => sectionOf h rest := by
  induction bs with
  | nil => rfl
  | cons b bs ih =>
    have hb1 := hb b (by simp)
    have hb2 : BlocksOk bs := fun x hx => hb x (by simp [hx])
    have e : render (b :: bs) ++ rest = [] :: b.1 :: b.2 ++ (render bs ++ rest) := by simp [render]
    rw [e, sectionOf_block h b.1 b.2 _ hb1.1 hb1.2 (render_head bs rest he), List.find?_cons]
    cases hp : h.isPrefixOf b.1 with
    | true => simp
    | false => simp only [Bool.false_eq_true, if_false]; exact ih hb2

theorem pre_self (h x : Str) : h.isPrefixOf (h ++ x) = true := by simp

theorem pre_other {h t : Str} (x : Str) (hn : h.take 2 ≠ t.take 2) (h2 : 2 ≤ h.length) (t2 : 2 ≤ t.length) : h.isPrefixOf (t ++ x) = false := by
  rw [Bool.eq_false_iff]
  intro hc
  rw [List.isPrefixOf_iff_prefix] at hc
  obtain ⟨y, hy⟩ := hc
  apply hn
  have := congrArg (List.take 2) hy
  rwa [List.take_append_of_le_length h2, List.take_append_of_le_length t2] at this

/-! ### The parts of this report -/

def secBlock (details : Bool) (w : Nat) (title : String) (count : Nat) (names : List Str) : List (Str × List Str) :=
  if count > 0 then [(title.toList ++ dec count, if details then names.map (padRight w) else [])] else []

theorem nameSection_eq (details : Bool) (w : Nat) (title : String) (count : Nat) (names : List Str) :
    nameSection details w title count names = render (secBlock details w title count names) := by
  unfold nameSection secBlock
  split <;> simp [render]

def amountTail (d : Diff) : List Str :=
  ["Total size of reinstalled packages:       ".toList ++ sizeHumanRead d.addSize ++ "bytes".toList,
   "Total size of remove packages:            ".toList ++ sizeHumanRead d.removeSize ++ "bytes".toList] ++
  (if d.addSize > d.removeSize then
    ["Total amount of added bytes:              ".toList ++ sizeHumanRead (d.addSize - d.removeSize) ++ "bytes".toList] else []) ++
  (if d.removeSize > d.addSize then
    ["Total amount of removed bytes:            ".toList ++ sizeHumanRead (d.removeSize - d.addSize) ++ "bytes".toList] else [])

def amountBlocks (st : StatVfs) (d : Diff) : List (Str × List Str) :=
  [("Available space on your system:           ".toList ++ (sizeHumanRead (availableSpace st) ++ "bytes".toList), []),
   ("Total download size:                      ".toList ++ (sizeHumanRead d.downloadSize ++ "bytes".toList), amountTail d)]

theorem amountInfo_eq (st : StatVfs) (d : Diff) : amountInfo st d = render (amountBlocks st d) := by
  unfold amountInfo amountBlocks amountTail render
  simp only [List.flatMap_cons, List.flatMap_nil, List.append_nil, List.cons_append, List.nil_append, List.append_assoc]

def hintBlocks (r : Nat) : List (Str × List Str) :=
  if r > 20 then [("Percentage of obsoletes packages: ".toList ++ (dec r ++ " %".toList), []),
    ("Use the command: \x1b[1;34msudo cards upgrade --proceed\x1b[1;0m".toList ++ [], ["when you're ready to upgrade your system.".toList])] else []

def hintRest (r : Nat) : List Str := if r > 20 then [[]] else []

theorem hintLines_eq (r : Nat) : hintLines r = render (hintBlocks r) ++ hintRest r := by
  unfold hintLines hintBlocks hintRest
  split
  · simp only [render, List.flatMap_cons, List.flatMap_nil, List.append_nil, List.cons_append, List.nil_append, List.append_assoc]
  · rfl

def reportBlocks (junk : Nat) (details : Bool) (st : StatVfs) (db : InstDb) (repo : List (Str × RepoPkg)) : List (Str × List Str) :=
  let d := mkDiff db repo
  [("Number of Packages:                       ".toList ++ dec db.length,
    ["Unchanged Packages:                       ".toList ++ dec d.okCount, "Added packages (new dependencies):        ".toList ++ dec 0]),
   ("Out of Date Packages (different version): ".toList ++ dec d.outOfDateCount, if details then outTable db repo d else [])] ++
  (secBlock details d.width1 "Rebuild Packages (newer build date):      " d.newBuildCount (d.names .newBuild) ++
  (secBlock details d.width1 "Obsoletes Packages (will be removed):     " d.obsoleteCount (d.names .obsolete) ++
  (secBlock details d.width1 "Unmaintained Packages (should be removed):" d.unmaintainedCount (d.names .unmaintained) ++
  (amountBlocks st d ++ hintBlocks (ratio junk d.okCount db.length)))))

theorem render_append (a b : List (Str × List Str)) : render (a ++ b) = render a ++ render b := by simp [render]

theorem showInfo_eq {junk : Nat} {details : Bool} {st : StatVfs} {db : InstDb} {repo : List (Str × RepoPkg)} (h : (mkDiff db repo).size ≠ 0) :
    showInfo junk details st db repo =
      render (reportBlocks junk details st db repo) ++ hintRest (ratio junk (mkDiff db repo).okCount db.length) := by
  unfold showInfo reportBlocks
  simp only
  rw [if_neg h, hintLines_eq, amountInfo_eq]
  simp only [nameSection_eq, render_append]
  have e : render (secBlock details (mkDiff db repo).width1 "Conflict Packages (will be removed):      " 0 []) = [] := rfl
  rw [e]
  simp only [render, List.flatMap_cons, List.flatMap_nil, List.append_nil, List.nil_append, List.append_assoc, List.cons_append]

theorem dec_ne_nil (n : Nat) : dec n ≠ [] := by
  rw [dec.eq_def]
  split <;> simp

theorem foldl_width_le {α : Type} (f : α → Nat) (l : List α) (w : Nat) :
    w ≤ l.foldl (fun w n => if f n > w then f n else w) w ∧ ∀ x ∈ l, f x ≤ l.foldl (fun w n => if f n > w then f n else w) w := by
  induction l generalizing w with
  | nil => simp
  | cons a l ih =>
    rw [List.foldl_cons]
    obtain ⟨h1, h2⟩ := ih (if f a > w then f a else w)
    have : w ≤ (if f a > w then f a else w) ∧ f a ≤ (if f a > w then f a else w) := by split <;> omega
    refine ⟨by omega, ?_⟩
    intro x hx
    rcases List.mem_cons.mp hx with rfl | hx
    · omega
    · exact h2 x hx

theorem width1_le (d : Diff) : 5 < d.width1 ∧ ∀ n ∈ d.names .outOfDate, n.length < d.width1 := by
  unfold Diff.width1
  obtain ⟨h1, h2⟩ := foldl_width_le (fun n : Str => n.length) (d.names .outOfDate) 5
  exact ⟨by omega, fun n hn => by have := h2 n hn; omega⟩

theorem width2_le (d : Diff) (db : InstDb) (repo : List (Str × RepoPkg)) :
    ∀ n ∈ d.names .outOfDate, (dealVersions db repo n).1.length < d.width2 db repo := by
  unfold Diff.width2
  obtain ⟨_, h2⟩ := foldl_width_le (fun n : Str => (dealVersions db repo n).1.length) (d.names .outOfDate) 10
  exact fun n hn => by have := h2 n hn; omega

theorem padRight_ne {w : Nat} (h : 0 < w) (s : Str) : padRight w s ≠ [] := by
  intro hc
  have := congrArg List.length hc
  unfold padRight at this
  rw [List.length_append, List.length_replicate, List.length_nil] at this
  omega

theorem secBlock_ok (details : Bool) {w : Nat} (h : 0 < w) (title : String) (count : Nat) (names : List Str) :
    BlocksOk (secBlock details w title count names) := by
  intro b hb
  unfold secBlock at hb
  split at hb
  · rw [List.mem_singleton] at hb
    subst hb
    refine ⟨by simp [dec_ne_nil], ?_⟩
    intro l hl
    cases details with
    | false => simp at hl
    | true =>
      simp only [if_true, List.mem_map] at hl
      obtain ⟨n, _, rfl⟩ := hl
      exact padRight_ne h n
  · simp at hb

theorem app_ne {a b : Str} (h : a ≠ []) : a ++ b ≠ [] := by simp [h]

theorem BlocksOk.append {a b : List (Str × List Str)} (h1 : BlocksOk a) (h2 : BlocksOk b) : BlocksOk (a ++ b) := by
  intro x hx
  rcases List.mem_append.mp hx with h | h
  exacts [h1 x h, h2 x h]

theorem BlocksOk.cons {t : Str} {ls : List Str} {b : List (Str × List Str)} (h1 : t ≠ []) (h3 : ∀ l ∈ ls, l ≠ []) (h2 : BlocksOk b) :
    BlocksOk ((t, ls) :: b) := by
  intro x hx
  rcases List.mem_cons.mp hx with rfl | h
  exacts [⟨h1, h3⟩, h2 x h]

theorem BlocksOk.nil : BlocksOk [] := fun _ h => by simp at h

theorem amountTail_ne (d : Diff) : ∀ l ∈ amountTail d, l ≠ [] := by
  intro l hl
  unfold amountTail at hl
  simp only [List.mem_append, List.mem_cons, List.not_mem_nil, or_false] at hl
  rcases hl with ((rfl | rfl) | h) | h
  · exact app_ne (app_ne (by decide))
  · exact app_ne (app_ne (by decide))
  · split at h
    · rw [List.mem_singleton] at h; subst h; exact app_ne (app_ne (by decide))
    · simp at h
  · split at h
    · rw [List.mem_singleton] at h; subst h; exact app_ne (app_ne (by decide))
    · simp at h

theorem reportBlocks_ok (junk : Nat) (details : Bool) (st : StatVfs) (db : InstDb) (repo : List (Str × RepoPkg)) :
    BlocksOk (reportBlocks junk details st db repo) := by
  have hw : 0 < (mkDiff db repo).width1 := by have := (width1_le (mkDiff db repo)).1; omega
  unfold reportBlocks
  simp only
  apply BlocksOk.append
  · apply BlocksOk.cons (app_ne (by decide))
    · intro l hl
      simp only [List.mem_cons, List.not_mem_nil, or_false] at hl
      rcases hl with rfl | rfl <;> exact app_ne (by decide)
    apply BlocksOk.cons (app_ne (by decide))
    · intro l hl
      cases details with
      | false => simp at hl
      | true =>
        simp only [if_true] at hl
        unfold outTable at hl
        rcases List.mem_cons.mp hl with rfl | hl
        · exact app_ne (app_ne (padRight_ne hw _))
        · obtain ⟨n, _, rfl⟩ := List.mem_map.mp hl
          exact app_ne (app_ne (padRight_ne hw _))
    exact BlocksOk.nil
  refine (secBlock_ok details hw _ _ _).append ((secBlock_ok details hw _ _ _).append ((secBlock_ok details hw _ _ _).append (BlocksOk.append ?_ ?_)))
  · exact BlocksOk.cons (app_ne (by decide)) (by simp) (BlocksOk.cons (app_ne (by decide)) (amountTail_ne _) BlocksOk.nil)
  · unfold hintBlocks
    split
    · refine BlocksOk.cons (app_ne (by decide)) (by simp) (BlocksOk.cons (app_ne (by decide)) ?_ BlocksOk.nil)
      intro l hl
      rw [List.mem_singleton] at hl
      subst hl
      decide
    · exact BlocksOk.nil

theorem report_section (h : Str) (junk : Nat) (details : Bool) (st : StatVfs) (db : InstDb) (repo : List (Str × RepoPkg)) (hz : (mkDiff db repo).size ≠ 0) :
    sectionOf h (showInfo junk details st db repo) =
      ((reportBlocks junk details st db repo).find? (fun b => h.isPrefixOf b.1)).map (fun b => (b.1.drop h.length, b.2)) := by
  rw [showInfo_eq hz, sectionOf_render h _ _ (reportBlocks_ok _ _ _ _ _) (by unfold hintRest; split <;> simp)]
  cases (reportBlocks junk details st db repo).find? (fun b => h.isPrefixOf b.1) with
  | some b => rfl
  | none =>
    simp only [Option.map_none]
    unfold hintRest
    split
    · rw [sectionOf, if_neg (by simp)]; rfl
    · rfl

theorem sec_none {h : Str} (details : Bool) (w : Nat) {title : String} (count : Nat) (names : List Str)
    (hn : h.take 2 ≠ title.toList.take 2 ∧ 2 ≤ h.length ∧ 2 ≤ title.toList.length) :
    (secBlock details w title count names).find? (fun b => h.isPrefixOf b.1) = none := by
  unfold secBlock
  split
  · rw [List.find?_cons, pre_other _ hn.1 hn.2.1 hn.2.2]; rfl
  · rfl

theorem sec_self (details : Bool) (w : Nat) (title : String) (count : Nat) (names : List Str) :
    (secBlock details w title count names).find? (fun b => title.toList.isPrefixOf b.1) =
      if count > 0 then some (title.toList ++ dec count, if details then names.map (padRight w) else []) else none := by
  unfold secBlock
  split
  · rw [List.find?_cons, pre_self]
  · rfl

theorem amount_none {h : Str} (st : StatVfs) (d : Diff) (h2 : 2 ≤ h.length) (h3 : h.take 2 ≠ "Av".toList) (h4 : h.take 2 ≠ "To".toList) :
    (amountBlocks st d).find? (fun b => h.isPrefixOf b.1) = none := by
  unfold amountBlocks
  rw [List.find?_cons, pre_other _ h3 h2 (by decide), List.find?_cons, pre_other _ h4 h2 (by decide)]; rfl

theorem hint_none {h : Str} (r : Nat) (h2 : 2 ≤ h.length) (h3 : h.take 2 ≠ "Pe".toList) (h4 : h.take 2 ≠ "Us".toList) :
    (hintBlocks r).find? (fun b => h.isPrefixOf b.1) = none := by
  unfold hintBlocks
  split
  · rw [List.find?_cons, pre_other _ h3 h2 (by decide), List.find?_cons, pre_other _ h4 h2 (by decide)]; rfl
  · rfl

theorem names_eq {db : InstDb} {repo : List (Str × RepoPkg)} (hs : MSorted db) (hr : ShortReleases db repo) (cls : Str × Inst → UpgStatus)
    (hc : ∀ p ∈ db, Standing db repo p.1 p.2 (cls p)) (s : UpgStatus) :
    (mkDiff db repo).names s = (db.filter (fun p => decide (cls p = s))).map (·.1) := by
  unfold Diff.names
  rw [(diff_deals repo hs).1, List.filter_map, List.map_map]
  have : db.filter ((fun p : Str × Deal => decide (p.2.status = s)) ∘ fun p => (p.1, dealOf db repo p.1 p.2)) = db.filter (fun p => decide (cls p = s)) := by
    apply List.filter_congr
    intro p hp
    simp only [Function.comp]
    rw [standing_unique (standing_dealOf hr hp) (hc p hp)]
  rw [this]
  rfl

theorem size_zero_iff {db : InstDb} {repo : List (Str × RepoPkg)} (hs : MSorted db) (hr : ShortReleases db repo) (cls : Str × Inst → UpgStatus)
    (hc : ∀ p ∈ db, Standing db repo p.1 p.2 (cls p)) : (mkDiff db repo).size = 0 ↔ ∀ p ∈ db, cls p = .ok := by
  obtain ⟨h1, _, _, _, _, _, h7⟩ := C28_counts hs hr cls hc
  have hl : db.countP (fun p => decide (cls p = .ok)) = db.length ↔ ∀ p ∈ db, cls p = .ok := by
    rw [List.countP_eq_length]; simp
  rw [← hl]
  omega

theorem count_filter {α : Type} (l : List α) (f : α → Bool) (g : α → Str) : l.countP f = ((l.filter f).map g).length := by
  rw [List.length_map, List.countP_eq_length_filter]

theorem itos_short {r : Nat} (h : r < 65536) : itos r = dec r := by
  unfold itos; rw [Nat.mod_eq_of_lt (by omega)]

/-! ### C85 -/

/-- **C85, the first answer.** The report is the one line that the system is up to date exactly when the repository has every installed package, and none of
them newer. -/
theorem C85_up_to_date (junk : Nat) (details : Bool) (st : StatVfs) {db : InstDb} {repo : List (Str × RepoPkg)} (hs : MSorted db) (hr : ShortReleases db repo)
    (cls : Str × Inst → UpgStatus) (hc : ∀ p ∈ db, Standing db repo p.1 p.2 (cls p)) :
    showInfo junk details st db repo = ["Your system is up to date.".toList] ↔ ∀ p ∈ db, cls p = .ok := by
  rw [← size_zero_iff hs hr cls hc]
  constructor
  · intro h
    apply Classical.byContradiction
    intro hz
    rw [showInfo_eq hz] at h
    have := congrArg List.head? h
    simp [reportBlocks, render] at this
  · intro h
    unfold showInfo
    simp only
    rw [if_pos h]

/-- A row of the table: the name, the installed and the available version, separated by blanks, in columns of `w1` and `w2` characters. -/
def TableRow (w1 w2 : Nat) (row n v w : Str) : Prop :=
  ∃ a b, 0 < a ∧ 0 < b ∧ n.length + a = w1 ∧ v.length + b = w2 ∧ row = n ++ List.replicate a ' ' ++ v ++ List.replicate b ' ' ++ w

/-- `version-release` of an installed package, and of a package of the repository. -/
def _root_.Cards.Inst.verText (i : Inst) : Str := i.version ++ '-' :: dec i.release
def _root_.Cards.RepoPkg.verText (p : RepoPkg) : Str := p.version ++ '-' :: dec p.release

theorem padRight_eq {w : Nat} {s : Str} (h : s.length < w) : ∃ a, 0 < a ∧ s.length + a = w ∧ padRight w s = s ++ List.replicate a ' ' :=
  ⟨w - s.length, by omega, by omega, rfl⟩

/-- **C85, packages that are out of date.** Their number stands under its heading, and the table below (with details) has one row for each, in the order of the
names, with both versions. -/
theorem C85_outdated (junk : Nat) (details : Bool) (st : StatVfs) {db : InstDb} {repo : List (Str × RepoPkg)} (hs : MSorted db) (hr : ShortReleases db repo)
    (cls : Str × Inst → UpgStatus) (hc : ∀ p ∈ db, Standing db repo p.1 p.2 (cls p)) (hbad : ∃ p ∈ db, cls p ≠ .ok) :
    ∃ rows, sectionOf "Out of Date Packages (different version): ".toList (showInfo junk details st db repo) =
        some (dec (db.countP (fun p => decide (cls p = .outOfDate))), rows) ∧
      (details = false → rows = []) ∧
      (details = true → ∃ w1 w2 head body, rows = head :: body ∧ TableRow w1 w2 head "Name:".toList "Installed:".toList "Available:".toList ∧
        List.Forall₂ (fun (row : Str) (p : Str × Inst) => ∃ r, mget repo p.1 = some r ∧ TableRow w1 w2 row p.1 p.2.verText r.verText)
          body (db.filter (fun p => decide (cls p = .outOfDate)))) := by
  have hz : (mkDiff db repo).size ≠ 0 := fun h0 => by
    obtain ⟨p, hp, hp2⟩ := hbad
    exact hp2 ((size_zero_iff hs hr cls hc).mp h0 p hp)
  obtain ⟨_, _, c3, _⟩ := C28_counts hs hr cls hc
  refine ⟨if details then outTable db repo (mkDiff db repo) else [], ?_, ?_, ?_⟩
  · rw [report_section _ _ _ _ _ _ hz]
    unfold reportBlocks
    simp only
    rw [List.cons_append, List.find?_cons, pre_other _ (by decide) (by decide) (by decide), List.cons_append, List.find?_cons, pre_self]
    simp only [Option.map_some, List.drop_left, c3]
  · intro hd; simp [hd]
  · intro hd
    obtain ⟨w5, hw1⟩ := width1_le (mkDiff db repo)
    have hw2 := width2_le (mkDiff db repo) db repo
    have hw10 : 10 < (mkDiff db repo).width2 db repo := by
      unfold Diff.width2
      have := (foldl_width_le (fun n : Str => (dealVersions db repo n).1.length) ((mkDiff db repo).names .outOfDate) 10).1
      omega
    refine ⟨(mkDiff db repo).width1, (mkDiff db repo).width2 db repo, _, _, by rw [if_pos hd]; rfl, ?_, ?_⟩
    · obtain ⟨a, ha, ha1, ha2⟩ := padRight_eq (w := (mkDiff db repo).width1) (s := "Name:".toList) (by exact w5)
      obtain ⟨b, hb, hb1, hb2⟩ := padRight_eq (w := (mkDiff db repo).width2 db repo) (s := "Installed:".toList) (by exact hw10)
      exact ⟨a, b, ha, hb, ha1, hb1, by rw [ha2, hb2]; simp only [List.append_assoc]⟩
    · have hmem : ∀ p ∈ db.filter (fun p => decide (cls p = .outOfDate)), p.1 ∈ (mkDiff db repo).names .outOfDate := by
        intro p hp
        rw [names_eq hs hr cls hc]
        exact List.mem_map_of_mem hp
      rw [names_eq hs hr cls hc, List.map_map, List.forall₂_map_left_iff]
      rw [List.forall₂_same]
      intro p hp
      have hn := hmem p hp
      obtain ⟨hp1, hp2⟩ := List.mem_filter.mp hp
      have hst := hc p hp1
      rw [of_decide_eq_true hp2] at hst
      obtain ⟨r, hr1, _, _⟩ := hst
      refine ⟨r, hr1, ?_⟩
      have hv : dealVersions db repo p.1 = (p.2.verText, r.verText) := by
        unfold dealVersions
        rw [hr1, mem_mget_of_sorted hs hp1]
        unfold verRel Inst.verText RepoPkg.verText
        simp only
        rw [itos_short (hr.1 p hp1), itos_short (hr.2 _ (mget_some_mem hr1))]
      obtain ⟨a, ha, ha1, ha2⟩ := padRight_eq (hw1 _ hn)
      obtain ⟨b, hb, hb1, hb2⟩ := padRight_eq (hw2 _ hn)
      rw [hv] at hb1 hb2
      refine ⟨a, b, ha, hb, ha1, hb1, ?_⟩
      simp only [Function.comp, hv]
      rw [ha2, hb2]
      simp only [List.append_assoc]

/-- What a part with names shows for the packages `ps`: nothing at all when there are none, else their number and, with details, their names in order. -/
def ShowsNames (details : Bool) (part : Option (Str × List Str)) (ps : List (Str × Inst)) : Prop :=
  (ps = [] → part = none) ∧
  (ps ≠ [] → ∃ rows, part = some (dec ps.length, rows) ∧ (details = false → rows = []) ∧
    (details = true → List.Forall₂ (fun (row : Str) (p : Str × Inst) => ∃ k, row = p.1 ++ List.replicate k ' ') rows ps))

theorem showsNames_of {details : Bool} {w : Nat} {title : String} {ps : List (Str × Inst)} {part : Option (Str × List Str)}
    (h : part = (if ps.length > 0 then some (title.toList ++ dec ps.length, if details then (ps.map (·.1)).map (padRight w) else []) else none).map
      (fun b : Str × List Str => (b.1.drop title.toList.length, b.2))) : ShowsNames details part ps := by
  subst h
  refine ⟨fun h0 => by subst h0; rfl, fun h1 => ?_⟩
  have : ps.length > 0 := List.length_pos_iff.mpr h1
  rw [if_pos this]
  refine ⟨_, by simp only [Option.map_some, List.drop_left]; rfl, fun hd => by simp [hd], fun hd => ?_⟩
  rw [if_pos hd, List.map_map, List.forall₂_map_left_iff, List.forall₂_same]
  intro p _
  exact ⟨_, rfl⟩

/-- **C85, the other packages.** Those to be rebuilt, those that will be removed and those not maintained any more are counted and, with details, listed under
their headings, and only they. -/
theorem C85_names (junk : Nat) (details : Bool) (st : StatVfs) {db : InstDb} {repo : List (Str × RepoPkg)} (hs : MSorted db) (hr : ShortReleases db repo)
    (cls : Str × Inst → UpgStatus) (hc : ∀ p ∈ db, Standing db repo p.1 p.2 (cls p)) (hbad : ∃ p ∈ db, cls p ≠ .ok) :
    let R := showInfo junk details st db repo
    ShowsNames details (sectionOf "Rebuild Packages (newer build date):      ".toList R) (db.filter (fun p => decide (cls p = .newBuild))) ∧
    ShowsNames details (sectionOf "Obsoletes Packages (will be removed):     ".toList R) (db.filter (fun p => decide (cls p = .obsolete))) ∧
    ShowsNames details (sectionOf "Unmaintained Packages (should be removed):".toList R) (db.filter (fun p => decide (cls p = .unmaintained))) ∧
    sectionOf "Conflict Packages (will be removed):      ".toList R = none := by
  intro R
  have hz : (mkDiff db repo).size ≠ 0 := fun h0 => by
    obtain ⟨p, hp, hp2⟩ := hbad
    exact hp2 ((size_zero_iff hs hr cls hc).mp h0 p hp)
  obtain ⟨_, c2, c3, c4, c5, _⟩ := C28_counts hs hr cls hc
  rw [List.countP_eq_length_filter] at c2 c4 c5
  refine ⟨?_, ?_, ?_, ?_⟩
  · apply showsNames_of (w := (mkDiff db repo).width1) (title := "Rebuild Packages (newer build date):      ")
    rw [report_section _ _ _ _ _ _ hz]
    unfold reportBlocks
    simp only
    rw [List.cons_append, List.find?_cons, pre_other _ (by decide) (by decide) (by decide), List.cons_append, List.find?_cons,
      pre_other _ (by decide) (by decide) (by decide), List.nil_append, List.find?_append, sec_self, List.find?_append,
      sec_none _ _ _ _ (by decide), List.find?_append, sec_none _ _ _ _ (by decide), List.find?_append,
      amount_none _ _ (by decide) (by decide) (by decide), hint_none _ (by decide) (by decide) (by decide), names_eq hs hr cls hc, c2]
    simp only [Option.or_none]
  · apply showsNames_of (w := (mkDiff db repo).width1) (title := "Obsoletes Packages (will be removed):     ")
    rw [report_section _ _ _ _ _ _ hz]
    unfold reportBlocks
    simp only
    rw [List.cons_append, List.find?_cons, pre_other _ (by decide) (by decide) (by decide), List.cons_append, List.find?_cons,
      pre_other _ (by decide) (by decide) (by decide), List.nil_append, List.find?_append, sec_none _ _ _ _ (by decide), List.find?_append,
      sec_self, List.find?_append, sec_none _ _ _ _ (by decide), List.find?_append,
      amount_none _ _ (by decide) (by decide) (by decide), hint_none _ (by decide) (by decide) (by decide), names_eq hs hr cls hc .obsolete, c4]
    simp only [Option.or_none, Option.none_or]
  · apply showsNames_of (w := (mkDiff db repo).width1) (title := "Unmaintained Packages (should be removed):")
    rw [report_section _ _ _ _ _ _ hz]
    unfold reportBlocks
    simp only
    rw [List.cons_append, List.find?_cons, pre_other _ (by decide) (by decide) (by decide), List.cons_append, List.find?_cons,
      pre_other _ (by decide) (by decide) (by decide), List.nil_append, List.find?_append, sec_none _ _ _ _ (by decide), List.find?_append,
      sec_none _ _ _ _ (by decide), List.find?_append, sec_self, List.find?_append,
      amount_none _ _ (by decide) (by decide) (by decide), hint_none _ (by decide) (by decide) (by decide), names_eq hs hr cls hc .unmaintained, c5]
    simp only [Option.or_none, Option.none_or]
  · rw [report_section _ _ _ _ _ _ hz]
    unfold reportBlocks
    simp only
    rw [List.cons_append, List.find?_cons, pre_other _ (by decide) (by decide) (by decide), List.cons_append, List.find?_cons,
      pre_other _ (by decide) (by decide) (by decide), List.nil_append, List.find?_append, sec_none _ _ _ _ (by decide), List.find?_append,
      sec_none _ _ _ _ (by decide), List.find?_append, sec_none _ _ _ _ (by decide), List.find?_append,
      amount_none _ _ (by decide) (by decide) (by decide), hint_none _ (by decide) (by decide) (by decide)]
    rfl

/-- **C85, the totals.** -/
theorem C85_totals (junk : Nat) (details : Bool) (st : StatVfs) {db : InstDb} {repo : List (Str × RepoPkg)} (hs : MSorted db) (hr : ShortReleases db repo)
    (cls : Str × Inst → UpgStatus) (hc : ∀ p ∈ db, Standing db repo p.1 p.2 (cls p)) (hbad : ∃ p ∈ db, cls p ≠ .ok) :
    sectionOf "Number of Packages:                       ".toList (showInfo junk details st db repo) =
      some (dec db.length, ["Unchanged Packages:                       ".toList ++ dec (db.countP (fun p => decide (cls p = .ok))),
        "Added packages (new dependencies):        0".toList]) := by
  have hz : (mkDiff db repo).size ≠ 0 := fun h0 => by
    obtain ⟨p, hp, hp2⟩ := hbad
    exact hp2 ((size_zero_iff hs hr cls hc).mp h0 p hp)
  obtain ⟨c1, _⟩ := C28_counts hs hr cls hc
  rw [report_section _ _ _ _ _ _ hz]
  unfold reportBlocks
  simp only
  rw [List.cons_append, List.find?_cons, pre_self]
  have h0 : "Added packages (new dependencies):        ".toList ++ dec 0 = "Added packages (new dependencies):        0".toList := by
    decide +kernel
  simp only [Option.map_some, List.drop_left, c1, h0]

/-! ### Sizes -/

theorem digit_range : ∀ k < 10, ('0' ≤ digitC k ∧ digitC k ≤ '9') ∧ (digitC k).toNat - 48 = k ∧ digitC k ≠ '.' ∧ digitC k ≠ ' ' := by decide

theorem dec_digits (n : Nat) : (∀ c ∈ dec n, ('0' ≤ c ∧ c ≤ '9') ∧ c ≠ '.' ∧ c ≠ ' ') ∧ (dec n).foldl (fun n c => 10 * n + (c.toNat - 48)) 0 = n := by
  induction n using Nat.strongRecOn with
  | _ n ih =>
    rw [dec.eq_def]
    split
    · rename_i h
      obtain ⟨h1, h2, h3, h4⟩ := digit_range n h
      refine ⟨?_, by simp [h2]⟩
      intro c hc
      rw [List.mem_singleton] at hc
      subst hc
      exact ⟨h1, h3, h4⟩
    · rename_i h
      obtain ⟨h1, h2, h3, h4⟩ := digit_range (n % 10) (by omega)
      obtain ⟨i1, i2⟩ := ih (n / 10) (by omega)
      refine ⟨?_, by rw [List.foldl_append, i2]; simp only [List.foldl_cons, List.foldl_nil, h2]; omega⟩
      intro c hc
      rcases List.mem_append.mp hc with hc | hc
      · exact i1 c hc
      · rw [List.mem_singleton] at hc
        subst hc
        exact ⟨h1, h3, h4⟩

theorem readNat_dec (n : Nat) : readNat (dec n) = some n := by
  unfold readNat
  obtain ⟨h1, h2⟩ := dec_digits n
  rw [if_pos ⟨dec_ne_nil n, by rw [List.all_eq_true]; intro c hc; exact decide_eq_true (h1 c hc).1⟩, h2]

theorem readNat_two {a b : Nat} (ha : a < 10) (hb : b < 10) : readNat [digitC a, digitC b] = some (10 * a + b) := by
  obtain ⟨h1, h2, _⟩ := digit_range a ha
  obtain ⟨h3, h4, _⟩ := digit_range b hb
  unfold readNat
  rw [if_pos ⟨by simp, by simp only [List.all_cons, List.all_nil, Bool.and_true, Bool.and_eq_true, decide_eq_true_eq]; exact ⟨h1, h3⟩⟩]
  simp [h2, h4]

theorem dropBlanks (k : Nat) (s : Str) (h : s.head? ≠ some ' ') : (List.replicate k ' ' ++ s).dropWhile (· = ' ') = s := by
  induction k with
  | zero => cases s with
    | nil => rfl
    | cons a s => rw [List.replicate_zero, List.nil_append, List.dropWhile_cons]; rw [if_neg]; simpa using h
  | succ k ih => rw [List.replicate_succ, List.cons_append, List.dropWhile_cons]; simpa using ih

theorem takeDec (n : Nat) (r : Str) : (dec n ++ '.' :: r).takeWhile (fun c => c ≠ '.') = dec n ∧ (dec n ++ '.' :: r).dropWhile (fun c => c ≠ '.') = '.' :: r := by
  obtain ⟨h1, _⟩ := dec_digits n
  have : ∀ c ∈ dec n, decide (c ≠ '.') = true := fun c hc => by simpa using (h1 c hc).2.1
  constructor
  · rw [List.takeWhile_append_of_pos this]; simp
  · rw [List.dropWhile_append_of_pos this]; simp

theorem dec_head_ne (n : Nat) (r : Str) : (dec n ++ r).head? ≠ some ' ' := by
  obtain ⟨h1, _⟩ := dec_digits n
  cases hd : dec n with
  | nil => exact absurd hd (dec_ne_nil n)
  | cons a l =>
    rw [hd] at h1
    have := (h1 a (by simp)).2.2
    simpa using this

theorem readSize_dec (n : Nat) : readSize (dec n) = some (100 * n, 1) := by
  have hd : (dec n).dropWhile (· = ' ') = dec n := by simpa using dropBlanks 0 (dec n) (by simpa using dec_head_ne n [])
  have : ∀ c ∈ dec n, decide (c ≠ '.') = true := fun c hc => by simpa using ((dec_digits n).1 c hc).2.1
  have ht : (dec n).takeWhile (fun c => c ≠ '.') = dec n := by simpa using List.takeWhile_append_of_pos (l₂ := []) this
  have hw : (dec n).dropWhile (fun c => c ≠ '.') = [] := by simpa using List.dropWhile_append_of_pos (l₂ := []) this
  unfold readSize
  simp only [hd, ht, hw, readNat_dec]
  rfl

theorem readSize_fixed (v unit : Nat) {u : Char} {k : Nat} (hu : unitOf u = some k) : readSize (fixed2 v unit ++ [' ', u]) = some (roundDiv (v * 100) unit, k) := by
  unfold fixed2
  simp only
  generalize roundDiv (v * 100) unit = q
  generalize 5 - (dec (q / 100) ++ ['.', digitC (q % 100 / 10), digitC (q % 10)]).length = j
  have e : List.replicate j ' ' ++ (dec (q / 100) ++ ['.', digitC (q % 100 / 10), digitC (q % 10)]) ++ [' ', u] =
      List.replicate j ' ' ++ (dec (q / 100) ++ '.' :: [digitC (q % 100 / 10), digitC (q % 10), ' ', u]) := by simp
  have hd := dropBlanks j (dec (q / 100) ++ '.' :: [digitC (q % 100 / 10), digitC (q % 10), ' ', u]) (dec_head_ne _ _)
  obtain ⟨ht, hw⟩ := takeDec (q / 100) [digitC (q % 100 / 10), digitC (q % 10), ' ', u]
  rw [e]
  unfold readSize
  simp only [hd, ht, hw, readNat_dec, readNat_two (a := q % 100 / 10) (b := q % 10) (by omega) (by omega), hu]
  congr 2
  omega

/-- The size in hundredths of the unit, and the unit, which a reader takes from the text. -/
theorem readSize_text (v : Nat) : readSize (sizeHumanRead v) =
    if v < 2 ^ 10 then some (100 * v, 1)
    else if v < 2 ^ 20 then some (roundDiv (double53 v * 100) (2 ^ 10), 2 ^ 10)
    else if v < 2 ^ 30 then some (roundDiv (double53 v * 100) (2 ^ 20), 2 ^ 20)
    else some (roundDiv (double53 v * 100) (2 ^ 30), 2 ^ 30) := by
  unfold sizeHumanRead
  have eK : " K".toList = [' ', 'K'] := by decide
  have eM : " M".toList = [' ', 'M'] := by decide
  have eG : " G".toList = [' ', 'G'] := by decide
  split
  · exact readSize_dec v
  · split
    · rw [eK]; exact readSize_fixed _ _ rfl
    · split
      · rw [eM]; exact readSize_fixed _ _ rfl
      · rw [eG]; exact readSize_fixed _ _ rfl

/-- The unit a size is shown in. -/
def unitFor (v : Nat) : Nat := if v < 2 ^ 10 then 1 else if v < 2 ^ 20 then 2 ^ 10 else if v < 2 ^ 30 then 2 ^ 20 else 2 ^ 30

theorem double53_near {v : Nat} (h : v < 2 ^ 64) : v ≤ double53 v + 2 ^ 10 ∧ double53 v ≤ v + 2 ^ 10 := by
  unfold double53
  split
  · omega
  · rename_i h53
    have hv : v ≠ 0 := by omega
    have hl : Nat.log2 v < 64 := (Nat.log2_lt hv).mpr h
    have hp : 2 ^ (Nat.log2 v - 52) ≤ 2 ^ 11 := Nat.pow_le_pow_right (by omega) (by omega)
    obtain ⟨h1, h2⟩ := roundDiv_near v (2 ^ (Nat.log2 v - 52)) (Nat.two_pow_pos _)
    omega

/-- **C85, sizes.** What a reader takes from a size that is printed is the size, in bytes below 1024 and else in the largest unit that is not larger than the
size, to the nearest hundredth of the unit (to less than a hundredth above 2^53 bytes). -/
theorem C85_size {v : Nat} (h : v < 2 ^ 64) :
    ∃ n, readSize (sizeHumanRead v) = some (n, unitFor v) ∧ (unitFor v = 1 ∨ unitFor v ≤ v) ∧ (v < 1024 * unitFor v ∨ unitFor v = 2 ^ 30) ∧
      (v < 1024 → n = 100 * v) ∧
      (v < 2 ^ 53 → 2 * (100 * v) ≤ 2 * (n * unitFor v) + unitFor v ∧ 2 * (n * unitFor v) ≤ 2 * (100 * v) + unitFor v) ∧
      100 * v ≤ n * unitFor v + unitFor v ∧ n * unitFor v ≤ 100 * v + unitFor v := by
  rw [readSize_text]
  obtain ⟨d1, d2⟩ := double53_near h
  have d3 : v < 2 ^ 53 → double53 v = v := fun h' => by unfold double53; rw [if_pos h']
  unfold unitFor
  split
  · refine ⟨_, rfl, ?_⟩; omega
  · split
    · obtain ⟨r1, r2⟩ := roundDiv_near (double53 v * 100) (2 ^ 10) (by decide)
      refine ⟨_, rfl, ?_⟩
      have := d3 (by omega)
      omega
    · split
      · obtain ⟨r1, r2⟩ := roundDiv_near (double53 v * 100) (2 ^ 20) (by decide)
        refine ⟨_, rfl, ?_⟩
        have := d3 (by omega)
        omega
      · obtain ⟨r1, r2⟩ := roundDiv_near (double53 v * 100) (2 ^ 30) (by decide)
        refine ⟨_, rfl, by omega, by omega, by omega, ?_, by omega, by omega⟩
        intro h53
        have := d3 h53
        omega

theorem roundDiv_mono {a b d : Nat} (hd : 0 < d) (h : a ≤ b) : roundDiv a d ≤ roundDiv b d := by
  have hq := Nat.div_le_div_right (c := d) h
  have ha := Nat.div_add_mod a d
  have hb := Nat.div_add_mod b d
  have hma := Nat.mod_lt a hd
  by_cases he : a / d = b / d
  · rw [he] at ha
    have hm : a % d ≤ b % d := by omega
    unfold roundDiv
    simp only [he]
    generalize a % d = r at *
    generalize b % d = t at *
    by_cases c1 : 2 * r < d <;> by_cases c2 : 2 * r = d <;> by_cases c3 : 2 * t < d <;> by_cases c4 : 2 * t = d <;> by_cases c5 : b / d % 2 = 0 <;>
      simp only [c1, c2, c3, c4, c5, if_true, if_false, Nat.lt_irrefl] <;> omega
  · have hlt : a / d + 1 ≤ b / d := by omega
    have h1 : roundDiv a d ≤ a / d + 1 := by unfold roundDiv; simp only; split <;> (try split) <;> (try split) <;> omega
    have h2 : b / d ≤ roundDiv b d := by unfold roundDiv; simp only; split <;> (try split) <;> (try split) <;> omega
    omega

/-- **C85, sizes in order.** Of two sizes the larger one is not shown as the smaller. -/
theorem C85_size_monotone {v w : Nat} (h : v ≤ w) (hw : w < 2 ^ 53) :
    ∃ n a m b, readSize (sizeHumanRead v) = some (n, a) ∧ readSize (sizeHumanRead w) = some (m, b) ∧ n * a ≤ m * b := by
  rw [readSize_text, readSize_text]
  have dv : double53 v = v := by unfold double53; rw [if_pos (by omega)]
  have dw : double53 w = w := by unfold double53; rw [if_pos hw]
  rw [dv, dw]
  have m10 := roundDiv_mono (d := 2 ^ 10) (by decide) (show v * 100 ≤ w * 100 by omega)
  have m20 := roundDiv_mono (d := 2 ^ 20) (by decide) (show v * 100 ≤ w * 100 by omega)
  have m30 := roundDiv_mono (d := 2 ^ 30) (by decide) (show v * 100 ≤ w * 100 by omega)
  have top : ∀ x d, 0 < d → x ≤ 102400 * d → roundDiv x d ≤ 102400 := by
    intro x d hd hx
    have := roundDiv_mono hd hx
    have e : roundDiv (102400 * d) d = 102400 := by
      unfold roundDiv
      simp only [Nat.mul_div_cancel _ hd, Nat.mul_mod_left, Nat.mul_zero]
      rw [if_pos hd]
    omega
  have bot : ∀ x d, 0 < d → 100 * d ≤ x → 100 ≤ roundDiv x d := by
    intro x d hd hx
    have := roundDiv_mono hd hx
    have e : roundDiv (100 * d) d = 100 := by
      unfold roundDiv
      simp only [Nat.mul_div_cancel _ hd, Nat.mul_mod_left, Nat.mul_zero]
      rw [if_pos hd]
    omega
  have b10 := bot (w * 100) (2 ^ 10) (by decide)
  have b20 := bot (w * 100) (2 ^ 20) (by decide)
  have b30 := bot (w * 100) (2 ^ 30) (by decide)
  have t10 := top (v * 100) (2 ^ 10) (by decide)
  have t20 := top (v * 100) (2 ^ 20) (by decide)
  generalize roundDiv (v * 100) (2 ^ 10) = v1 at *
  generalize roundDiv (v * 100) (2 ^ 20) = v2 at *
  generalize roundDiv (v * 100) (2 ^ 30) = v3 at *
  generalize roundDiv (w * 100) (2 ^ 10) = w1 at *
  generalize roundDiv (w * 100) (2 ^ 20) = w2 at *
  generalize roundDiv (w * 100) (2 ^ 30) = w3 at *
  split
  · split
    · exact ⟨_, _, _, _, rfl, rfl, by omega⟩
    · split
      · exact ⟨_, _, _, _, rfl, rfl, by omega⟩
      · split
        · exact ⟨_, _, _, _, rfl, rfl, by omega⟩
        · exact ⟨_, _, _, _, rfl, rfl, by omega⟩
  · rw [if_neg (show ¬ w < 2 ^ 10 by omega)]
    split
    · split
      · exact ⟨_, _, _, _, rfl, rfl, by omega⟩
      · split
        · exact ⟨_, _, _, _, rfl, rfl, by omega⟩
        · exact ⟨_, _, _, _, rfl, rfl, by omega⟩
    · rw [if_neg (show ¬ w < 2 ^ 20 by omega)]
      split
      · split
        · exact ⟨_, _, _, _, rfl, rfl, by omega⟩
        · exact ⟨_, _, _, _, rfl, rfl, by omega⟩
      · rw [if_neg (show ¬ w < 2 ^ 30 by omega)]
        exact ⟨_, _, _, _, rfl, rfl, by omega⟩

/-- **C85, amounts.** The part on sizes shows the available space, the download size, the sizes to be installed and removed, and which is larger by how much. -/
theorem C85_amounts (junk : Nat) (details : Bool) (st : StatVfs) {db : InstDb} {repo : List (Str × RepoPkg)} (hz : ∃ l, showInfo junk details st db repo = [] :: l) :
    let R := showInfo junk details st db repo
    let d := mkDiff db repo
    sectionOf "Available space on your system:           ".toList R = some (sizeHumanRead (availableSpace st) ++ "bytes".toList, []) ∧
    ∃ more, sectionOf "Total download size:                      ".toList R = some (sizeHumanRead d.downloadSize ++ "bytes".toList,
      ["Total size of reinstalled packages:       ".toList ++ sizeHumanRead d.addSize ++ "bytes".toList,
       "Total size of remove packages:            ".toList ++ sizeHumanRead d.removeSize ++ "bytes".toList] ++ more) ∧
      (d.addSize = d.removeSize → more = []) ∧
      (∀ k, 0 < k → d.addSize = d.removeSize + k → more = ["Total amount of added bytes:              ".toList ++ sizeHumanRead k ++ "bytes".toList]) ∧
      (∀ k, 0 < k → d.removeSize = d.addSize + k → more = ["Total amount of removed bytes:            ".toList ++ sizeHumanRead k ++ "bytes".toList]) := by
  intro R d
  have hz : (mkDiff db repo).size ≠ 0 := fun h0 => by
    obtain ⟨l, hl⟩ := hz
    unfold showInfo at hl
    simp only [h0, if_true] at hl
    injection hl with h1 _
    exact absurd h1 (by decide)
  refine ⟨?_, ?_⟩
  · rw [report_section _ _ _ _ _ _ hz]
    unfold reportBlocks
    simp only
    rw [List.cons_append, List.find?_cons, pre_other _ (by decide) (by decide) (by decide), List.cons_append, List.find?_cons,
      pre_other _ (by decide) (by decide) (by decide), List.nil_append, List.find?_append, sec_none _ _ _ _ (by decide), List.find?_append,
      sec_none _ _ _ _ (by decide), List.find?_append, sec_none _ _ _ _ (by decide), List.find?_append]
    unfold amountBlocks
    rw [List.find?_cons, pre_self]
    simp only [Option.none_or, Option.some_or, Option.map_some, List.drop_left]
  · refine ⟨(amountTail d).drop 2, ?_, ?_, ?_, ?_⟩
    · rw [report_section _ _ _ _ _ _ hz]
      unfold reportBlocks
      simp only
      rw [List.cons_append, List.find?_cons, pre_other _ (by decide) (by decide) (by decide), List.cons_append, List.find?_cons,
        pre_other _ (by decide) (by decide) (by decide), List.nil_append, List.find?_append, sec_none _ _ _ _ (by decide), List.find?_append,
        sec_none _ _ _ _ (by decide), List.find?_append, sec_none _ _ _ _ (by decide), List.find?_append]
      unfold amountBlocks
      rw [List.find?_cons, pre_other _ (by decide) (by decide) (by decide), List.find?_cons, pre_self]
      simp only [Option.none_or, Option.some_or, Option.map_some, List.drop_left]
      rfl
    · intro h
      unfold amountTail
      rw [if_neg (by omega), if_neg (by omega)]
      rfl
    · intro k hk h
      unfold amountTail
      have : d.addSize - d.removeSize = k := by omega
      rw [if_pos (by omega), if_neg (by omega), this]
      rfl
    · intro k hk h
      unfold amountTail
      have : d.removeSize - d.addSize = k := by omega
      rw [if_neg (by omega), if_pos (by omega), this]
      rfl

/-- **C85, the advice.** With at most 2^21 packages installed, the advice to upgrade is given exactly when more than a fifth of them is not up to date. -/
theorem C85_advice (junk : Nat) (details : Bool) (st : StatVfs) {db : InstDb} {repo : List (Str × RepoPkg)} (hs : MSorted db) (hr : ShortReleases db repo)
    (cls : Str × Inst → UpgStatus) (hc : ∀ p ∈ db, Standing db repo p.1 p.2 (cls p)) (hbad : ∃ p ∈ db, cls p ≠ .ok) (hn : db.length ≤ 2 ^ 21) :
    (sectionOf "Percentage of obsoletes packages: ".toList (showInfo junk details st db repo)).isSome ↔
      db.length < 5 * db.countP (fun p => decide (cls p ≠ .ok)) := by
  have hz : (mkDiff db repo).size ≠ 0 := fun h0 => by
    obtain ⟨p, hp, hp2⟩ := hbad
    exact hp2 ((size_zero_iff hs hr cls hc).mp h0 p hp)
  obtain ⟨p0, hp0, _⟩ := hbad
  obtain ⟨c1, _, _, _, _, _, c7⟩ := C28_counts hs hr cls hc
  have hpos : 0 < db.length := List.length_pos_of_mem hp0
  have hlim := ratio_limit junk (mkDiff db repo).okCount db.length hpos hn (by omega)
  have hcomp : db.countP (fun p => decide (cls p ≠ .ok)) + db.countP (fun p => decide (cls p = .ok)) = db.length := by
    clear * -
    induction db with
    | nil => rfl
    | cons a l ih => simp only [List.countP_cons, List.length_cons]; by_cases h : cls a = .ok <;> simp [h] <;> simp at ih <;> omega
  rw [report_section _ _ _ _ _ _ hz]
  unfold reportBlocks
  simp only
  rw [List.cons_append, List.find?_cons, pre_other _ (by decide) (by decide) (by decide), List.cons_append, List.find?_cons,
    pre_other _ (by decide) (by decide) (by decide), List.nil_append, List.find?_append, sec_none _ _ _ _ (by decide), List.find?_append,
    sec_none _ _ _ _ (by decide), List.find?_append, sec_none _ _ _ _ (by decide), List.find?_append,
    amount_none _ _ (by decide) (by decide) (by decide)]
  simp only [Option.none_or, Option.isSome_map]
  unfold hintBlocks
  by_cases h : 20 < ratio junk (mkDiff db repo).okCount db.length
  · rw [if_pos h, List.find?_cons, pre_self]
    simp only [Option.isSome_some, true_iff]
    have := hlim.mp h
    omega
  · rw [if_neg h]
    have := mt hlim.mpr h
    simp only [List.find?_nil, Option.isSome_none, Bool.false_eq_true, false_iff]
    omega

set_option maxHeartbeats 1000000 in
theorem ratio_near (junk ok total : Nat) (h0 : 0 < total) (ht : total ≤ 2 ^ 14) (hok : ok ≤ total) :
    ratio junk ok total ≤ 100 ∧ 100 * (total - ok) ≤ ratio junk ok total * total ∧ ratio junk ok total * total ≤ 100 * (total - ok) + total := by
  unfold ratio
  rw [if_neg (by omega)]
  simp only
  by_cases hz : ok = 0
  · subst hz; simp [single]
  have hpos : 0 < ok := by omega
  obtain ⟨a1, a2, a3, a4, a5⟩ := single_spec hpos h0 44 (by omega) (by
    have : 2 ^ 44 = 2 ^ 23 * 2 ^ 21 := by norm_num
    rw [this]
    calc 2 ^ 23 * total ≤ 2 ^ 23 * 2 ^ 21 := Nat.mul_le_mul_left _ (by omega)
      _ ≤ ok * (2 ^ 23 * 2 ^ 21) := Nat.le_mul_of_pos_left _ hpos)
  generalize hm : (single ok total).1 = m at *
  generalize hk : (single ok total).2 = k at *
  have hKpos : 0 < 2 ^ k := Nat.two_pow_pos k
  have hK : 2 ^ 23 ≤ 2 ^ k := by
    have : 2 ^ 23 * total ≤ 2 ^ k * total := by nlinarith
    exact Nat.le_of_mul_le_mul_right this h0
  have hmK : m ≤ 2 ^ k := by
    apply Nat.le_of_not_lt
    intro h
    have : 2 * ((2 ^ k + 1) * total) ≤ 2 * (m * total) := by nlinarith
    nlinarith
  have hmpos : 0 < m := by
    apply Nat.pos_of_ne_zero
    rintro rfl
    nlinarith
  obtain ⟨b1, b2, b3, b4, b5⟩ := single_spec (n := m * 100) (d := 2 ^ k) (by omega) hKpos 67 (by omega) (by
    have h44 : 2 ^ k ≤ 2 ^ 44 := Nat.pow_le_pow_right (by omega) a3
    have : (2 : Nat) ^ 67 = 2 ^ 23 * 2 ^ 44 := by norm_num
    rw [this]
    nlinarith)
  generalize hr : (single (m * 100) (2 ^ k)).1 = r at *
  generalize hj : (single (m * 100) (2 ^ k)).2 = j at *
  have hJpos : 0 < 2 ^ j := Nat.two_pow_pos j
  have hJ : 2 ^ 17 ≤ 2 ^ j := by
    have : 2 ^ 16 * 2 ^ k < 2 ^ j * 2 ^ k := by nlinarith
    exact Nat.pow_le_pow_right (by omega) (two_pow_lt (Nat.lt_of_mul_lt_mul_right this))
  generalize hKK : 2 ^ k = K at *
  generalize hJJ : 2 ^ j = J at *
  have hP1 : r / J * J ≤ r := Nat.div_mul_le_self r J
  have hP2 : r < (r / J + 1) * J := by rw [Nat.add_mul, Nat.one_mul]; exact Nat.lt_div_mul_add hJpos
  generalize r / J = P at *
  have small1 : 100 * J * total ≤ J * K := by linarith [Nat.mul_le_mul_right (100 * J) ht, Nat.mul_le_mul_right J hK]
  have small2 : 8 * (K * total) ≤ J * K := by linarith [Nat.mul_le_mul_right (8 * K) ht, Nat.mul_le_mul_right K hJ]
  have e1 : 100 * J * (2 * (m * total)) ≤ 100 * J * (2 * (ok * K) + total) := Nat.mul_le_mul_left _ a5
  have e2 : 100 * J * (2 * (ok * K)) ≤ 100 * J * (2 * (m * total) + total) := Nat.mul_le_mul_left _ a4
  have hJK : 0 < J * K := Nat.mul_pos hJpos hKpos
  have h50 : 200 * (J * total) ≤ J * K := by linarith [Nat.mul_le_mul_right (200 * J) ht, Nat.mul_le_mul_right J hK]
  have lo : P * total ≤ 100 * ok := by
    apply Nat.le_of_not_lt
    intro h
    have c1 : (P * J) * K * total ≤ r * K * total := Nat.mul_le_mul_right _ (Nat.mul_le_mul_right _ hP1)
    have c2 : 2 * (r * K) * total ≤ (2 * (m * 100 * J) + K) * total := Nat.mul_le_mul_right _ b5
    have c3 : (100 * ok + 1) * (J * K) ≤ P * total * (J * K) := Nat.mul_le_mul_right _ h
    nlinarith
  have hi : 100 * ok ≤ (P + 1) * total := by
    apply Nat.le_of_not_lt
    intro h
    have c1 : r * K * total ≤ (P + 1) * J * K * total := Nat.mul_le_mul_right _ (Nat.mul_le_mul_right _ (Nat.le_of_lt hP2))
    have c2 : 2 * (m * 100 * J) * total ≤ (2 * (r * K) + K) * total := Nat.mul_le_mul_right _ b4
    have c3 : ((P + 1) * total + 1) * (J * K) ≤ 100 * ok * (J * K) := Nat.mul_le_mul_right _ h
    nlinarith
  have hP : P ≤ 100 := by
    apply Nat.le_of_not_lt
    intro h
    have : 101 * total ≤ P * total := Nat.mul_le_mul_right _ h
    omega
  have e3 : (100 - P) * total = 100 * total - P * total := Nat.sub_mul _ _ _
  have e4 : (P + 1) * total = P * total + total := Nat.succ_mul _ _
  omega

/-- **C85, the percentage.** With at most 2^14 packages, the percentage of packages that are not up to date is shown to within one per cent, rounded up. -/
theorem C85_percentage_partial (junk : Nat) (details : Bool) (st : StatVfs) {db : InstDb} {repo : List (Str × RepoPkg)} (hs : MSorted db)
    (hr : ShortReleases db repo) (cls : Str × Inst → UpgStatus) (hc : ∀ p ∈ db, Standing db repo p.1 p.2 (cls p)) (hbad : ∃ p ∈ db, cls p ≠ .ok)
    (hn : db.length ≤ 2 ^ 14) {t : Str} {rows : List Str}
    (hsec : sectionOf "Percentage of obsoletes packages: ".toList (showInfo junk details st db repo) = some (t, rows)) :
    rows = [] ∧ ∃ r, t = dec r ++ " %".toList ∧ r ≤ 100 ∧ 100 * db.countP (fun p => decide (cls p ≠ .ok)) ≤ r * db.length ∧
      r * db.length ≤ 100 * db.countP (fun p => decide (cls p ≠ .ok)) + db.length := by
  have hz : (mkDiff db repo).size ≠ 0 := fun h0 => by
    obtain ⟨p, hp, hp2⟩ := hbad
    exact hp2 ((size_zero_iff hs hr cls hc).mp h0 p hp)
  obtain ⟨p0, hp0, _⟩ := hbad
  obtain ⟨c1, _, _, _, _, _, c7⟩ := C28_counts hs hr cls hc
  have hpos : 0 < db.length := List.length_pos_of_mem hp0
  have hnear := ratio_near junk (mkDiff db repo).okCount db.length hpos hn (by omega)
  have hcomp : db.countP (fun p => decide (cls p ≠ .ok)) = db.length - (mkDiff db repo).okCount := by
    have : db.countP (fun p => decide (cls p ≠ .ok)) + db.countP (fun p => decide (cls p = .ok)) = db.length := by
      clear * -
      induction db with
      | nil => rfl
      | cons a l ih => simp only [List.countP_cons, List.length_cons]; by_cases h : cls a = .ok <;> simp [h] <;> simp at ih <;> omega
    omega
  rw [report_section _ _ _ _ _ _ hz] at hsec
  unfold reportBlocks at hsec
  simp only at hsec
  rw [List.cons_append, List.find?_cons, pre_other _ (by decide) (by decide) (by decide), List.cons_append, List.find?_cons,
    pre_other _ (by decide) (by decide) (by decide), List.nil_append, List.find?_append, sec_none _ _ _ _ (by decide), List.find?_append,
    sec_none _ _ _ _ (by decide), List.find?_append, sec_none _ _ _ _ (by decide), List.find?_append,
    amount_none _ _ (by decide) (by decide) (by decide)] at hsec
  simp only [Option.none_or] at hsec
  unfold hintBlocks at hsec
  by_cases h : 20 < ratio junk (mkDiff db repo).okCount db.length
  · rw [if_pos h, List.find?_cons, pre_self] at hsec
    simp only [Option.map_some, List.drop_left, Option.some.injEq, Prod.mk.injEq] at hsec
    refine ⟨hsec.2.symm, _, hsec.1.symm, hnear.1, ?_⟩
    rw [hcomp]
    exact hnear.2
  · rw [if_neg h, List.find?_nil, Option.map_none] at hsec
    cases hsec

/-- The name of the `n`th package of the example below. -/
def hundredName (n : Nat) : Str := [digitC (n / 10), digitC (n % 10)]

/-- A hundred installed packages, of which the repository has a newer build of 47. -/
def hundredDb : InstDb := (List.range 100).map (fun n => (hundredName n, uInst "1" 10 false))
def hundredRepo : List (Str × RepoPkg) := (List.range 100).map (fun n => (hundredName n, uPkg "1" (if n < 53 then 10 else 20)))

/-- **C85, the percentage is not exact**: single precision arithmetic makes 48 of 47 packages out of a hundred. -/
theorem C85_percentage_counterexample :
    sectionOf "Percentage of obsoletes packages: ".toList (showInfo 0 false ⟨4096, 4096, 1000⟩ hundredDb hundredRepo) = some ("48 %".toList, []) ∧
    sectionOf "Number of Packages:                       ".toList (showInfo 0 false ⟨4096, 4096, 1000⟩ hundredDb hundredRepo) =
      some ("100".toList, ["Unchanged Packages:                       53".toList, "Added packages (new dependencies):        0".toList]) := by
  decide +kernel

/-- **C85, the available space**: it is computed with the block size instead of the unit in which the blocks are counted, here 256 times too large. -/
theorem C85_space_counterexample : availableSpace ⟨1048576, 4096, 1000⟩ = 256 * (4096 * 1000) := by decide

/-- The available space is right on file systems where both are the same. -/
theorem C85_space_partial {st : StatVfs} (h : st.bsize = st.frsize) (h64 : st.frsize * st.bavail < 2 ^ 64) : availableSpace st = st.frsize * st.bavail := by
  unfold availableSpace
  rw [h, Nat.mod_eq_of_lt h64]

example : availableSpace ⟨4096, 4096, 1000⟩ = 4096000 := by decide

/-- A report. -/
example : showInfo 0 true ⟨4096, 4096, 1000⟩ uDb uRepo =
    ["", "Number of Packages:                       5", "Unchanged Packages:                       1", "Added packages (new dependencies):        0",
     "", "Out of Date Packages (different version): 1", "Name: Installed: Available:", "bash  5-1        6-1",
     "", "Rebuild Packages (newer build date):      1", "gcc   ", "", "Obsoletes Packages (will be removed):     1", "libx  ",
     "", "Unmaintained Packages (should be removed):1", "mine  ", "", "Available space on your system:            3.91 Mbytes",
     "", "Total download size:                      140bytes", "Total size of reinstalled packages:        2.34 Kbytes",
     "Total size of remove packages:             1.95 Kbytes", "Total amount of added bytes:              400bytes",
     "", "Percentage of obsoletes packages: 80 %", "", "Use the command: \x1b[1;34msudo cards upgrade --proceed\x1b[1;0m",
     "when you're ready to upgrade your system.", ""].map (·.toList) := by
  decide +kernel

end Cards.Props
