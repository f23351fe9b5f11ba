import Mathlib.Tactic.Common
import Verif.Spec.Tools
import Verif.Props.Meta
/-!
# C74: the command lines of pkgadd, pkgrm and pkginfo
-/
namespace Cards.Props
open Cards Cards.Spec

/-! ## Words -/

/-- The words the loops accept after the word `f`. -/
def WOk (f : Str) : List Str → Prop
  | [] => True
  | w :: ws => f = [] ∧ w.head? ≠ some '-' ∧ WOk w ws

theorem wok_last {ws : List Str} : ∀ {f : Str}, WOk f ws → ∃ k, (ws = [] ∧ k = 0) ∨ (f = [] ∧ ∃ w, ws = List.replicate k [] ++ [w] ∧ w.head? ≠ some '-') := by
  induction ws with
  | nil => intro f _; exact ⟨0, Or.inl ⟨rfl, rfl⟩⟩
  | cons w ws ih =>
    rintro f ⟨h1, h2, h3⟩
    obtain ⟨k, h | ⟨h, w', h4, h5⟩⟩ := ih h3
    · exact ⟨0, Or.inr ⟨h1, w, by simp [h.1], h2⟩⟩
    · subst h
      exact ⟨k + 1, Or.inr ⟨h1, w', by rw [h4, List.replicate_succ]; rfl, h5⟩⟩

theorem wok_of {k : Nat} {w : Str} (h : w.head? ≠ some '-') : WOk [] (List.replicate k [] ++ [w]) := by
  induction k with
  | zero => exact ⟨rfl, h, trivial⟩
  | succ k ih => exact ⟨rfl, by simp, ih⟩

theorem wok_empty {k : Nat} : WOk [] (List.replicate k []) := by
  induction k with
  | zero => trivial
  | succ k ih => exact ⟨rfl, by simp, ih⟩

theorem last_replicate (k : Nat) : ([] : Str) = ((List.replicate k ([] : Str)).getLast?.getD []) := by
  cases k with
  | zero => rfl
  | succ k => rw [List.getLast?_replicate]; simp

theorem theWord_iff (ws : List Str) (w : Str) : (WOk [] ws ∧ ws.getLast?.getD [] = w ∧ w ≠ []) ↔ TheWord ws w := by
  constructor
  · rintro ⟨h1, h2, h3⟩
    obtain ⟨k, h | ⟨-, w', h4, h5⟩⟩ := wok_last h1
    · rw [h.1] at h2; exact absurd h2.symm h3
    · rw [h4] at h2
      simp at h2
      subst h2
      exact ⟨⟨k, h4⟩, h3, h5⟩
  · rintro ⟨⟨k, h⟩, h1, h2⟩
    subst h
    exact ⟨wok_of h2, by simp, h1⟩

theorem noWord_iff (ws : List Str) : (WOk [] ws ∧ ws.getLast?.getD [] = []) ↔ ∃ k, ws = List.replicate k [] := by
  constructor
  · rintro ⟨h1, h2⟩
    obtain ⟨k, h | ⟨-, w', h4, -⟩⟩ := wok_last h1
    · exact ⟨0, h.1⟩
    · rw [h4] at h2
      simp at h2
      subst h2
      exact ⟨k + 1, by rw [h4, ← List.replicate_succ']⟩
  · rintro ⟨k, rfl⟩
    exact ⟨wok_empty, (last_replicate k).symm⟩

/-! ## pkgadd -/

def AddItem.apply (a : AddArgs) : AddItem → AddArgs
  | .root _ d => { a with root := d ++ a.root }
  | .ignore _ => { a with runScripts := false }
  | .upgrade _ => { a with upgrade := true }
  | .force _ => { a with force := true }
  | .progress _ => { a with progress := true }
  | .word w => { a with file := w }

theorem addLoop_items (items : List AddItem) : ∀ (a : AddArgs), WOk a.file (items.filterMap AddItem.word?) →
    (∀ w ∈ items.filterMap AddItem.word?, w.head? ≠ some '-') → addLoop a (items.flatMap AddItem.text) = .ok (items.foldl AddItem.apply a) := by
  induction items with
  | nil => intro a _ _; rfl
  | cons i items ih =>
    intro a h hw
    cases i with
    | root l d => cases l <;> exact ih _ h hw
    | ignore l =>
      show addLoop a (spell l "-i" "--ignore" :: items.flatMap AddItem.text) = _
      rw [addLoop.eq_def]
      simp only
      rw [if_neg (by cases l <;> decide), if_pos (by cases l <;> decide)]
      exact ih (AddItem.apply a (.ignore l)) h hw
    | upgrade l =>
      show addLoop a (spell l "-u" "--upgrade" :: items.flatMap AddItem.text) = _
      rw [addLoop.eq_def]
      simp only
      rw [if_neg (by cases l <;> decide), if_neg (by cases l <;> decide), if_pos (by cases l <;> decide)]
      exact ih (AddItem.apply a (.upgrade l)) h hw
    | force l =>
      show addLoop a (spell l "-f" "--force" :: items.flatMap AddItem.text) = _
      rw [addLoop.eq_def]
      simp only
      rw [if_neg (by cases l <;> decide), if_neg (by cases l <;> decide), if_neg (by cases l <;> decide), if_pos (by cases l <;> decide)]
      exact ih (AddItem.apply a (.force l)) h hw
    | progress l =>
      show addLoop a (spell l "-p" "--progress" :: items.flatMap AddItem.text) = _
      rw [addLoop.eq_def]
      simp only
      rw [if_neg (by cases l <;> decide), if_neg (by cases l <;> decide), if_neg (by cases l <;> decide), if_neg (by cases l <;> decide), if_pos (by cases l <;> decide)]
      exact ih (AddItem.apply a (.progress l)) h hw
    | word w =>
      obtain ⟨h1, h2, h3⟩ := h
      have e : ∀ c : Char, ∀ t : Str, w ≠ '-' :: t := by rintro _ t rfl; exact h2 rfl
      show addLoop a (w :: items.flatMap AddItem.text) = _
      rw [addLoop.eq_def]
      have n : ∀ t : Str, t.head? = some '-' → w ≠ t := by rintro t ht rfl; exact h2 ht
      simp only
      rw [if_neg (not_or.2 ⟨n _ rfl, n _ rfl⟩), if_neg (not_or.2 ⟨n _ rfl, n _ rfl⟩), if_neg (not_or.2 ⟨n _ rfl, n _ rfl⟩),
        if_neg (not_or.2 ⟨n _ rfl, n _ rfl⟩), if_neg (not_or.2 ⟨n _ rfl, n _ rfl⟩), if_neg (not_or.2 ⟨h2, not_not.2 h1⟩)]
      exact ih _ h3 (fun w hw' => hw w (List.mem_cons_of_mem _ hw'))

theorem wok_dash {ws : List Str} : ∀ {f : Str}, WOk f ws → ∀ w ∈ ws, w.head? ≠ some '-' := by
  induction ws with
  | nil => intro f _ w hw; cases hw
  | cons x ws ih =>
    rintro f ⟨-, h2, h3⟩ w hw
    rcases List.mem_cons.1 hw with rfl | hw
    · exact h2
    · exact ih h3 w hw

theorem spell_iff {o : Str} {s l : String} : (o = s.toList ∨ o = l.toList) → ∃ b, o = spell b s l := by
  rintro (h | h)
  · exact ⟨false, h⟩
  · exact ⟨true, h⟩

theorem addLoop_parse (n : Nat) : ∀ (argv : List Str) (a b : AddArgs), argv.length ≤ n → addLoop a argv = .ok b →
    ∃ items : List AddItem, argv = items.flatMap AddItem.text ∧ WOk a.file (items.filterMap AddItem.word?) ∧ b = items.foldl AddItem.apply a := by
  induction n with
  | zero =>
    intro argv a b hn h
    cases argv with
    | nil => cases h; exact ⟨[], rfl, trivial, rfl⟩
    | cons => simp at hn
  | succ n ih =>
    intro argv a b hn h
    cases argv with
    | nil => cases h; exact ⟨[], rfl, trivial, rfl⟩
    | cons o rest =>
      have hr : rest.length ≤ n := by simpa using hn
      rw [addLoop.eq_def] at h
      simp only at h
      split at h
      · rename_i ho
        obtain ⟨l, ho⟩ := spell_iff ho
        cases rest with
        | nil => cases h
        | cons v rest =>
          obtain ⟨it, e1, e2, e3⟩ := ih rest _ _ (by simp at hr; omega) h
          exact ⟨.root l v :: it, by rw [ho, e1]; rfl, e2, e3⟩
      split at h
      · rename_i ho
        obtain ⟨l, ho⟩ := spell_iff ho
        obtain ⟨it, e1, e2, e3⟩ := ih rest _ _ hr h
        exact ⟨.ignore l :: it, by rw [ho, e1]; rfl, e2, e3⟩
      split at h
      · rename_i ho
        obtain ⟨l, ho⟩ := spell_iff ho
        obtain ⟨it, e1, e2, e3⟩ := ih rest _ _ hr h
        exact ⟨.upgrade l :: it, by rw [ho, e1]; rfl, e2, e3⟩
      split at h
      · rename_i ho
        obtain ⟨l, ho⟩ := spell_iff ho
        obtain ⟨it, e1, e2, e3⟩ := ih rest _ _ hr h
        exact ⟨.force l :: it, by rw [ho, e1]; rfl, e2, e3⟩
      split at h
      · rename_i ho
        obtain ⟨l, ho⟩ := spell_iff ho
        obtain ⟨it, e1, e2, e3⟩ := ih rest _ _ hr h
        exact ⟨.progress l :: it, by rw [ho, e1]; rfl, e2, e3⟩
      split at h
      · cases h
      · rename_i ho
        rw [not_or, not_not] at ho
        obtain ⟨it, e1, e2, e3⟩ := ih rest _ _ hr h
        exact ⟨.word o :: it, by rw [e1]; rfl, ⟨ho.2, ho.1, e2⟩, e3⟩

theorem rootOf_step (d r : Str) (ds : List Str) : (ds.reverse.flatten) ++ (d ++ r) = (d :: ds).reverse.flatten ++ r := by simp

theorem apply_fields (items : List AddItem) : ∀ a : AddArgs,
    (items.foldl AddItem.apply a).root = (items.filterMap AddItem.dir?).reverse.flatten ++ a.root ∧
    ((items.foldl AddItem.apply a).runScripts = true ↔ a.runScripts = true ∧ ∀ l, AddItem.ignore l ∉ items) ∧
    ((items.foldl AddItem.apply a).upgrade = true ↔ a.upgrade = true ∨ ∃ l, AddItem.upgrade l ∈ items) ∧
    ((items.foldl AddItem.apply a).force = true ↔ a.force = true ∨ ∃ l, AddItem.force l ∈ items) ∧
    ((items.foldl AddItem.apply a).progress = true ↔ a.progress = true ∨ ∃ l, AddItem.progress l ∈ items) ∧
    (items.foldl AddItem.apply a).file = (items.filterMap AddItem.word?).getLast?.getD a.file := by
  induction items with
  | nil => intro a; simp
  | cons i items ih =>
    intro a
    obtain ⟨h1, h2, h3, h4, h5, h6⟩ := ih (AddItem.apply a i)
    rw [List.foldl_cons]
    refine ⟨h1.trans ?_, h2.trans ?_, h3.trans ?_, h4.trans ?_, h5.trans ?_, h6.trans ?_⟩ <;> cases i <;>
      simp [AddItem.apply, AddItem.dir?, AddItem.word?, List.getLast?_cons, List.filterMap_cons] <;> (rename_i l; cases l <;> simp)

/-- **C74.** The lines pkgadd accepts, and what it does with them: exactly one file, the options anywhere, in any order and number. -/
theorem C74_add_line (argv : List Str) (a : AddArgs) :
    addArgs argv = .ok a ↔ ∃ items : List AddItem, argv = items.flatMap AddItem.text ∧ AddSays items a := by
  constructor
  · intro h
    unfold addArgs at h
    cases hl : addLoop .start argv with
    | error e => rw [hl] at h; cases h
    | ok b =>
      rw [hl] at h
      simp only at h
      split at h
      · cases h
      · rename_i hf
        cases h
        obtain ⟨it, e1, e2, e3⟩ := addLoop_parse _ argv .start a (Nat.le_refl _) hl
        obtain ⟨h1, h2, h3, h4, h5, h6⟩ := apply_fields it .start
        rw [← e3] at h1 h2 h3 h4 h5 h6
        exact ⟨it, e1, (theWord_iff _ _).1 ⟨e2, h6.symm, hf⟩, h1, by simpa [AddArgs.start] using h2, by simpa [AddArgs.start] using h3,
          by simpa [AddArgs.start] using h4, by simpa [AddArgs.start] using h5⟩
  · rintro ⟨it, e1, hs⟩
    obtain ⟨w1, w2, w3⟩ := (theWord_iff _ _).2 hs.file
    have hl : addLoop .start argv = .ok (it.foldl AddItem.apply .start) := by rw [e1]; exact addLoop_items it .start w1 (wok_dash w1)
    obtain ⟨h1, h2, h3, h4, h5, h6⟩ := apply_fields it .start
    have he : it.foldl AddItem.apply .start = a := by
      have r1 := h1.trans hs.root.symm
      have r2 : (it.foldl AddItem.apply .start).runScripts = a.runScripts := by
        rw [Bool.eq_iff_iff, hs.scripts, h2]; simp [AddArgs.start]
      have r3 : (it.foldl AddItem.apply .start).upgrade = a.upgrade := by
        rw [Bool.eq_iff_iff, hs.upgrade, h3]; simp [AddArgs.start]
      have r4 : (it.foldl AddItem.apply .start).force = a.force := by
        rw [Bool.eq_iff_iff, hs.force, h4]; simp [AddArgs.start]
      have r5 : (it.foldl AddItem.apply .start).progress = a.progress := by
        rw [Bool.eq_iff_iff, hs.progress, h5]; simp [AddArgs.start]
      have r6 := h6.trans w2
      cases a
      cases hx : it.foldl AddItem.apply .start
      rw [hx] at r1 r2 r3 r4 r5 r6
      simp only at r1 r2 r3 r4 r5 r6
      subst r1 r2 r3 r4 r5 r6
      rfl
    unfold addArgs
    rw [hl, he]
    exact if_neg w3

/-- **C74.** A pkgadd line that is not understood, and any pkgadd line of an ordinary user, changes nothing. -/
theorem C74_add_refused (run : AddArgs → Fs → Fs) (uid : Nat) (argv : List Str) (fs : Fs)
    (h : uid ≠ 0 ∨ (∃ o ∈ argv, o ∈ ["-v".toList, "--version".toList, "-h".toList, "--help".toList]) ∨
      ¬ ∃ items a, argv = items.flatMap AddItem.text ∧ AddSays items a) :
    (pkgaddTool run uid argv fs).1 = fs ∧ ∀ a, (pkgaddTool run uid argv fs).2 ≠ .ran a := by
  have hc : ∀ (l : List Str) (e : ToolEnd AddArgs), commonOption l = some e → e = .version ∨ e = .help := by
    intro l
    induction l with
    | nil => intro e he; cases he
    | cons o l ih =>
      intro e he
      unfold commonOption at he
      split at he
      · cases he; exact Or.inl rfl
      split at he
      · cases he; exact Or.inr rfl
      exact ih e he
  have hn : ∀ (l : List Str), (∃ o ∈ l, o ∈ ["-v".toList, "--version".toList, "-h".toList, "--help".toList]) → commonOption (α := AddArgs) l ≠ none := by
    intro l
    induction l with
    | nil => rintro ⟨o, ho, -⟩; cases ho
    | cons x l ih =>
      rintro ⟨o, ho, hm⟩
      unfold commonOption
      split
      · exact nofun
      split
      · exact nofun
      rename_i h1 h2
      rcases List.mem_cons.1 ho with rfl | ho
      · simp only [List.mem_cons, List.not_mem_nil, or_false] at hm
        exfalso; tauto
      · exact ih ⟨o, ho, hm⟩
  unfold pkgaddTool
  cases h1 : commonOption (α := AddArgs) argv with
  | some e =>
    refine ⟨rfl, ?_⟩
    rintro a ha
    rcases hc argv e h1 with rfl | rfl <;> cases ha
  | none =>
    cases h2 : addArgs argv with
    | error e => exact ⟨rfl, nofun⟩
    | ok a =>
      by_cases hu : uid = 0
      · rcases h with h | h | h
        · exact absurd hu h
        · exact absurd h1 (hn argv h)
        · obtain ⟨it, e1, e2⟩ := (C74_add_line argv a).1 h2
          exact absurd ⟨it, a, e1, e2⟩ h
      · simp only [ne_eq, hu, not_false_eq_true, if_true]
        exact ⟨trivial, nofun⟩

theorem commonOption_none {α : Type} {l : List Str} (h : NoCommon l) : commonOption (α := α) l = none := by
  induction l with
  | nil => rfl
  | cons o l ih =>
    have h1 := h o (by simp)
    simp only [List.mem_cons, List.not_mem_nil, or_false, not_or] at h1
    unfold commonOption
    rw [if_neg (by tauto), if_neg (by tauto)]
    exact ih (fun o ho => h o (List.mem_cons_of_mem _ ho))

theorem commonOption_kind {α : Type} (l : List Str) : commonOption (α := α) l = none ∨ commonOption (α := α) l = some .version ∨ commonOption (α := α) l = some .help := by
  induction l with
  | nil => exact Or.inl rfl
  | cons o l ih =>
    unfold commonOption
    split
    · exact Or.inr (Or.inl rfl)
    split
    · exact Or.inr (Or.inr rfl)
    exact ih

/-- **C74.** The line of root is carried out: the clean-up, then the command with what the line says. -/
theorem C74_add_runs (run : AddArgs → Fs → Fs) (items : List AddItem) (a : AddArgs) (fs : Fs) (hs : AddSays items a)
    (hc : NoCommon (items.flatMap AddItem.text)) :
    pkgaddTool run 0 (items.flatMap AddItem.text) fs = (run a (cleanupMeta a.root fs), .ran a) := by
  unfold pkgaddTool
  rw [commonOption_none hc, (C74_add_line _ a).2 ⟨items, rfl, hs⟩]
  rfl

/-! ## pkgrm -/

def RmItem.apply (a : RmArgs) : RmItem → RmArgs
  | .root _ d => { a with root := d ++ a.root }
  | .progress _ => { a with progress := true }
  | .word w => { a with name := w }

theorem rmLoop_items (items : List RmItem) : ∀ (a : RmArgs), WOk a.name (items.filterMap RmItem.word?) →
    rmLoop a (items.flatMap RmItem.text) = .ok (items.foldl RmItem.apply a) := by
  induction items with
  | nil => intro a _; rfl
  | cons i items ih =>
    intro a h
    cases i with
    | root l d => cases l <;> exact ih _ h
    | progress l =>
      show rmLoop a (spell l "-p" "--progress" :: items.flatMap RmItem.text) = _
      rw [rmLoop.eq_def]
      simp only
      rw [if_neg (by cases l <;> decide), if_pos (by cases l <;> decide)]
      exact ih (RmItem.apply a (.progress l)) h
    | word w =>
      obtain ⟨h1, h2, h3⟩ := h
      show rmLoop a (w :: items.flatMap RmItem.text) = _
      rw [rmLoop.eq_def]
      have n : ∀ t : Str, t.head? = some '-' → w ≠ t := by rintro t ht rfl; exact h2 ht
      simp only
      rw [if_neg (not_or.2 ⟨n _ rfl, n _ rfl⟩), if_neg (not_or.2 ⟨n _ rfl, n _ rfl⟩), if_neg (not_or.2 ⟨h2, not_not.2 h1⟩)]
      exact ih _ h3

theorem rmLoop_parse (n : Nat) : ∀ (argv : List Str) (a b : RmArgs), argv.length ≤ n → rmLoop a argv = .ok b →
    ∃ items : List RmItem, argv = items.flatMap RmItem.text ∧ WOk a.name (items.filterMap RmItem.word?) ∧ b = items.foldl RmItem.apply a := by
  induction n with
  | zero =>
    intro argv a b hn h
    cases argv with
    | nil => cases h; exact ⟨[], rfl, trivial, rfl⟩
    | cons => simp at hn
  | succ n ih =>
    intro argv a b hn h
    cases argv with
    | nil => cases h; exact ⟨[], rfl, trivial, rfl⟩
    | cons o rest =>
      have hr : rest.length ≤ n := by simpa using hn
      rw [rmLoop.eq_def] at h
      simp only at h
      split at h
      · rename_i ho
        obtain ⟨l, ho⟩ := spell_iff ho
        cases rest with
        | nil => cases h
        | cons v rest =>
          obtain ⟨it, e1, e2, e3⟩ := ih rest _ _ (by simp at hr; omega) h
          exact ⟨.root l v :: it, by rw [ho, e1]; rfl, e2, e3⟩
      split at h
      · rename_i ho
        obtain ⟨l, ho⟩ := spell_iff ho
        obtain ⟨it, e1, e2, e3⟩ := ih rest _ _ hr h
        exact ⟨.progress l :: it, by rw [ho, e1]; rfl, e2, e3⟩
      split at h
      · cases h
      · rename_i ho
        rw [not_or, not_not] at ho
        obtain ⟨it, e1, e2, e3⟩ := ih rest _ _ hr h
        exact ⟨.word o :: it, by rw [e1]; rfl, ⟨ho.2, ho.1, e2⟩, e3⟩

theorem rmApply_fields (items : List RmItem) : ∀ a : RmArgs,
    (items.foldl RmItem.apply a).root = (items.filterMap RmItem.dir?).reverse.flatten ++ a.root ∧
    ((items.foldl RmItem.apply a).progress = true ↔ a.progress = true ∨ ∃ l, RmItem.progress l ∈ items) ∧
    (items.foldl RmItem.apply a).name = (items.filterMap RmItem.word?).getLast?.getD a.name := by
  induction items with
  | nil => intro a; simp
  | cons i items ih =>
    intro a
    obtain ⟨h1, h5, h6⟩ := ih (RmItem.apply a i)
    rw [List.foldl_cons]
    refine ⟨h1.trans ?_, h5.trans ?_, h6.trans ?_⟩ <;> cases i <;>
      simp [RmItem.apply, RmItem.dir?, RmItem.word?, List.getLast?_cons, List.filterMap_cons]

/-- **C74.** The lines pkgrm accepts, and what it does with them. -/
theorem C74_rm_line (argv : List Str) (a : RmArgs) :
    rmLoop .start argv = .ok a ↔ ∃ items : List RmItem, argv = items.flatMap RmItem.text ∧ RmSays items a := by
  constructor
  · intro hl
    obtain ⟨it, e1, e2, e3⟩ := rmLoop_parse _ argv .start a (Nat.le_refl _) hl
    obtain ⟨h1, h5, h6⟩ := rmApply_fields it .start
    rw [← e3] at h1 h5 h6
    refine ⟨it, e1, ?_, h1, by simpa [RmArgs.start] using h5⟩
    by_cases hf : a.name = []
    · exact Or.inr ⟨(noWord_iff _).1 ⟨e2, h6.symm.trans hf⟩, hf⟩
    · exact Or.inl ((theWord_iff _ _).1 ⟨e2, h6.symm, hf⟩)
  · rintro ⟨it, e1, hs⟩
    have hw : WOk [] (it.filterMap RmItem.word?) ∧ (it.filterMap RmItem.word?).getLast?.getD [] = a.name := by
      rcases hs.name with h | ⟨h, h'⟩
      · obtain ⟨w1, w2, -⟩ := (theWord_iff _ _).2 h
        exact ⟨w1, w2⟩
      · obtain ⟨w1, w2⟩ := (noWord_iff _).2 h
        exact ⟨w1, w2.trans h'.symm⟩
    have hl : rmLoop .start argv = .ok (it.foldl RmItem.apply .start) := by rw [e1]; exact rmLoop_items it .start hw.1
    obtain ⟨h1, h5, h6⟩ := rmApply_fields it .start
    have he : it.foldl RmItem.apply .start = a := by
      have r1 := h1.trans hs.root.symm
      have r5 : (it.foldl RmItem.apply .start).progress = a.progress := by
        rw [Bool.eq_iff_iff, hs.progress, h5]; simp [RmArgs.start]
      have r6 := h6.trans hw.2
      cases a
      cases hx : it.foldl RmItem.apply .start
      rw [hx] at r1 r5 r6
      simp only at r1 r5 r6
      subst r1 r5 r6
      rfl
    rw [hl, he]

/-- **C74.** The line of root is carried out. -/
theorem C74_rm_runs (run : RmArgs → Fs → Fs) (items : List RmItem) (a : RmArgs) (fs : Fs) (hs : RmSays items a)
    (hc : NoCommon (items.flatMap RmItem.text)) :
    pkgrmTool run 0 (items.flatMap RmItem.text) fs = (run a (cleanupMeta a.root fs), .ran a) := by
  unfold pkgrmTool
  rw [commonOption_none hc, (C74_rm_line _ a).2 ⟨items, rfl, hs⟩]
  rfl

/-- **C74.** A line pkgrm does not understand changes nothing; the line of an ordinary user (without `-r`) removes no package, and changes nothing but the six
names of meta files an interrupted command may have left in the root directory. -/
theorem C74_rm_refused (run : RmArgs → Fs → Fs) (uid : Nat) (argv : List Str) (fs : Fs) :
    ((¬ ∃ items a, argv = items.flatMap RmItem.text ∧ RmSays items a) → (pkgrmTool run uid argv fs).1 = fs) ∧
    (uid ≠ 0 → (∀ a, (pkgrmTool run uid argv fs).2 ≠ .ran a) ∧
      (Reg fs → (∀ items : List RmItem, argv = items.flatMap RmItem.text → items.filterMap RmItem.dir? = []) →
        ∀ k, k ∉ [[".INFO".toList], [".META".toList], [".PRE".toList], [".POST".toList], [".MTREE".toList], [".README".toList]] →
          (pkgrmTool run uid argv fs).1.get k = fs.get k)) := by
  have hc := commonOption_kind (α := RmArgs) argv
  constructor
  · intro h
    unfold pkgrmTool
    rcases hc with hc | hc | hc <;> rw [hc]
    cases h2 : rmLoop .start argv with
    | error e => rfl
    | ok a =>
      obtain ⟨it, e1, e2⟩ := (C74_rm_line argv a).1 h2
      exact absurd ⟨it, a, e1, e2⟩ h
  · intro hu
    constructor
    · intro a
      unfold pkgrmTool
      rcases hc with hc | hc | hc <;> rw [hc]
      · cases h2 : rmLoop .start argv with
        | error e => exact nofun
        | ok b =>
          simp only [ne_eq, hu, not_false_eq_true, if_true]
          exact nofun
      · exact nofun
      · exact nofun
    · intro hr hroot k hk
      unfold pkgrmTool
      rcases hc with hc | hc | hc <;> rw [hc]
      cases h2 : rmLoop .start argv with
      | error e => rfl
      | ok b =>
        simp only [ne_eq, hu, not_false_eq_true, if_true]
        obtain ⟨it, e1, e2⟩ := (C74_rm_line argv b).1 h2
        have : b.root = slash := by rw [e2.root, hroot it e1]; rfl
        rw [this, C60_cleanup fs hr k, if_neg hk]

/-- **C74 fails**, harmlessly where the permissions of the root directory forbid it: an ordinary user's `pkgrm` deletes `/.META` before it is refused. -/
theorem C74_rm_user_counterexample (run : RmArgs → Fs → Fs) : let fs : Fs := [([".META".toList], .file "mine".toList 0o644)]
    (pkgrmTool run 1000 ["vim".toList] fs).2 = .refused .notRoot ∧ (pkgrmTool run 1000 ["vim".toList] fs).1.get [".META".toList] = none := by
  refine ⟨rfl, ?_⟩
  show (cleanupMeta "/".toList [([".META".toList], .file "mine".toList 0o644)]).get [".META".toList] = none
  decide +kernel

/-! ## pkginfo -/

def InfoItem.apply (a : InfoArgs) : InfoItem → InfoArgs
  | .root _ d => { a with root := d ++ a.root }
  | .mode .installed _ _ => { a with seen := a.seen ++ [.installed] }
  | .mode .number _ _ => { a with seen := a.seen ++ [.number] }
  | .mode m _ v => { a with seen := a.seen ++ [m], arg := v }

theorem infoOption_mode (m : InfoMode) (l : Bool) : infoOption (modeOption l m) = some m := by
  cases m <;> cases l <;> decide

theorem modeOption_root (m : InfoMode) (l : Bool) : ¬ (modeOption l m = "-r".toList ∨ modeOption l m = "--root".toList) := by
  cases m <;> cases l <;> decide

theorem if_some_elim {p : Prop} [Decidable p] {α : Type} {a m : α} {e : Option α} (h : (if p then some a else e) = some m) :
    (p ∧ a = m) ∨ e = some m := by
  by_cases hp : p
  · rw [if_pos hp] at h; exact Or.inl ⟨hp, Option.some.inj h⟩
  · rw [if_neg hp] at h; exact Or.inr h

theorem infoOption_some {o : Str} {m : InfoMode} (h : infoOption o = some m) : ∃ l, o = modeOption l m := by
  unfold infoOption at h
  rcases if_some_elim h with ⟨ho, rfl⟩ | h
  · exact spell_iff ho
  rcases if_some_elim h with ⟨ho, rfl⟩ | h
  · exact spell_iff ho
  rcases if_some_elim h with ⟨ho, rfl⟩ | h
  · exact spell_iff ho
  rcases if_some_elim h with ⟨ho, rfl⟩ | h
  · exact spell_iff ho
  rcases if_some_elim h with ⟨ho, rfl⟩ | h
  · exact spell_iff ho
  rcases if_some_elim h with ⟨ho, rfl⟩ | h
  · exact spell_iff ho
  rcases if_some_elim h with ⟨ho, rfl⟩ | h
  · exact spell_iff ho
  rcases if_some_elim h with ⟨ho, rfl⟩ | h
  · exact spell_iff ho
  rcases if_some_elim h with ⟨ho, rfl⟩ | h
  · exact spell_iff ho
  rcases if_some_elim h with ⟨ho, rfl⟩ | h
  · exact spell_iff ho
  rcases if_some_elim h with ⟨ho, rfl⟩ | h
  · exact ⟨true, ho⟩
  rcases if_some_elim h with ⟨ho, rfl⟩ | h
  · exact ⟨true, ho⟩
  rcases if_some_elim h with ⟨ho, rfl⟩ | h
  · exact spell_iff ho
  cases h

theorem infoLoop_items (items : List InfoItem) : ∀ (a : InfoArgs),
    infoLoop a (items.flatMap InfoItem.text) = .ok (items.foldl InfoItem.apply a) := by
  induction items with
  | nil => intro a; rfl
  | cons i items ih =>
    intro a
    cases i with
    | root l d => cases l <;> exact ih _
    | mode m l v =>
      have h1 := modeOption_root m l
      have h2 := infoOption_mode m l
      cases m
      case installed =>
        show infoLoop a (modeOption l .installed :: items.flatMap InfoItem.text) = _
        rw [infoLoop.eq_def]
        simp only
        rw [if_neg h1, h2]
        exact ih (InfoItem.apply a (.mode .installed l v))
      case number =>
        show infoLoop a (modeOption l .number :: items.flatMap InfoItem.text) = _
        rw [infoLoop.eq_def]
        simp only
        rw [if_neg h1, h2]
        exact ih (InfoItem.apply a (.mode .number l v))
      all_goals
        rw [List.flatMap_cons, InfoItem.text.eq_def]
        simp only [List.cons_append, List.nil_append]
        rw [infoLoop.eq_def]
        simp only
        rw [if_neg h1, h2]
        exact ih _

theorem infoLoop_parse (n : Nat) : ∀ (argv : List Str) (a b : InfoArgs), argv.length ≤ n → infoLoop a argv = .ok b →
    ∃ items : List InfoItem, argv = items.flatMap InfoItem.text ∧ b = items.foldl InfoItem.apply a := by
  induction n with
  | zero =>
    intro argv a b hn h
    cases argv with
    | nil => cases h; exact ⟨[], rfl, rfl⟩
    | cons => simp at hn
  | succ n ih =>
    intro argv a b hn h
    cases argv with
    | nil => cases h; exact ⟨[], rfl, rfl⟩
    | cons o rest =>
      have hr : rest.length ≤ n := by simpa using hn
      rw [infoLoop.eq_def] at h
      simp only at h
      split at h
      · rename_i ho
        obtain ⟨l, ho⟩ := spell_iff ho
        cases rest with
        | nil => cases h
        | cons v rest =>
          obtain ⟨it, e1, e3⟩ := ih rest _ _ (by simp at hr; omega) h
          exact ⟨.root l v :: it, by rw [ho, e1]; rfl, e3⟩
      split at h
      · cases h
      · rename_i m ho
        obtain ⟨l, ho⟩ := infoOption_some ho
        split at h
        · rename_i ht
          cases rest with
          | nil => cases h
          | cons v rest =>
            obtain ⟨it, e1, e3⟩ := ih rest _ _ (by simp at hr; omega) h
            refine ⟨.mode m l v :: it, ?_, ?_⟩
            · rw [ho, e1]; cases m <;> first | rfl | cases ht
            · cases m <;> first | exact e3 | cases ht
        · rename_i ht
          obtain ⟨it, e1, e3⟩ := ih rest _ _ hr h
          refine ⟨.mode m l [] :: it, ?_, ?_⟩
          · rw [ho, e1]; cases m <;> first | rfl | exact absurd rfl ht
          · cases m <;> first | exact e3 | exact absurd rfl ht

theorem infoApply_fields (items : List InfoItem) : ∀ a : InfoArgs,
    (items.foldl InfoItem.apply a).root = (items.filterMap InfoItem.dir?).reverse.flatten ++ a.root ∧
    (items.foldl InfoItem.apply a).seen = a.seen ++ items.filterMap InfoItem.mode? ∧
    (items.foldl InfoItem.apply a).arg = (items.filterMap InfoItem.arg?).getLast?.getD a.arg := by
  induction items with
  | nil => intro a; simp
  | cons i items ih =>
    intro a
    obtain ⟨h1, h5, h6⟩ := ih (InfoItem.apply a i)
    rw [List.foldl_cons]
    refine ⟨h1.trans ?_, h5.trans ?_, h6.trans ?_⟩
    · cases i with
      | root l d => simp [InfoItem.apply, InfoItem.dir?, List.filterMap_cons]
      | mode m l v => cases m <;> simp [InfoItem.apply, InfoItem.dir?, List.filterMap_cons]
    · cases i with
      | root l d => simp [InfoItem.apply, InfoItem.mode?, List.filterMap_cons]
      | mode m l v => cases m <;> simp [InfoItem.apply, InfoItem.mode?, List.filterMap_cons]
    · cases i with
      | root l d => simp [InfoItem.apply, InfoItem.arg?, List.filterMap_cons]
      | mode m l v => cases m <;> simp [InfoItem.apply, InfoItem.arg?, List.filterMap_cons, List.getLast?_cons]

/-- **C74.** The lines the loop of pkginfo accepts and what it takes from them: the modes in their order, and the argument of the last option that has one. -/
theorem C74_info_line (argv : List Str) (a : InfoArgs) :
    infoLoop .start argv = .ok a ↔ ∃ items : List InfoItem, argv = items.flatMap InfoItem.text ∧ a.root = rootOf (items.filterMap InfoItem.dir?) ∧
      a.seen = items.filterMap InfoItem.mode? ∧ a.arg = (items.filterMap InfoItem.arg?).getLast?.getD [] := by
  constructor
  · intro h
    obtain ⟨it, e1, e2⟩ := infoLoop_parse _ argv .start a (Nat.le_refl _) h
    obtain ⟨h1, h2, h3⟩ := infoApply_fields it .start
    rw [← e2] at h1 h2 h3
    exact ⟨it, e1, h1, h2, h3⟩
  · rintro ⟨it, e1, e2, e3, e4⟩
    obtain ⟨h1, h2, h3⟩ := infoApply_fields it .start
    rw [e1, infoLoop_items]
    cases a
    cases hx : it.foldl InfoItem.apply .start
    rw [hx] at h1 h2 h3
    have r1 := h1.trans e2.symm
    have r2 := h2.trans e3.symm
    have r3 := h3.trans e4.symm
    simp only at r1 r2 r3
    subst r1 r2 r3
    rfl

/-- The sum of the counters is the length of the list. -/
theorem counts_sum (l : List InfoMode) : l.length = l.count .installed + l.count .number + l.count .details + l.count .list + l.count .runtime + l.count .owner +
    l.count .archive + l.count .meta + l.count .footprint + l.count .libraries + l.count .runtimeFiles + l.count .runtimeLibs + l.count .build := by
  induction l with
  | nil => rfl
  | cons m l ih =>
    cases m <;> simp [List.count_cons, ih] <;> omega

theorem counts_exclusive (l : List InfoMode) : l.countP exclusive = l.count .installed + l.count .number + l.count .list + l.count .owner + l.count .archive +
    l.count .footprint + l.count .runtimeFiles + l.count .runtimeLibs := by
  induction l with
  | nil => rfl
  | cons m l ih =>
    cases m <;> simp [List.countP_cons, List.count_cons, exclusive, ih] <;> omega

/-- **C74.** When the memory is clean: a line is refused exactly when it has no mode, or two of the exclusive modes (or one of them twice). -/
theorem C74_info_accepts (items : List InfoItem) (hc : NoCommon (items.flatMap InfoItem.text)) :
    (∃ r, pkginfoTool ⟨0, 0⟩ (items.flatMap InfoItem.text) = .ran r) ↔
      items.filterMap InfoItem.mode? ≠ [] ∧ (items.filterMap InfoItem.mode?).countP exclusive ≤ 1 := by
  have hl := infoLoop_items items .start
  obtain ⟨-, h2, -⟩ := infoApply_fields items .start
  unfold pkginfoTool
  rw [commonOption_none hc, hl]
  generalize items.foldl InfoItem.apply .start = a at h2
  have h2 : a.seen = items.filterMap InfoItem.mode? := h2
  rw [← h2]
  have s1 := counts_sum a.seen
  have s2 := counts_exclusive a.seen
  unfold infoCheck InfoArgs.counter
  simp only [Int.add_zero]
  split
  · rename_i e h
    split at h
    · rename_i h0
      refine ⟨nofun, ?_⟩
      rintro ⟨h3, -⟩
      exact absurd (List.length_eq_zero_iff.1 (by omega)) h3
    split at h
    · refine ⟨nofun, ?_⟩
      rintro ⟨-, h4⟩
      omega
    · cases h
  · rename_i b h
    split at h
    · cases h
    split at h
    · cases h
    · cases h
      rename_i h3 h4
      refine ⟨fun _ => ⟨?_, by omega⟩, fun _ => ⟨_, rfl⟩⟩
      intro h5
      rw [h5] at s1 h3
      exact h3 rfl

/-- **C74.** When the memory is clean: a line with one mode, the roots anywhere, runs exactly that mode with its argument. -/
theorem C74_info_one (before after : List InfoItem) (m : InfoMode) (l : Bool) (v : Str)
    (hb : before.filterMap InfoItem.mode? = []) (ha : after.filterMap InfoItem.mode? = [])
    (hc : NoCommon ((before ++ .mode m l v :: after).flatMap InfoItem.text)) :
    pkginfoTool ⟨0, 0⟩ ((before ++ .mode m l v :: after).flatMap InfoItem.text) =
      .ran (rootOf ((before ++ after).filterMap InfoItem.dir?), [m], if m = .installed ∨ m = .number then [] else v) := by
  have hnoarg : ∀ its : List InfoItem, its.filterMap InfoItem.mode? = [] → its.filterMap InfoItem.arg? = [] := by
    intro its h
    rw [List.filterMap_eq_nil_iff] at h ⊢
    intro i hi
    cases i with
    | root => rfl
    | mode m l v => cases h _ hi
  have hdirs : (before ++ .mode m l v :: after).filterMap InfoItem.dir? = (before ++ after).filterMap InfoItem.dir? := by
    simp [List.filterMap_append, List.filterMap_cons, InfoItem.dir?]
  have hmodes : (before ++ .mode m l v :: after).filterMap InfoItem.mode? = [m] := by
    rw [List.filterMap_append, List.filterMap_cons, hb, ha]; rfl
  have hargs : (before ++ .mode m l v :: after).filterMap InfoItem.arg? = (InfoItem.arg? (.mode m l v)).toList := by
    rw [List.filterMap_append, List.filterMap_cons, hnoarg before hb, hnoarg after ha]
    cases InfoItem.arg? (.mode m l v) <;> rfl
  have hl := (C74_info_line _ ⟨rootOf ((before ++ after).filterMap InfoItem.dir?), [m], if m = .installed ∨ m = .number then [] else v⟩).2
    ⟨before ++ .mode m l v :: after, rfl, by rw [hdirs], by rw [hmodes], by rw [hargs]; cases m <;> rfl⟩
  unfold pkginfoTool
  rw [commonOption_none hc, hl]
  cases m <;> rfl

/-- A line of each tool. -/
example : (pkginfoTool ⟨0, 0⟩ ["--root".toList, "/mnt".toList, "-l".toList, "vim".toList] = .ran ("/mnt/".toList, [.list], "vim".toList)) ∧
    pkginfoTool ⟨0, 0⟩ ["-i".toList, "-n".toList] = .refused .tooMany ∧ pkginfoTool ⟨0, 0⟩ [] = .refused .missing ∧
    addArgs ["a.cards.tar".toList, "-u".toList, "--root".toList, "/mnt".toList, "-f".toList] = .ok ⟨"/mnt/".toList, true, true, true, false, "a.cards.tar".toList⟩ ∧
    rmLoop .start ["-p".toList, "vim".toList] = .ok ⟨"/".toList, true, "vim".toList⟩ := by decide +kernel

/-- The hypotheses are met by a line with options in between. -/
example : AddSays [.upgrade false, .word "a.cards.tar".toList, .root true "/mnt".toList, .force false] ⟨"/mnt/".toList, true, true, true, false, "a.cards.tar".toList⟩ where
  file := ⟨⟨0, rfl⟩, by decide, by decide⟩
  root := rfl
  scripts := by simp
  upgrade := by simp
  force := by simp
  progress := by simp

/-- **C74 fails**: `pkginfo` does not initialise two of its counters. Depending on what the memory held, `pkginfo -i` is refused with one message or the
other, and `pkginfo -d vim` prints the number of packages instead of the details of vim. -/
theorem C74_junk_counterexample :
    pkginfoTool ⟨1, 0⟩ ["-i".toList] = .refused .tooMany ∧ pkginfoTool ⟨-1, 0⟩ ["-i".toList] = .refused .missing ∧
    pkginfoTool ⟨1, 0⟩ ["-d".toList, "vim".toList] = .ran ("/".toList, [.number], "vim".toList) := by decide +kernel

/-- **C74 fails**: two modes that may be combined share one argument, the last: here the meta data are read from a file named `vim`; and of `-b` and `-d` only
the first in the order of the program runs. -/
theorem C74_shared_counterexample :
    pkginfoTool ⟨0, 0⟩ ["-m".toList, "a.cards.tar".toList, "-d".toList, "vim".toList] = .ran ("/".toList, [.meta, .details], "vim".toList) ∧
    pkginfoTool ⟨0, 0⟩ ["-d".toList, "vim".toList, "-b".toList, "zed".toList] = .ran ("/".toList, [.build], "zed".toList) := by decide +kernel

/-- **C74 fails**: a word that asks for help is taken for the option even where it is the argument of another one, here the directory of `--root`. -/
theorem C74_help_counterexample (run : AddArgs → Fs → Fs) (fs : Fs) :
    pkgaddTool run 0 ["--root".toList, "-h".toList, "a.cards.tar".toList] fs = (fs, .help) := rfl

end Cards.Props
