import Mathlib.Tactic.Common
import Verif.Model.Footprint
import Verif.Props.Numbers
import Verif.Props.Archive
import Verif.Props.Upgrade
import Verif.Lemmas.Lists
/-!
# C81: the footprint of a package
-/
namespace Cards.Props
open Cards Cards.Spec

/-! ### What a reader of the footprint wants to know -/

/-- The part of an entry that has no permissions: the target of a symbolic link, the numbers of a device, an empty file. -/
inductive Extra where
  | link (target : Str)
  | device (major minor : Nat)
  | empty
  | plain
deriving DecidableEq

inductive IsExtra (e : FEntry) : Extra → Prop
  | link : e.mode &&& 0o170000 = 0o120000 → IsExtra e (.link e.sym)
  | char : e.mode &&& 0o170000 = 0o020000 → IsExtra e (.device e.rdev.1 e.rdev.2)
  | block : e.mode &&& 0o170000 = 0o060000 → IsExtra e (.device e.rdev.1 e.rdev.2)
  | empty : e.mode &&& 0o170000 = 0o100000 → e.size = 0 → IsExtra e .empty
  | full : e.mode &&& 0o170000 = 0o100000 → e.size ≠ 0 → IsExtra e .plain
  | other : e.mode &&& 0o170000 ∉ [0o120000, 0o020000, 0o060000, 0o100000] → IsExtra e .plain

/-- The mode of an entry: its own, or that of the file it is a hard link to (the last entry of that name that is not itself a hard link). -/
inductive ModeOf (l : List FEntry) (e : FEntry) : Nat → Prop
  | own : e.hard = none → ModeOf l e e.mode
  | linked (pre : List FEntry) (t : FEntry) (post : List FEntry) : e.hard = some t.path → l = pre ++ t :: post → t.hard = none →
      (∀ x ∈ post, x.hard = none → x.path ≠ t.path) → ModeOf l e t.mode

/-- The texts of users (or groups) can be told apart and do not hold the separators. -/
structure Readable (names : Nat → Option Str) : Prop where
  noSlash : ∀ i, '/' ∉ idText names i
  noTab : ∀ i, '\t' ∉ idText names i
  noLine : ∀ i, '\n' ∉ idText names i
  inj : ∀ i j, idText names i = idText names j → i = j

/-- The name of the entry holds no blank, tab or newline, and the target of a link no newline. -/
def CleanEntry (e : FEntry) : Prop := ' ' ∉ e.path ∧ '\t' ∉ e.path ∧ '\n' ∉ e.path ∧ '\n' ∉ e.sym

/-! ### Lemmas -/

theorem foot_cut {c : Char} {a b x y : Str} (ha : c ∉ a) (hb : c ∉ b) (h : a ++ c :: x = b ++ c :: y) : a = b ∧ x = y := by
  induction a generalizing b with
  | nil =>
    cases b with
    | nil => simpa using h
    | cons d b =>
      simp only [List.nil_append, List.cons_append, List.cons.injEq] at h
      exact absurd (by rw [h.1]; exact List.mem_cons_self) hb
  | cons d a ih =>
    cases b with
    | nil =>
      simp only [List.nil_append, List.cons_append, List.cons.injEq] at h
      exact absurd (by rw [← h.1]; exact List.mem_cons_self) ha
    | cons d' b =>
      simp only [List.cons_append, List.cons.injEq] at h
      obtain ⟨h1, h2⟩ := ih (b := b) (fun h => ha (List.mem_cons_of_mem _ h)) (fun h => hb (List.mem_cons_of_mem _ h)) h.2
      exact ⟨by rw [h.1, h1], h2⟩

theorem dec_chars (n : Nat) : ∀ c ∈ dec n, c ∈ "0123456789".toList := by
  have hd : ∀ k < 10, digitC k ∈ "0123456789".toList := by decide
  induction n using Nat.strongRecOn with
  | _ n ih =>
    intro c hc
    rw [dec.eq_def] at hc
    split at hc
    · next h => rw [List.mem_singleton.mp hc]; exact hd n h
    · rcases List.mem_append.mp hc with hc | hc
      · exact ih (n / 10) (by omega) c hc
      · rw [List.mem_singleton.mp hc]; exact hd _ (Nat.mod_lt _ (by omega))

theorem not_dec (n : Nat) {c : Char} (h : c ∉ "0123456789".toList) : c ∉ dec n := fun hc => h (dec_chars n c hc)

theorem extra_total (e : FEntry) : ∃ x, IsExtra e x := by
  by_cases h1 : e.mode &&& 0o170000 = 0o120000
  · exact ⟨_, .link h1⟩
  by_cases h2 : e.mode &&& 0o170000 = 0o020000
  · exact ⟨_, .char h2⟩
  by_cases h3 : e.mode &&& 0o170000 = 0o060000
  · exact ⟨_, .block h3⟩
  by_cases h4 : e.mode &&& 0o170000 = 0o100000
  · by_cases h5 : e.size = 0
    · exact ⟨_, .empty h4 h5⟩
    · exact ⟨_, .full h4 h5⟩
  · exact ⟨_, .other (by simp [h1, h2, h3, h4])⟩

/-- The text of each kind. -/
def kindText : Extra → Str
  | .link t => ' ' :: '-' :: '>' :: ' ' :: t
  | .device a b => ' ' :: '(' :: (dec a ++ ',' :: ' ' :: (dec b ++ [')']))
  | .empty => [' ', '(', 'E', 'M', 'P', 'T', 'Y', ')']
  | .plain => []

theorem extraText_kind {e : FEntry} {x : Extra} (h : IsExtra e x) : extraText e = kindText x := by
  have e1 : " -> ".toList = [' ', '-', '>', ' '] := by decide
  have e2 : " (EMPTY)".toList = [' ', '(', 'E', 'M', 'P', 'T', 'Y', ')'] := by decide
  have h1 : " (".toList = [' ', '('] := by decide
  have h2 : ", ".toList = [',', ' '] := by decide
  have h3 : ")".toList = [')'] := by decide
  unfold extraText FEntry.isLnk FEntry.isDev FEntry.isReg
  rw [e1, e2, h1, h2, h3]
  cases h with
  | link h => simp [h, kindText]
  | char h => simp [h, kindText]
  | block h => simp [h, kindText]
  | empty h h' => simp [h, h', kindText]
  | full h h' => simp [h, h', kindText]
  | other h =>
    simp only [List.mem_cons, List.not_mem_nil, or_false, not_or] at h
    simp [h.1, h.2.1, h.2.2.1, h.2.2.2, kindText]

theorem device_text (a b : Nat) : kindText (.device a b) = ' ' :: '(' :: (dec a ++ ',' :: ' ' :: (dec b ++ [')'])) := rfl

theorem dec_cons (n : Nat) : ∃ d r, dec n = d :: r ∧ d ∈ "0123456789".toList := by
  have h : dec n ≠ [] := by
    rw [dec.eq_def]
    split <;> simp
  cases hd : dec n with
  | nil => exact absurd hd h
  | cons d r => exact ⟨d, r, rfl, dec_chars n d (by rw [hd]; exact List.mem_cons_self)⟩

theorem kindText_inj {x y : Extra} (h : kindText x = kindText y) : x = y := by
  have hl : ∀ t, kindText (.link t) = ' ' :: '-' :: '>' :: ' ' :: t := fun _ => rfl
  have he : kindText .empty = [' ', '(', 'E', 'M', 'P', 'T', 'Y', ')'] := rfl
  have hp : kindText .plain = [] := rfl
  have hde : ∀ a b, kindText (.device a b) ≠ kindText .empty := by
    intro a b hc
    rw [device_text, he] at hc
    obtain ⟨d, r, hd, hm⟩ := dec_cons a
    rw [hd] at hc
    simp only [List.cons_append, List.cons.injEq, true_and] at hc
    rw [hc.1] at hm
    exact absurd hm (by decide)
  cases x with
  | link t =>
    cases y with
    | link u => rw [hl, hl] at h; simp at h; rw [h]
    | device a b => rw [hl, device_text] at h; simp at h
    | empty => rw [hl, he] at h; simp at h
    | plain => rw [hl, hp] at h; simp at h
  | device a b =>
    cases y with
    | link u => rw [hl, device_text] at h; simp at h
    | device c d =>
      rw [device_text, device_text] at h
      simp only [List.cons.injEq, true_and] at h
      obtain ⟨h1, h2⟩ := foot_cut (not_dec a (by decide)) (not_dec c (by decide)) h
      simp only [List.cons.injEq, true_and] at h2
      have h3 := (foot_cut (not_dec b (c := ')') (by decide)) (not_dec d (by decide)) h2).1
      rw [dec_inj h1, dec_inj h3]
    | empty => exact absurd h (hde a b)
    | plain => rw [device_text, hp] at h; simp at h
  | empty =>
    cases y with
    | link u => rw [hl, he] at h; simp at h
    | device a b => exact absurd h.symm (hde a b)
    | empty => rfl
    | plain => rw [he, hp] at h; simp at h
  | plain =>
    cases y with
    | link u => rw [hl, hp] at h; simp at h
    | device a b => rw [device_text, hp] at h; simp at h
    | empty => rw [he, hp] at h; simp at h
    | plain => rfl

theorem kindText_head (x : Extra) : kindText x = [] ∨ ∃ r, kindText x = ' ' :: r := by
  cases x with
  | link t => exact Or.inr ⟨_, rfl⟩
  | device a b => exact Or.inr ⟨_, device_text a b⟩
  | empty => exact Or.inr ⟨_, rfl⟩
  | plain => exact Or.inl rfl

theorem name_cut {p q s t : Str} (hp : ' ' ∉ p) (hq : ' ' ∉ q) (hs : s = [] ∨ ∃ r, s = ' ' :: r) (ht : t = [] ∨ ∃ r, t = ' ' :: r)
    (h : p ++ s = q ++ t) : p = q ∧ s = t := by
  rcases hs with rfl | ⟨r, rfl⟩ <;> rcases ht with rfl | ⟨r', rfl⟩
  · simpa using h
  · rw [List.append_nil] at h
    exact absurd (by rw [h]; simp) hp
  · rw [List.append_nil] at h
    exact absurd (by rw [← h]; simp) hq
  · obtain ⟨h1, h2⟩ := foot_cut hp hq h
    exact ⟨h1, by rw [h2]⟩

theorem permText_length (m : List (Str × Nat)) (e : FEntry) : (permText m e).length = 10 := by
  unfold permText
  split
  · decide
  · split <;> rfl

theorem hardModes_fold (h : Str) : ∀ (l : List FEntry) (m : List (Str × Nat)), (∀ x ∈ l, x.hard = none → x.path ≠ h) →
    mget (l.foldl modeStep m) h = mget m h
  | [], m, _ => rfl
  | e :: l, m, hl => by
    rw [List.foldl_cons, hardModes_fold h l _ (fun x hx => hl x (List.mem_cons_of_mem _ hx))]
    unfold modeStep
    cases he : e.hard with
    | some _ => rfl
    | none =>
      simp only
      rw [mget_mset, if_neg (hl e List.mem_cons_self he)]

theorem hardModes_get {l pre post : List FEntry} {t : FEntry} (hl : l = pre ++ t :: post) (ht : t.hard = none)
    (hpost : ∀ x ∈ post, x.hard = none → x.path ≠ t.path) : mget (hardModes l) t.path = some t.mode := by
  subst hl
  unfold hardModes
  rw [List.foldl_append, List.foldl_cons, hardModes_fold t.path post _ hpost]
  unfold modeStep
  rw [ht]
  simp only
  rw [mget_mset, if_pos rfl]

theorem permText_mode {l : List FEntry} {e : FEntry} {m : Nat} (h : ModeOf l e m) (hl : e.mode &&& 0o170000 ≠ 0o120000) :
    permText (hardModes l) e = mtos m := by
  unfold permText FEntry.isLnk
  rw [if_neg (by simpa using hl)]
  cases h with
  | own h => rw [h]
  | linked pre t post h1 h2 h3 h4 =>
    rw [h1]
    simp only
    rw [hardModes_get h2 h3 h4]
    rfl

/-! ### C81 -/

/-- Two entries, of the same or of different archives, with the same line have the same name, owner and group, the same link target, device
numbers and emptiness, and (unless they are symbolic links) the same twelve permission bits and the same type, a hard link counting as the file
it is linked to. -/
theorem C81_reads_partial (users groups : Nat → Option Str) (hu : Readable users) (hg : Readable groups) (A A' : FArchive) (e e' : FEntry)
    (hc : CleanEntry e) (hc' : CleanEntry e') (m m' : Nat) (hm : ModeOf A.entries e m) (hm' : ModeOf A'.entries e' m')
    (h : footLine users groups (hardModes A.entries) e = footLine users groups (hardModes A'.entries) e') :
    e.path = e'.path ∧ e.uid = e'.uid ∧ e.gid = e'.gid ∧ (∀ x, IsExtra e x ↔ IsExtra e' x) ∧
    (e.mode &&& 0o170000 ≠ 0o120000 → (∀ k < 12, m.testBit k = m'.testBit k) ∧ (m &&& 0o170000 ∈ knownTypes → m &&& 0o170000 = m' &&& 0o170000)) := by
  unfold footLine at h
  have hlen : (permText (hardModes A.entries) e).length = (permText (hardModes A'.entries) e').length := by
    rw [permText_length, permText_length]
  obtain ⟨hperm, h⟩ := List.append_inj h hlen
  simp only [List.cons.injEq, true_and] at h
  obtain ⟨h1, h⟩ := foot_cut (hu.noSlash _) (hu.noSlash _) h
  obtain ⟨h2, h⟩ := foot_cut (hg.noTab _) (hg.noTab _) h
  obtain ⟨x, hx⟩ := extra_total e
  obtain ⟨x', hx'⟩ := extra_total e'
  rw [extraText_kind hx, extraText_kind hx'] at h
  obtain ⟨h3, h4⟩ := name_cut hc.1 hc'.1 (kindText_head x) (kindText_head x') h
  have hxx := kindText_inj h4
  have huniq : ∀ {f : FEntry} {y z : Extra}, IsExtra f y → IsExtra f z → y = z := by
    intro f y z hy hz
    apply kindText_inj
    rw [← extraText_kind hy, ← extraText_kind hz]
  refine ⟨h3, hu.inj _ _ h1, hg.inj _ _ h2, ?_, ?_⟩
  · intro y
    constructor
    · intro hy; rw [huniq hy hx, hxx]; exact hx'
    · intro hy; rw [huniq hy hx', ← hxx]; exact hx
  · intro hl
    have hl' : e'.mode &&& 0o170000 ≠ 0o120000 := by
      intro hl'
      have := huniq hx' (.link hl')
      rw [this] at hxx
      have hk := extraText_kind hx
      rw [hxx] at hk
      have : IsExtra e (.link e'.sym) := hxx ▸ hx
      generalize hz : Extra.link e'.sym = z at this
      cases this with
      | link h => exact hl h
      | _ => simp at hz
    rw [permText_mode hm hl, permText_mode hm' hl'] at hperm
    exact C39_mode_string m m' hperm

theorem footLine_noLine {users groups : Nat → Option Str} (hu : Readable users) (hg : Readable groups) (m : List (Str × Nat)) {e : FEntry}
    (hc : CleanEntry e) : '\n' ∉ footLine users groups m e := by
  unfold footLine
  have hb : ∀ k b c, c ∈ ['r', 'w'] → modeBit k b c ≠ '\n' := by
    intro k b c hc
    unfold modeBit
    simp only [List.mem_cons, List.not_mem_nil, or_false] at hc
    split
    · rcases hc with rfl | rfl <;> decide
    · decide
  have hx : ∀ k x sp b o, b ∈ ['s', 't'] → o ∈ ['S', 'T'] → modeExec k x sp b o ≠ '\n' := by
    intro k x sp b o hb ho
    simp only [List.mem_cons, List.not_mem_nil, or_false] at hb ho
    unfold modeExec
    simp only
    split
    · decide
    · split
      · rcases ho with rfl | rfl <;> decide
      · split
        · rcases hb with rfl | rfl <;> decide
        · decide
  have ht : ∀ k, modeType k ≠ '\n' := by
    intro k
    unfold modeType
    simp only
    repeat' split
    all_goals decide
  have hmt : ∀ k, '\n' ∉ mtos k := by
    intro k h
    unfold mtos at h
    simp only [List.mem_cons, List.not_mem_nil, or_false] at h
    rcases h with h | h | h | h | h | h | h | h | h | h
    · exact ht _ h.symm
    · exact hb _ _ _ (by decide) h.symm
    · exact hb _ _ _ (by decide) h.symm
    · exact hx _ _ _ _ _ (by decide) (by decide) h.symm
    · exact hb _ _ _ (by decide) h.symm
    · exact hb _ _ _ (by decide) h.symm
    · exact hx _ _ _ _ _ (by decide) (by decide) h.symm
    · exact hb _ _ _ (by decide) h.symm
    · exact hb _ _ _ (by decide) h.symm
    · exact hx _ _ _ _ _ (by decide) (by decide) h.symm
  have hp : '\n' ∉ permText m e := by
    unfold permText
    split
    · decide
    · split <;> exact hmt _
  obtain ⟨x, hxe⟩ := extra_total e
  have hk : '\n' ∉ kindText x := by
    cases hxe with
    | link _ =>
      simp only [kindText, List.mem_cons, not_or]
      exact ⟨by decide, by decide, by decide, by decide, hc.2.2.2⟩
    | char _ =>
      simp only [kindText, List.mem_append, List.mem_cons, not_or]
      exact ⟨by decide, by decide, not_dec _ (by decide), by decide, by decide, not_dec _ (by decide), by decide, by simp⟩
    | block _ =>
      simp only [kindText, List.mem_append, List.mem_cons, not_or]
      exact ⟨by decide, by decide, not_dec _ (by decide), by decide, by decide, not_dec _ (by decide), by decide, by simp⟩
    | empty _ _ => decide
    | full _ _ => decide
    | other _ => decide
  rw [extraText_kind hxe]
  simp only [List.mem_append, List.mem_cons, not_or]
  exact ⟨hp, by decide, hu.noLine _, by decide, hg.noLine _, by decide, hc.2.2.1, hk⟩

/-- The output is one line for each entry of the archive, in the order of the archive. -/
theorem C81_one_line_each_partial (users groups : Nat → Option Str) (hu : Readable users) (hg : Readable groups) (a : FArchive)
    (hc : ∀ e ∈ a.entries, CleanEntry e) (out : Str) (h : footprint users groups a = .ok out) :
    splitChar '\n' out = a.entries.map (footLine users groups (hardModes a.entries)) := by
  unfold footprint at h
  split at h
  · simp at h
  · split at h
    · simp at h
    · simp only [Except.ok.injEq] at h
      subst h
      generalize hardModes a.entries = m
      have : ∀ l : List FEntry, (∀ e ∈ l, CleanEntry e) →
          splitChar '\n' (l.flatMap (fun e => footLine users groups m e ++ ['\n'])) = l.map (footLine users groups m) := by
        intro l
        induction l with
        | nil => intro _; rfl
        | cons e l ih =>
          intro hl
          rw [List.flatMap_cons, List.append_assoc]
          rw [List.singleton_append, splitChar_line '\n' _ _ (footLine_noLine hu hg m (hl e List.mem_cons_self)) ?_]
          · rw [ih (fun x hx => hl x (List.mem_cons_of_mem _ hx))]; rfl
          · unfold footLine; simp
      exact this _ hc

/-- An archive without entries, or with a file whose data cannot be read, is refused with an error and nothing is printed; every other archive is
printed. -/
theorem C81_refused (users groups : Nat → Option Str) (a : FArchive) :
    (∃ err, footprint users groups a = .error err) ↔ a.entries = [] ∨ ∃ e ∈ a.entries, e.mode &&& 0o170000 = 0o100000 ∧ e.bad = true := by
  unfold footprint
  by_cases hb : a.entries.any (fun e => e.isReg && e.bad) = true
  · rw [if_pos hb]
    constructor
    · intro _
      obtain ⟨e, he, hh⟩ := List.any_eq_true.mp hb
      rw [Bool.and_eq_true] at hh
      exact Or.inr ⟨e, he, by simpa [FEntry.isReg] using hh.1, hh.2⟩
    · intro _; exact ⟨_, rfl⟩
  · rw [if_neg hb]
    by_cases hn : a.entries = []
    · rw [if_pos hn]
      exact ⟨fun _ => Or.inl hn, fun _ => ⟨_, rfl⟩⟩
    · rw [if_neg hn]
      constructor
      · rintro ⟨_, h⟩; simp at h
      · rintro (h | ⟨e, he, h1, h2⟩)
        · exact absurd h hn
        · exact absurd (List.any_eq_true.mpr ⟨e, he, by simp [FEntry.isReg, h1, h2]⟩) hb

/-- A hard link to a file that is not in the archive gets no permissions. -/
theorem C81_missing_target (l : List FEntry) (e : FEntry) (h : Str) (he : e.hard = some h) (hl : e.mode &&& 0o170000 ≠ 0o120000)
    (hm : ∀ x ∈ l, x.hard = none → x.path ≠ h) : permText (hardModes l) e = "?---------".toList := by
  unfold permText FEntry.isLnk
  rw [if_neg (by simpa using hl), he]
  simp only
  unfold hardModes
  rw [hardModes_fold h l [] hm]
  show mtos 0 = _
  decide

/-- The end of a damaged archive is not noticed: the footprint of its readable beginning is printed as if it were the whole. -/
theorem C81_damaged_counterexample (users groups : Nat → Option Str) (l : List FEntry) (h : l ≠ []) :
    footprint users groups ⟨l, false⟩ = footprint users groups ⟨l, true⟩ := by
  unfold footprint
  simp only [if_neg h]

/-- root is user 0, the others have no name. -/
def xNames (i : Nat) : Option Str := if i = 0 then some "root".toList else none

theorem xNames_readable : Readable xNames := by
  have hc : ∀ (c : Char), c ∉ "0123456789".toList → c ∉ "root".toList → ∀ i, c ∉ idText xNames i := by
    intro c h1 h2 i
    unfold idText xNames
    by_cases h : i = 0
    · rw [if_pos h]; exact h2
    · rw [if_neg h]; exact not_dec i h1
  refine ⟨hc _ (by decide) (by decide), hc _ (by decide) (by decide), hc _ (by decide) (by decide), ?_⟩
  have hr : ∀ i, dec i ≠ "root".toList := by
    intro i h
    exact not_dec i (c := 'r') (by decide) (by rw [h]; decide)
  intro i j h
  unfold idText xNames at h
  by_cases hi : i = 0 <;> by_cases hj : j = 0
  · rw [hi, hj]
  · rw [if_pos hi, if_neg hj] at h; exact absurd h.symm (hr j)
  · rw [if_neg hi, if_pos hj] at h; exact absurd h (hr i)
  · rw [if_neg hi, if_neg hj] at h; exact dec_inj h

def xFileE (path : String) (size : Nat) : FEntry := ⟨0o100644, path.toList, none, [], 0, 1000, (0, 0), size, false⟩
/-- A program, its hard link, a symbolic link and a device. -/
def xFoot : FArchive :=
  ⟨[⟨0o104755, "bin/su".toList, none, [], 0, 0, (0, 0), 12, false⟩, ⟨0o755, "bin/sudo".toList, some "bin/su".toList, [], 0, 0, (0, 0), 0, false⟩,
    ⟨0o120777, "bin/sh".toList, none, "my shell".toList, 0, 0, (0, 0), 0, false⟩, ⟨0o020666, "dev/null".toList, none, [], 0, 0, (1, 3), 0, false⟩,
    xFileE "etc/none" 0], true⟩

example : (∀ e ∈ xFoot.entries, CleanEntry e) ∧ footprint xNames xNames xFoot = .ok
    ("-rwsr-xr-x\troot/root\tbin/su\n-rwsr-xr-x\troot/root\tbin/sudo\nlrwxrwxrwx\troot/root\tbin/sh -> my shell\n" ++
     "crw-rw-rw-\troot/root\tdev/null (1, 3)\n-rw-r--r--\troot/1000\tetc/none (EMPTY)\n").toList := by
  unfold CleanEntry
  refine ⟨by decide +kernel, by decide +kernel⟩

example : ModeOf xFoot.entries ⟨0o755, "bin/sudo".toList, some "bin/su".toList, [], 0, 0, (0, 0), 0, false⟩ 0o104755 :=
  .linked [] _ _ rfl rfl rfl (by decide +kernel)

/-- A name that ends like the mark of an empty file is mistaken for it. -/
theorem C81_name_counterexample :
    footprint xNames xNames ⟨[xFileE "a (EMPTY)" 3], true⟩ = footprint xNames xNames ⟨[xFileE "a" 0], true⟩ := by decide +kernel

/-- A name with a newline gives two lines, which look like two files. -/
theorem C81_newline_counterexample :
    footprint xNames xNames ⟨[xFileE "a\n-rw-r--r--\troot/1000\tb" 3], true⟩ = footprint xNames xNames ⟨[xFileE "a" 3, xFileE "b" 3], true⟩ := by
  decide +kernel

end Cards.Props
