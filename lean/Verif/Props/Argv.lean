import Verif.Spec.Argv
import Mathlib.Tactic.Common
/-!
# C33: command line parsing
-/
namespace Cards.Props
open Cards Cards.Spec

/-- The effect of an item on the parser state. -/
def applyItem (it : Item) (s : AState) : AState :=
  match it with
  | .opt id v => { s with opts := setOpt id v s.opts }
  | .arg w => { s with args := s.args ++ [w] }

theorem takeWhile_eq_name (r : Str) : '=' ∉ r.takeWhile (fun c => c ≠ '=') := by
  induction r with
  | nil => simp
  | cons c r ih =>
    rw [List.takeWhile_cons]
    split
    · rename_i h
      simp only [ne_eq, decide_not, Bool.not_eq_eq_eq_not, Bool.not_true, decide_eq_false_iff_not] at h
      simp only [List.mem_cons, not_or]
      exact ⟨fun e => h e.symm, ih⟩
    · simp

theorem dropWhile_eq_head (r : Str) : r.dropWhile (fun c => c ≠ '=') = [] ∨ ∃ v, r.dropWhile (fun c => c ≠ '=') = '=' :: v := by
  induction r with
  | nil => exact Or.inl rfl
  | cons c r ih =>
    rw [List.dropWhile_cons]
    split
    · exact ih
    · rename_i h
      simp only [ne_eq, decide_not, Bool.not_eq_eq_eq_not, Bool.not_true, decide_eq_false_iff_not, not_not] at h
      subst h
      exact Or.inr ⟨r, rfl⟩

theorem takeWhile_name {name : Str} (h : '=' ∉ name) (v : Str) :
    (name ++ '=' :: v).takeWhile (fun c => c ≠ '=') = name ∧ (name ++ '=' :: v).dropWhile (fun c => c ≠ '=') = '=' :: v := by
  induction name with
  | nil => simp
  | cons c name ih =>
    simp only [List.mem_cons, not_or] at h
    obtain ⟨h1, h2⟩ := ih h.2
    have hc : c ≠ '=' := fun e => h.1 e.symm
    simp [hc] at h1 h2 ⊢
    exact ⟨h1, h2⟩

theorem takeWhile_noeq {name : Str} (h : '=' ∉ name) :
    name.takeWhile (fun c => c ≠ '=') = name ∧ name.dropWhile (fun c => c ≠ '=') = [] := by
  induction name with
  | nil => simp
  | cons c name ih =>
    simp only [List.mem_cons, not_or] at h
    obtain ⟨h1, h2⟩ := ih h.2
    have hc : c ≠ '=' := fun e => h.1 e.symm
    simp [hc] at h1 h2 ⊢
    exact ⟨h1, h2⟩

theorem secondLoop_skip (T : Tables) (pos : Nat) (a : Str) (as : List Str) (s : AState) :
    secondLoop T pos pos (a :: as) s = secondLoop T pos (pos + 1) as s := by
  rw [secondLoop.eq_def]; simp

theorem secondLoop_bad {T : Tables} {pos i : Nat} {a : Str} (as : List Str) (s : AState) (hi : i ≠ pos) (hk : wordKind a = .bad) :
    secondLoop T pos i (a :: as) s = none := by
  rw [secondLoop.eq_def]; simp only [if_neg hi, hk]

theorem secondLoop_plain {T : Tables} {pos i : Nat} {a : Str} (as : List Str) (s : AState) (hi : i ≠ pos) (hk : wordKind a = .plain) :
    secondLoop T pos i (a :: as) s = secondLoop T pos (i + 1) as { s with args := s.args ++ [a] } := by
  rw [secondLoop.eq_def]; simp only [if_neg hi, hk]

theorem secondLoop_long {T : Tables} {pos i : Nat} {a r : Str} (as : List Str) (s : AState) (hi : i ≠ pos) (hk : wordKind a = .long r) :
    secondLoop T pos i (a :: as) s =
      match find T.long (r.takeWhile (· ≠ '=')) with
        | none => none
        | some o =>
          if o.needsValue then
            match longValue r with
            | some v => secondLoop T pos (i + 1) as { s with opts := setOpt o.id v s.opts }
            | none => none
          else secondLoop T pos (i + 1) as { s with opts := setOpt o.id [] s.opts } := by
  rw [secondLoop.eq_def]; simp only [if_neg hi, hk]; rfl

theorem secondLoop_short {T : Tables} {pos i : Nat} {a : Str} {x : Char} (as : List Str) (s : AState) (hi : i ≠ pos)
    (hk : wordKind a = .short x) :
    secondLoop T pos i (a :: as) s =
      match find T.short x with
        | none => none
        | some o =>
          if o.needsValue then
            match as with
            | [] => none
            | v :: as' => secondLoop T pos (i + 2) as' { s with opts := setOpt o.id v s.opts }
          else secondLoop T pos (i + 1) as { s with opts := setOpt o.id [] s.opts } := by
  rw [secondLoop.eq_def]; simp only [if_neg hi, hk]; rfl

theorem wordKind_long {a r : Str} (h : wordKind a = .long r) : a = '-' :: '-' :: r := by
  unfold wordKind at h
  split at h <;> simp_all

theorem wordKind_short {a : Str} {x : Char} (h : wordKind a = .short x) : a = ['-', x] ∧ x ≠ '-' := by
  unfold wordKind at h
  split at h <;> simp_all

theorem wordKind_plain {a : Str} (h : wordKind a = .plain) : ¬ Dashed a := by
  rintro ⟨r, rfl⟩
  match r with
  | [] => simp [wordKind] at h
  | [x] => by_cases hx : x = '-' <;> simp [wordKind, hx] at h
  | x :: y :: z => by_cases hx : x = '-' <;> simp [wordKind, hx] at h

theorem wordKind_of_plain {a : Str} (h : ¬ Dashed a) : wordKind a = .plain := by
  unfold wordKind
  split
  · exact absurd ⟨_, rfl⟩ h
  · exact absurd ⟨_, rfl⟩ h
  · exact absurd ⟨_, rfl⟩ h
  · exact absurd ⟨_, rfl⟩ h
  · rfl

theorem wordKind_of_short {x : Char} (h : x ≠ '-') : wordKind ['-', x] = .short x := by
  simp [wordKind, h]

theorem wordKind_of_long (r : Str) : wordKind ('-' :: '-' :: r) = .long r := by
  simp [wordKind]

/-- One round of the second loop. -/
theorem secondLoop_step {T : Tables} {pos i : Nat} {a : Str} {as : List Str} {s s' : AState} (hi : i ≠ pos)
    (h : secondLoop T pos i (a :: as) s = some s') :
    (∃ it, (∀ ws is, Says T ws is → Says T (a :: ws) (it :: is)) ∧ secondLoop T pos (i + 1) as (applyItem it s) = some s') ∨
    (∃ x o v as', a = ['-', x] ∧ x ≠ '-' ∧ find T.short x = some o ∧ o.needsValue = true ∧ as = v :: as' ∧
      secondLoop T pos (i + 2) as' (applyItem (.opt o.id v) s) = some s') := by
  cases hk : wordKind a with
  | bad => rw [secondLoop_bad as s hi hk] at h; cases h
  | plain =>
    rw [secondLoop_plain as s hi hk] at h
    exact Or.inl ⟨.arg a, fun ws is hs => Says.arg (wordKind_plain hk) hs, h⟩
  | long r =>
    rw [secondLoop_long as s hi hk] at h
    obtain rfl := wordKind_long hk
    have hsplit : r = r.takeWhile (fun c => c ≠ '=') ++ r.dropWhile (fun c => c ≠ '=') := List.takeWhile_append_dropWhile.symm
    have hn := takeWhile_eq_name r
    left
    split at h
    · cases h
    · rename_i o ho
      split at h
      · rename_i hv
        split at h
        · rename_i v hd
          refine ⟨.opt o.id v, ?_, h⟩
          intro ws is hs
          have : v ≠ [] ∧ r.dropWhile (fun c => c ≠ '=') = '=' :: v := by
            unfold longValue at hd
            split at hd
            · rename_i y c w e
              simp only [Option.some.injEq] at hd
              subst hd
              rcases dropWhile_eq_head r with e' | ⟨u, e'⟩
              · rw [e'] at e; cases e
              · rw [e'] at e
                simp only [List.cons.injEq] at e
                exact ⟨by simp, by rw [e', e.2]⟩
            · cases hd
          have e : '-' :: '-' :: r = "--".toList ++ r.takeWhile (fun c => c ≠ '=') ++ '=' :: v := by
            conv_lhs => rw [hsplit, this.2]
            rfl
          rw [e]
          exact Says.valued hn ho hv this.1 hs
        · cases h
      · rename_i hv
        refine ⟨.opt o.id [], ?_, h⟩
        intro ws is hs
        rcases dropWhile_eq_head r with hd | ⟨v, hd⟩
        · have e : '-' :: '-' :: r = "--".toList ++ r.takeWhile (fun c => c ≠ '=') := by
            conv_lhs => rw [hsplit, hd]
            simp
          rw [e]
          exact Says.flag hn ho (by simpa using hv) hs
        · have e : '-' :: '-' :: r = "--".toList ++ r.takeWhile (fun c => c ≠ '=') ++ '=' :: v := by
            conv_lhs => rw [hsplit, hd]
            rfl
          rw [e]
          exact Says.flagDropped hn ho (by simpa using hv) hs
  | short x =>
    rw [secondLoop_short as s hi hk] at h
    obtain ⟨rfl, hx'⟩ := wordKind_short hk
    split at h
    · cases h
    · rename_i o ho
      split at h
      · rename_i hv
        split at h
        · cases h
        · rename_i v as'
          exact Or.inr ⟨x, o, v, as', rfl, hx', ho, hv, rfl, h⟩
      · rename_i hv
        exact Or.inl ⟨.opt o.id [], fun ws is hs => Says.short hx' ho (by simpa using hv) hs, h⟩

/-- The rounds for the words said. -/
theorem secondLoop_says {T : Tables} {pos : Nat} {l : List Str} {is : List Item} (hs : Says T l is) (i : Nat) (rest : List Str) (s : AState)
    (hp : pos < i ∨ i + l.length ≤ pos) :
    secondLoop T pos i (l ++ rest) s = secondLoop T pos (i + l.length) rest (is.foldl (fun s it => applyItem it s) s) := by
  induction hs generalizing i s with
  | nil => rfl
  | @arg w ws is h r ih =>
    simp only [List.length_cons] at hp
    rw [List.cons_append, secondLoop_plain _ _ (by omega) (wordKind_of_plain h), ih (i + 1) _ (by omega)]
    simp only [List.length_cons, List.foldl_cons]
    congr 1; omega
  | @flag name o ws is hn ho hv r ih =>
    simp only [List.length_cons] at hp
    have e : "--".toList ++ name = '-' :: '-' :: name := rfl
    rw [List.cons_append, e, secondLoop_long _ _ (by omega) (wordKind_of_long _), (takeWhile_noeq hn).1]
    simp only [ho, hv]
    rw [if_neg (by simp), ih (i + 1) _ (by omega)]
    simp only [List.length_cons, List.foldl_cons]
    congr 1; omega
  | @flagDropped name o v ws is hn ho hv r ih =>
    simp only [List.length_cons] at hp
    have e : "--".toList ++ name ++ '=' :: v = '-' :: '-' :: (name ++ '=' :: v) := rfl
    rw [List.cons_append, e, secondLoop_long _ _ (by omega) (wordKind_of_long _), (takeWhile_name hn v).1]
    simp only [ho, hv]
    rw [if_neg (by simp), ih (i + 1) _ (by omega)]
    simp only [List.length_cons, List.foldl_cons]
    congr 1; omega
  | @valued name o v ws is hn ho hv hne r ih =>
    simp only [List.length_cons] at hp
    have e : "--".toList ++ name ++ '=' :: v = '-' :: '-' :: (name ++ '=' :: v) := rfl
    have hl : longValue (name ++ '=' :: v) = some v := by
      unfold longValue
      rw [(takeWhile_name hn v).2]
      obtain ⟨c, v', rfl⟩ := List.exists_cons_of_ne_nil hne
      rfl
    rw [List.cons_append, e, secondLoop_long _ _ (by omega) (wordKind_of_long _), (takeWhile_name hn v).1]
    simp only [ho, hv, hl, if_true]
    rw [ih (i + 1) _ (by omega)]
    simp only [List.length_cons, List.foldl_cons]
    congr 1; omega
  | @short x o ws is hx ho hv r ih =>
    simp only [List.length_cons] at hp
    rw [List.cons_append, secondLoop_short _ _ (by omega) (wordKind_of_short hx)]
    simp only [ho, hv]
    rw [if_neg (by simp), ih (i + 1) _ (by omega)]
    simp only [List.length_cons, List.foldl_cons]
    congr 1; omega
  | @shortValued x o v ws is hx ho hv r ih =>
    simp only [List.length_cons] at hp
    rw [List.cons_append, secondLoop_short _ _ (by omega) (wordKind_of_short hx)]
    simp only [ho, hv, if_true, List.cons_append]
    rw [ih (i + 2) _ (by omega)]
    simp only [List.length_cons, List.foldl_cons]
    congr 1; omega

/-- When the second loop succeeds on words that do not include the command, the words say something. -/
theorem secondLoop_sound {T : Tables} {pos : Nat} (n : Nat) (l : List Str) (hn : l.length ≤ n) (i : Nat) (s s' : AState) (hp : pos < i)
    (h : secondLoop T pos i l s = some s') : ∃ is, Says T l is ∧ s' = is.foldl (fun s it => applyItem it s) s := by
  induction n generalizing l i s with
  | zero =>
    obtain rfl : l = [] := List.eq_nil_of_length_eq_zero (by omega)
    simp only [secondLoop, Option.some.injEq] at h
    exact ⟨[], Says.nil, h.symm⟩
  | succ n ih =>
    cases l with
    | nil =>
      simp only [secondLoop, Option.some.injEq] at h
      exact ⟨[], Says.nil, h.symm⟩
    | cons a as =>
      simp only [List.length_cons] at hn
      rcases secondLoop_step (by omega) h with ⟨it, h1, h2⟩ | ⟨x, o, v, as', rfl, h1, h2, h3, rfl, h4⟩
      · obtain ⟨is, h3, h4⟩ := ih as (by omega) _ _ (by omega) h2
        exact ⟨it :: is, h1 _ _ h3, by simpa using h4⟩
      · simp only [List.length_cons] at hn
        obtain ⟨is, k3, k4⟩ := ih as' (by omega) _ _ (by omega) h4
        exact ⟨.opt o.id v :: is, Says.shortValued h1 h2 h3 k3, by simpa using k4⟩

/-- No option that waits for its value in the next word stands last. -/
def NotWaiting (T : Tables) (l : List Str) : Prop := ∀ x o, l.getLast? = some ['-', x] → find T.short x = some o → o.needsValue = false

/-- The same for the words before the command. -/
theorem secondLoop_sound_pre {T : Tables} {pos : Nat} (n : Nat) (pre : List Str) (hn : pre.length ≤ n) (c : Str) (post : List Str)
    (i : Nat) (s s' : AState) (hp : pos = i + pre.length) (hw : NotWaiting T pre)
    (h : secondLoop T pos i (pre ++ c :: post) s = some s') :
    ∃ is, Says T pre is ∧ secondLoop T pos (pos + 1) post (is.foldl (fun s it => applyItem it s) s) = some s' := by
  induction n generalizing pre i s with
  | zero =>
    obtain rfl : pre = [] := List.eq_nil_of_length_eq_zero (by omega)
    simp only [List.length_nil, Nat.add_zero] at hp
    subst hp
    rw [List.nil_append, secondLoop_skip] at h
    exact ⟨[], Says.nil, h⟩
  | succ n ih =>
    cases pre with
    | nil =>
      simp only [List.length_nil, Nat.add_zero] at hp
      subst hp
      rw [List.nil_append, secondLoop_skip] at h
      exact ⟨[], Says.nil, h⟩
    | cons a as =>
      simp only [List.length_cons] at hn hp
      rw [List.cons_append] at h
      have tail : ∀ as', as' ≠ [] → (∃ b, a :: as = b ++ as') → NotWaiting T as' := by
        intro as' hne ⟨b, hb⟩ x o hx
        refine hw x o ?_
        rw [hb, List.getLast?_append, hx]; rfl
      have tail' : ∀ as', (∃ b, a :: as = b ++ as') → NotWaiting T as' := by
        intro as' hb
        by_cases hne : as' = []
        · subst hne; intro x o hx; simp at hx
        · exact tail as' hne hb
      rcases secondLoop_step (by omega) h with ⟨it, h1, h2⟩ | ⟨x, o, v, as', rfl, h1, h2, h3, he, h4⟩
      · obtain ⟨is, h3, h4⟩ := ih as (by omega) (i + 1) _ (by omega) (tail' as ⟨[a], rfl⟩) h2
        exact ⟨it :: is, h1 _ _ h3, by simpa using h4⟩
      · cases as with
        | nil =>
          exfalso
          have := hw x o (by simp) h2
          rw [h3] at this; cases this
        | cons b as =>
          simp only [List.cons_append, List.cons.injEq] at he
          obtain ⟨rfl, rfl⟩ := he
          simp only [List.length_cons] at hn hp
          obtain ⟨is, k3, k4⟩ := ih as (by omega) (i + 2) _ (by omega) (tail' as ⟨[['-', x], b], rfl⟩) h4
          exact ⟨.opt o.id b :: is, Says.shortValued h1 h2 h3 k3, by simpa using k4⟩

theorem find_setOpt (id k : Nat) (v : Str) (m : List (Nat × Str)) : find (setOpt k v m) id = if k = id then some v else find m id := by
  unfold setOpt
  simp only [find]
  split
  · rfl
  · rename_i hk
    induction m with
    | nil => rfl
    | cons p m ih =>
      obtain ⟨a, b⟩ := p
      rw [List.filter_cons]
      split
      · simp only [find, ih]
      · rename_i ha
        simp only [ne_eq, decide_not, Bool.not_eq_eq_eq_not, Bool.not_true, decide_eq_false_iff_not, not_not] at ha
        subst ha
        rw [ih]
        simp [find, hk]

theorem applyItems_args (is : List Item) (s : AState) : (is.foldl (fun s it => applyItem it s) s).args = s.args ++ argsOf is := by
  induction is generalizing s with
  | nil => simp [argsOf]
  | cons it is ih =>
    rw [List.foldl_cons, ih]
    cases it <;> simp [applyItem, argsOf]

theorem applyItems_value (is : List Item) (s : AState) (id : Nat) :
    (is.foldl (fun s it => applyItem it s) s).value id = (lastValue id is).or (s.value id) := by
  induction is generalizing s with
  | nil => simp [lastValue]
  | cons it is ih =>
    rw [List.foldl_cons, ih]
    cases it with
    | arg w => rfl
    | opt k v =>
      have e : (applyItem (.opt k v) s).value id = if k = id then some v else s.value id := find_setOpt id k v s.opts
      rw [e]
      simp only [lastValue]
      cases lastValue id is with
      | some w => rfl
      | none => by_cases hk : k = id <;> simp [hk]

/-- What the first loop looks for: the words before the command all begin with `-` and none asks for help. -/
theorem firstLoop_found {T : Tables} {argv : List Str} {i : Nat} {cmd : ACmd} {pos : Nat} (h : firstLoop T i argv = .found cmd pos) :
    ∃ pre c post, argv = pre ++ c :: post ∧ pos = i + pre.length ∧ ¬ Dashed c ∧ find T.cmds c = some cmd ∧
      ∀ w ∈ pre, Dashed w ∧ w ≠ "-h".toList ∧ w ≠ "--help".toList := by
  induction argv generalizing i with
  | nil => simp [firstLoop] at h
  | cons a as ih =>
    rw [firstLoop] at h
    split at h
    · rename_i hd
      split at h
      · cases h
      · rename_i c hc
        cases h
        refine ⟨[], a, as, rfl, rfl, ?_, hc, by simp⟩
        rintro ⟨r, rfl⟩
        simp at hd
    · rename_i hd
      split at h
      · cases h
      · rename_i hh
        obtain ⟨pre, c, post, rfl, rfl, h1, h2, h3⟩ := ih h
        refine ⟨a :: pre, c, post, rfl, by simp; omega, h1, h2, ?_⟩
        intro w hw
        rcases List.mem_cons.mp hw with rfl | hw
        · refine ⟨?_, fun e => hh (Or.inl e), fun e => hh (Or.inr e)⟩
          cases w with
          | nil => simp at hd
          | cons x r => simp at hd; exact ⟨r, by rw [hd]⟩
        · exact h3 w hw

theorem firstLoop_of {T : Tables} (pre : List Str) (c : Str) (post : List Str) (cmd : ACmd) (i : Nat) (h1 : ¬ Dashed c)
    (h2 : find T.cmds c = some cmd) (h3 : ∀ w ∈ pre, Dashed w ∧ w ≠ "-h".toList ∧ w ≠ "--help".toList) :
    firstLoop T i (pre ++ c :: post) = .found cmd (i + pre.length) := by
  induction pre generalizing i with
  | nil =>
    rw [List.nil_append, firstLoop, if_pos, h2]
    · rfl
    · intro e
      cases c with
      | nil => simp at e
      | cons x r => simp at e; exact h1 ⟨r, by rw [e]⟩
  | cons a pre ih =>
    obtain ⟨⟨r, rfl⟩, k2, k3⟩ := h3 a (by simp)
    rw [List.cons_append, firstLoop, if_neg (by simp), if_neg (by rintro (e | e); exacts [k2 e, k3 e]),
      ih (i + 1) (fun w hw => h3 w (by simp [hw]))]
    simp only [List.length_cons]
    congr 1; omega

theorem countOk_iff (c : ACmd) (n : Nat) : countOk c n = true ↔ ArgCountOk c n := by
  unfold countOk ArgCountOk
  cases c.check <;> simp

/-- **C33, any tables.** A command line on which no short option that requires a value stands right before the command is
accepted exactly when: the words before the first plain word are options other than help, that word is a known command, all
other words say known options (with values where required) and arguments, help is not among them, the mandatory options of the
command are, and the number of arguments is right. The result holds exactly the arguments in order, and for every option the value
said last. -/
theorem C33_accepts_iff_partial (T : Tables) (argv : List Str) (cmd : ACmd) (s : AState)
    (hw : ∀ pre c post, argv = pre ++ c :: post → ¬ Dashed c → (∀ w ∈ pre, Dashed w) → NotWaiting T pre) :
    (∃ s', parseArgs T argv = .ok cmd s' ∧ s'.args = s.args ∧ ∀ id, s'.value id = s.value id) ↔
    ∃ pre c post before after, argv = pre ++ c :: post ∧ ¬ Dashed c ∧ find T.cmds c = some cmd ∧
      (∀ w ∈ pre, Dashed w ∧ w ≠ "-h".toList ∧ w ≠ "--help".toList) ∧
      Says T pre before ∧ Says T post after ∧
      lastValue T.help (before ++ after) = none ∧
      (∀ id ∈ cmd.mandatory, (lastValue id (before ++ after)).isSome) ∧
      ArgCountOk cmd (argsOf (before ++ after)).length ∧
      s.args = argsOf (before ++ after) ∧ ∀ id, s.value id = lastValue id (before ++ after) := by
  have cat : ∀ a b : List Item, (b.foldl (fun s it => applyItem it s) (a.foldl (fun s it => applyItem it s) (⟨[], []⟩ : AState))) =
      (a ++ b).foldl (fun s it => applyItem it s) ⟨[], []⟩ := fun a b => (List.foldl_append ..).symm
  have val : ∀ (is : List Item) id, (is.foldl (fun s it => applyItem it s) (⟨[], []⟩ : AState)).value id = lastValue id is := by
    intro is id
    rw [applyItems_value]
    show (lastValue id is).or none = _
    simp
  have arg : ∀ is : List Item, (is.foldl (fun s it => applyItem it s) (⟨[], []⟩ : AState)).args = argsOf is := by
    intro is; rw [applyItems_args]; rfl
  constructor
  · rintro ⟨s', h, ha, hv⟩
    unfold parseArgs at h
    split at h
    · cases h
    · cases h
    · rename_i cmd' pos hf
      split at h
      · cases h
      · rename_i s1 hs
        obtain ⟨pre, c, post, rfl, rfl, h1, h2, h3⟩ := firstLoop_found hf
        obtain ⟨before, b1, b2⟩ := secondLoop_sound_pre pre.length pre (Nat.le_refl _) c post 1 _ _ rfl
          (hw pre c post rfl h1 (fun w hw => (h3 w hw).1)) hs
        obtain ⟨after, a1, a2⟩ := secondLoop_sound post.length post (Nat.le_refl _) _ _ _ (Nat.lt_succ_self _) b2
        rw [cat] at a2
        split at h
        · cases h
        · rename_i hh
          split at h
          · rename_i hm
            split at h
            · rename_i hc
              simp only [ParseResult.ok.injEq] at h
              obtain ⟨rfl, rfl⟩ := h
              refine ⟨pre, c, post, before, after, rfl, h1, h2, h3, b1, a1, ?_, ?_, ?_, ?_, ?_⟩
              · rw [← val, ← a2]
                cases hq : s1.value T.help with
                | none => rfl
                | some w => exact absurd (show (s1.value T.help).isSome by rw [hq]; rfl) hh
              · intro id hid
                rw [← val, ← a2]
                exact List.all_eq_true.mp hm id hid
              · rw [← countOk_iff, ← arg, ← a2]; exact hc
              · rw [← ha, a2, arg]
              · intro id; rw [← hv, a2, val]
            · cases h
          · cases h
  · rintro ⟨pre, c, post, before, after, rfl, h1, h2, h3, b1, a1, k1, k2, k3, k4, k5⟩
    refine ⟨(before ++ after).foldl (fun s it => applyItem it s) ⟨[], []⟩, ?_, by rw [arg, k4], fun id => by rw [val, k5]⟩
    unfold parseArgs
    rw [firstLoop_of pre c post cmd 1 h1 h2 h3]
    simp only
    rw [secondLoop_says b1 1 (c :: post) _ (Or.inr (Nat.le_refl _)), secondLoop_skip]
    have := secondLoop_says (pos := 1 + pre.length) a1 (1 + pre.length + 1) [] (before.foldl (fun s it => applyItem it s) ⟨[], []⟩)
      (Or.inl (by omega))
    rw [List.append_nil] at this
    rw [this, secondLoop, cat]
    simp only
    have hh : (find ((before ++ after).foldl (fun s it => applyItem it s) (⟨[], []⟩ : AState)).opts T.help).isSome = false := by
      have := val (before ++ after) T.help
      rw [k1] at this
      rw [show find _ _ = none from this]; rfl
    rw [hh, if_neg (by simp), if_pos, if_pos]
    · rw [countOk_iff, arg]; exact k3
    · rw [List.all_eq_true]
      intro id hid
      have := val (before ++ after) id
      rw [show find _ id = _ from this]
      exact k2 id hid

/-- In the tables of cards no short option requires a value. -/
theorem cards_short (x : Char) (o : AOpt) (h : find cardsTables.short x = some o) : o.needsValue = false := by
  have all : ∀ p ∈ cardsTables.short, p.2.needsValue = false := by decide
  have : ∀ m : List (Char × AOpt), find m x = some o → (∃ k, (k, o) ∈ m) := by
    intro m
    induction m with
    | nil => intro h; simp [find] at h
    | cons p m ih =>
      obtain ⟨k, v⟩ := p
      intro h
      simp only [find] at h
      split at h
      · simp at h; exact ⟨k, by simp [h]⟩
      · obtain ⟨k', hk⟩ := ih h; exact ⟨k', by simp [hk]⟩
  obtain ⟨k, hk⟩ := this _ h
  exact all _ hk

/-- **C33 for cards**, without any condition on the command line. -/
theorem C33_cards_accepts_iff (argv : List Str) (cmd : ACmd) (s : AState) :
    (∃ s', parseArgs cardsTables argv = .ok cmd s' ∧ s'.args = s.args ∧ ∀ id, s'.value id = s.value id) ↔
    ∃ pre c post before after, argv = pre ++ c :: post ∧ ¬ Dashed c ∧ find cardsCmds c = some cmd ∧
      (∀ w ∈ pre, Dashed w ∧ w ≠ "-h".toList ∧ w ≠ "--help".toList) ∧
      Says cardsTables pre before ∧ Says cardsTables post after ∧
      lastValue cardsTables.help (before ++ after) = none ∧
      (∀ id ∈ cmd.mandatory, (lastValue id (before ++ after)).isSome) ∧
      ArgCountOk cmd (argsOf (before ++ after)).length ∧
      s.args = argsOf (before ++ after) ∧ ∀ id, s.value id = lastValue id (before ++ after) :=
  C33_accepts_iff_partial cardsTables argv cmd s (fun _ _ _ _ _ _ _ o _ ho => cards_short _ o ho)

theorem firstLoop_usage_iff {T : Tables} {argv : List Str} {i : Nat} : firstLoop T i argv = .usage ↔
    ∃ pre w post, argv = pre ++ w :: post ∧ (w = "-h".toList ∨ w = "--help".toList) ∧ ∀ u ∈ pre, Dashed u := by
  induction argv generalizing i with
  | nil => simp [firstLoop]
  | cons a as ih =>
    rw [firstLoop]
    by_cases hd : a.head? ≠ some '-'
    · rw [if_pos hd]
      constructor
      · intro h; cases hc : find T.cmds a <;> rw [hc] at h <;> cases h
      · rintro ⟨pre, w, post, e, hw, hpre⟩
        exfalso
        apply hd
        cases pre with
        | nil => simp only [List.nil_append, List.cons.injEq] at e; rw [e.1]; rcases hw with rfl | rfl <;> rfl
        | cons p pre =>
          simp only [List.cons_append, List.cons.injEq] at e
          obtain ⟨r, hr⟩ := hpre p (by simp)
          rw [e.1, hr]; rfl
    · rw [if_neg hd]
      by_cases hh : a = "-h".toList ∨ a = "--help".toList
      · rw [if_pos hh]
        exact ⟨fun _ => ⟨[], a, as, rfl, hh, by simp⟩, fun _ => rfl⟩
      · rw [if_neg hh, ih]
        have hda : Dashed a := by
          cases a with
          | nil => simp at hd
          | cons x r => simp at hd; exact ⟨r, by rw [hd]⟩
        constructor
        · rintro ⟨pre, w, post, rfl, hw, hpre⟩
          refine ⟨a :: pre, w, post, rfl, hw, ?_⟩
          intro u hu
          rcases List.mem_cons.mp hu with rfl | hu
          · exact hda
          · exact hpre u hu
        · rintro ⟨pre, w, post, e, hw, hpre⟩
          cases pre with
          | nil => simp only [List.nil_append, List.cons.injEq] at e; exact absurd (e.1 ▸ hw) hh
          | cons p pre =>
            simp only [List.cons_append, List.cons.injEq] at e
            exact ⟨pre, w, post, e.2, hw, fun u hu => hpre u (by simp [hu])⟩

/-- **C33 for cards, help.** The help is shown exactly when help is asked for before any word that does not begin with `-`, or after a known
command on a line all whose other words say known options and arguments. Every other line that is not accepted is an error: in particular one whose
first plain word is no command. -/
theorem C33_cards_help_iff (argv : List Str) : parseArgs cardsTables argv = .help ↔
    (∃ pre w post, argv = pre ++ w :: post ∧ (w = "-h".toList ∨ w = "--help".toList) ∧ ∀ u ∈ pre, Dashed u) ∨
    ∃ pre c post cmd before after, argv = pre ++ c :: post ∧ ¬ Dashed c ∧ find cardsCmds c = some cmd ∧
      (∀ w ∈ pre, Dashed w ∧ w ≠ "-h".toList ∧ w ≠ "--help".toList) ∧
      Says cardsTables pre before ∧ Says cardsTables post after ∧ lastValue cardsTables.help (before ++ after) ≠ none := by
  have cat : ∀ a b : List Item, (b.foldl (fun s it => applyItem it s) (a.foldl (fun s it => applyItem it s) (⟨[], []⟩ : AState))) =
      (a ++ b).foldl (fun s it => applyItem it s) ⟨[], []⟩ := fun a b => (List.foldl_append ..).symm
  have val : ∀ (is : List Item) id, (is.foldl (fun s it => applyItem it s) (⟨[], []⟩ : AState)).value id = lastValue id is := by
    intro is id
    rw [applyItems_value]
    show (lastValue id is).or none = _
    simp
  unfold parseArgs
  constructor
  · intro h
    split at h
    · cases h
    · rename_i hf; exact Or.inl (firstLoop_usage_iff.mp hf)
    · rename_i cmd pos hf
      split at h
      · cases h
      · rename_i s1 hs
        obtain ⟨pre, c, post, rfl, rfl, h1, h2, h3⟩ := firstLoop_found hf
        obtain ⟨before, b1, b2⟩ := secondLoop_sound_pre pre.length pre (Nat.le_refl _) c post 1 _ _ rfl
          (fun _ o _ ho => cards_short _ o ho) hs
        obtain ⟨after, a1, a2⟩ := secondLoop_sound post.length post (Nat.le_refl _) _ _ _ (Nat.lt_succ_self _) b2
        rw [cat] at a2
        split at h
        · rename_i hh
          refine Or.inr ⟨pre, c, post, cmd, before, after, rfl, h1, h2, h3, b1, a1, ?_⟩
          rw [← val, ← a2]
          exact Option.isSome_iff_ne_none.mp hh
        · split at h
          · split at h <;> cases h
          · cases h
  · rintro (h | ⟨pre, c, post, cmd, before, after, rfl, h1, h2, h3, b1, a1, k1⟩)
    · rw [firstLoop_usage_iff.mpr h]
    · rw [firstLoop_of pre c post cmd 1 h1 h2 h3]
      simp only
      rw [secondLoop_says b1 1 (c :: post) _ (Or.inr (Nat.le_refl _)), secondLoop_skip]
      have := secondLoop_says (pos := 1 + pre.length) a1 (1 + pre.length + 1) [] (before.foldl (fun s it => applyItem it s) ⟨[], []⟩)
        (Or.inl (by omega))
      rw [List.append_nil] at this
      rw [this, secondLoop, cat]
      simp only
      rw [if_pos]
      have := val (before ++ after) cardsTables.help
      exact Option.isSome_iff_ne_none.mpr (by rw [show find _ _ = _ from this]; exact k1)

example : parseArgs cardsTables ["instal".toList, "-h".toList] = .error ∧ parseArgs cardsTables ["-f".toList, "-h".toList, "x".toList] = .help ∧
    parseArgs cardsTables ["list".toList, "-h".toList] = .help := by decide +kernel

/-- A word that is neither a command's argument nor an option that exists is never accepted. -/
theorem C33_unknown_option_refused (argv : List Str) (name : Str) (hn : '=' ∉ name) (hu : find cardsTables.long name = none)
    (h : ("--".toList ++ name) ∈ argv) (cmd : ACmd) (s : AState) : parseArgs cardsTables argv ≠ .ok cmd s := by
  intro hp
  obtain ⟨pre, c, post, before, after, rfl, h1, -, -, b1, a1, -⟩ := (C33_cards_accepts_iff argv cmd s).mp ⟨s, hp, rfl, fun _ => rfl⟩
  have key : ∀ l is, Says cardsTables l is → ("--".toList ++ name) ∉ l := by
    intro l is hs
    induction hs with
    | nil => simp
    | arg h r ih =>
      simp only [List.mem_cons, not_or]
      exact ⟨fun e => h ⟨'-' :: name, by rw [← e]; rfl⟩, ih⟩
    | @flag n o ws is hn' ho hv r ih =>
      simp only [List.mem_cons, not_or]
      refine ⟨fun e => ?_, ih⟩
      rw [List.append_cancel_left_eq] at e
      rw [e, ho] at hu; cases hu
    | @flagDropped n o v ws is hn' ho hv r ih =>
      simp only [List.mem_cons, not_or]
      refine ⟨fun e => ?_, ih⟩
      rw [List.append_assoc, List.append_cancel_left_eq] at e
      exact hn (by rw [e]; simp)
    | @valued n o v ws is hn' ho hv hne r ih =>
      simp only [List.mem_cons, not_or]
      refine ⟨fun e => ?_, ih⟩
      rw [List.append_assoc, List.append_cancel_left_eq] at e
      exact hn (by rw [e]; simp)
    | @short x o ws is hx ho hv r ih =>
      simp only [List.mem_cons, not_or]
      refine ⟨fun e => ?_, ih⟩
      have : ['-', x] = '-' :: '-' :: name := e.symm
      simp at this
      exact hx this.1
    | @shortValued x o v ws is hx ho hv r ih =>
      rw [cards_short x o ho] at hv; cases hv
  rcases List.mem_append.mp h with hm | hm
  · exact key _ _ b1 hm
  · rcases List.mem_cons.mp hm with rfl | hm
    · exact h1 ⟨'-' :: name, rfl⟩
    · exact key _ _ a1 hm

/-- The condition of `C33_accepts_iff_partial` is needed: with a short option `-r` that requires a value, the command word is also
taken as the value. -/
theorem C33_command_as_value_counterexample :
    parseArgs ⟨[("install".toList, ⟨"install".toList, .min, 1, []⟩)], [], [('r', ⟨2, true⟩)], 1⟩
      ["-r".toList, "install".toList, "foo".toList] =
      .ok ⟨"install".toList, .min, 1, []⟩ ⟨[(2, "install".toList)], ["foo".toList]⟩ := by decide +kernel

/-- The result does not hold what was given when a value is attached to an option that takes none: `--force=no` forces. -/
theorem C33_dropped_value_counterexample :
    parseArgs cardsTables ["install".toList, "--force=no".toList, "foo".toList] =
      .ok ⟨"install".toList, .min, 1, []⟩ ⟨[(16, [])], ["foo".toList]⟩ := by decide +kernel

/-- Options are not tied to commands: `cards remove --dry foo` is accepted, although `remove` has no such option and ignores it. -/
theorem C33_foreign_option_counterexample :
    parseArgs cardsTables ["remove".toList, "--dry".toList, "foo".toList] =
      .ok ⟨"remove".toList, .min, 1, []⟩ ⟨[(18, [])], ["foo".toList]⟩ := by decide +kernel

/-- Non-trivial instance: an option before the command, a value, two arguments. -/
example : parseArgs cardsTables ["-f".toList, "install".toList, "a".toList, "--root=/mnt".toList, "b".toList] =
    .ok ⟨"install".toList, .min, 1, []⟩ ⟨[(10, "/mnt".toList), (16, [])], ["a".toList, "b".toList]⟩ := by decide +kernel

example : parseArgs cardsTables ["install".toList, "--root".toList, "a".toList] = .error := by decide +kernel

end Cards.Props
