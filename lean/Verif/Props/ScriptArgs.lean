import Verif.Model.ScriptArgs
import Verif.Props.WebPkgs
/-!
# The arguments of `mybld` and `outdated`
-/
namespace Cards.Props

/-! ## C193: mybld -/

/-- What can be asked for: an option without a word, one with a word, or a word. -/
inductive MbItem
  | flag (f : MbFlag) (long : Bool)
  | val (v : MbVal) (long : Bool) (w : Str)
  | word (w : Str)

/-- The spelling of an option, short or long. -/
def spellFlag : MbFlag → Bool → Str
  | .pause, l => if l then "--pause".toList else "-p".toList
  | .verbose, l => if l then "--verbose".toList else "-v".toList
  | .init, l => if l then "--init".toList else "-I".toList
  | .ask, l => if l then "--ask".toList else "-A".toList

def spellVal : MbVal → Bool → Str
  | .cleanup, l => if l then "--cleanup".toList else "-c".toList
  | .check, l => if l then "--check".toList else "-C".toList
  | .increment, l => if l then "--increment".toList else "-i".toList
  | .diff, l => if l then "--diff".toList else "-d".toList
  | .sync, l => if l then "--sync".toList else "-s".toList

/-- The arguments that ask for it. -/
def MbItem.args : MbItem → List Str
  | .flag f l => [spellFlag f l]
  | .val v l w => [spellVal v l, w]
  | .word w => [w]

/-- The words. -/
def MbItem.words : MbItem → List Str
  | .flag _ _ => []
  | .val _ _ w => [w]
  | .word w => [w]

/-- A word without blanks; one that stands alone does not begin with a dash. -/
def MbItem.Plain : MbItem → Prop
  | .flag _ _ => True
  | .val _ _ w => w ≠ [] ∧ ' ' ∉ w
  | .word w => w ≠ [] ∧ ' ' ∉ w ∧ w.head? ≠ some '-'

/-- Some item is the option. -/
def HasFlag (is : List MbItem) (f : MbFlag) : Prop := ∃ l, MbItem.flag f l ∈ is
def HasVal (is : List MbItem) (v : MbVal) : Prop := ∃ l w, MbItem.val v l w ∈ is

theorem cutSpaces_plain {w : Str} (h : ' ' ∉ w) : cutSpaces w = [w] := by
  induction w with
  | nil => rfl
  | cons c w ih =>
    rw [cutSpaces, if_neg (fun e => h (by simp [e])), ih (fun e => h (List.mem_cons_of_mem _ e))]

theorem shWords_plain {w : Str} (h0 : w ≠ []) (h : ' ' ∉ w) : shWords w = [w] := by
  unfold shWords
  rw [cutSpaces_plain h]
  simp [h0]

theorem mbFlag_spell (f : MbFlag) (l : Bool) : mbFlag (spellFlag f l) = some f ∧ spellFlag f l ≠ [] := by cases f <;> cases l <;> decide

theorem mbVal_spell (v : MbVal) (l : Bool) : mbVal (spellVal v l) = some v ∧ mbFlag (spellVal v l) = none ∧ spellVal v l ≠ [] := by cases v <;> cases l <;> decide

theorem dash_of_known {w : Str} (h : mbFlag w ≠ none ∨ mbVal w ≠ none ∨ w = "--commit".toList ∨ w = "-n".toList ∨ w = "--new".toList ∨ w = "-h".toList ∨ w = "--help".toList) :
    w.head? = some '-' := by
  rcases h with h | h | h | h | h | h | h
  · unfold mbFlag at h
    split_ifs at h with a b c d
    · rcases a with rfl | rfl <;> decide
    · rcases b with rfl | rfl <;> decide
    · rcases c with rfl | rfl <;> decide
    · rcases d with rfl | rfl <;> decide
    · exact absurd rfl h
  · unfold mbVal at h
    split_ifs at h with a b c d e
    · rcases a with rfl | rfl <;> decide
    · rcases b with rfl | rfl <;> decide
    · rcases c with rfl | rfl <;> decide
    · rcases d with rfl | rfl <;> decide
    · rcases e with rfl | rfl <;> decide
    · exact absurd rfl h
  all_goals subst h; decide

theorem mbParse_word {w : Str} (h0 : w ≠ []) (hd : w.head? ≠ some '-') (o : MbOpts) (ws : List Str) : mbParse o (w :: ws) = mbParse (o.add w) ws := by
  have hn : ∀ {p : Prop}, (p → w.head? = some '-') → ¬ p := fun h hp => hd (h hp)
  have h1 : mbFlag w = none := by
    by_contra h; exact hd (dash_of_known (.inl h))
  have h2 : mbVal w = none := by
    by_contra h; exact hd (dash_of_known (.inr (.inl h)))
  rw [mbParse, if_neg h0, h1]
  simp only [h2]
  rw [if_neg (hn fun h => dash_of_known (.inr (.inr (.inl h)))),
    if_neg (hn fun h => dash_of_known (.inr (.inr (.inr (h.elim .inl (fun h => .inr (.inl h))))))),
    if_neg (hn fun h => dash_of_known (.inr (.inr (.inr (.inr (.inr h)))))), if_neg hd]

/-- What an item does to the settings. -/
def MbItem.apply (o : MbOpts) : MbItem → MbOpts
  | .flag f _ => f.set o
  | .val v _ w => (v.set o).add w
  | .word w => o.add w

theorem mbParse_items : ∀ (is : List MbItem) (o : MbOpts) (rest : List Str), (∀ i ∈ is, i.Plain) →
    mbParse o (is.flatMap MbItem.args ++ rest) = mbParse (is.foldl MbItem.apply o) rest := by
  intro is
  induction is with
  | nil => intro o rest _; rfl
  | cons i is ih =>
    intro o rest h
    have hi := h i List.mem_cons_self
    have ht := fun x hx => h x (List.mem_cons_of_mem i hx)
    rw [List.flatMap_cons, List.foldl_cons, List.append_assoc]
    cases i with
    | flag f l =>
      obtain ⟨h1, h2⟩ := mbFlag_spell f l
      show mbParse o (spellFlag f l :: _) = _
      rw [mbParse, if_neg h2, h1]
      exact ih _ _ ht
    | val v l w =>
      obtain ⟨h1, h2, h3⟩ := mbVal_spell v l
      show mbParse o (spellVal v l :: w :: _) = _
      rw [mbParse, if_neg h3, h2]
      simp only [h1]
      rw [if_neg (by rw [shWords_plain hi.1 hi.2]; simp)]
      exact ih _ _ ht
    | word w =>
      show mbParse o (w :: _) = _
      rw [mbParse_word hi.1 hi.2.2]
      exact ih _ _ ht

/-- The settings that items ask for. -/
structure MbAsked (is : List MbItem) (o : MbOpts) : Prop where
  cleanup : o.cleanup = true ↔ HasVal is .cleanup
  check : o.check = true ↔ HasVal is .check
  increment : o.increment = true ↔ HasVal is .increment
  diff : o.diff = true ↔ HasVal is .diff
  sync : o.sync = true ↔ HasVal is .sync
  init : o.init = true ↔ HasFlag is .init
  confirm : o.confirm = true ↔ HasFlag is .ask
  manual : o.manual = true ↔ HasFlag is .pause
  verbose : o.verbose = true ↔ HasFlag is .verbose ∨ HasFlag is .ask ∨ HasFlag is .pause
  params : o.params = is.flatMap MbItem.words

theorem hasFlag_snoc (is : List MbItem) (i : MbItem) (f : MbFlag) : HasFlag (is ++ [i]) f ↔ HasFlag is f ∨ ∃ l, i = .flag f l := by
  unfold HasFlag
  simp only [List.mem_append, List.mem_singleton, exists_or]
  constructor
  · rintro (h | ⟨l, h⟩)
    · exact .inl h
    · exact .inr ⟨l, h.symm⟩
  · rintro (h | ⟨l, h⟩)
    · exact .inl h
    · exact .inr ⟨l, h.symm⟩

theorem hasVal_snoc (is : List MbItem) (i : MbItem) (v : MbVal) : HasVal (is ++ [i]) v ↔ HasVal is v ∨ ∃ l w, i = .val v l w := by
  unfold HasVal
  constructor
  · rintro ⟨l, w, h⟩
    rcases List.mem_append.mp h with h | h
    · exact .inl ⟨l, w, h⟩
    · exact .inr ⟨l, w, (List.mem_singleton.mp h).symm⟩
  · rintro (⟨l, w, h⟩ | ⟨l, w, h⟩)
    · exact ⟨l, w, List.mem_append_left _ h⟩
    · exact ⟨l, w, List.mem_append_right _ (by simp [h])⟩

theorem asked_step {is : List MbItem} {o : MbOpts} (h : MbAsked is o) (i : MbItem) (hi : i.Plain) : MbAsked (is ++ [i]) (i.apply o) := by
  obtain ⟨a1, a2, a3, a4, a5, a6, a7, a8, a9, a10⟩ := h
  cases i with
  | flag f l =>
    cases f <;> constructor <;> simp [hasFlag_snoc, hasVal_snoc, MbItem.apply, MbFlag.set, MbItem.words, a1, a2, a3, a4, a5, a6, a7, a8, a9, a10]
  | val v l w =>
    have hw := shWords_plain hi.1 hi.2
    cases v <;> constructor <;> simp [hasFlag_snoc, hasVal_snoc, MbItem.apply, MbVal.set, MbOpts.add, MbItem.words, hw, a1, a2, a3, a4, a5, a6, a7, a8, a9, a10]
  | word w =>
    have hw := shWords_plain hi.1 hi.2.1
    constructor <;> simp [hasFlag_snoc, hasVal_snoc, MbItem.apply, MbOpts.add, MbItem.words, hw, a1, a2, a3, a4, a5, a6, a7, a8, a9, a10]

theorem asked_foldl : ∀ (is pre : List MbItem) (o : MbOpts), MbAsked pre o → (∀ i ∈ is, i.Plain) → MbAsked (pre ++ is) (is.foldl MbItem.apply o) := by
  intro is
  induction is with
  | nil => intro pre o h _; simpa using h
  | cons i is ih =>
    intro pre o h hp
    have := ih (pre ++ [i]) (i.apply o) (asked_step h i (hp i List.mem_cons_self)) (fun x hx => hp x (List.mem_cons_of_mem _ hx))
    simpa using this

theorem asked_nil : MbAsked [] {} := by
  constructor <;> simp [HasFlag, HasVal]

/-- mybld does what its options say: whatever is asked for, in whatever order and spelling, is set, and nothing else; the words come in their order. Missing for the whole property: empty words
and words of options that begin with a dash, see below. -/
theorem C193_options_partial (is : List MbItem) (h : ∀ i ∈ is, i.Plain) : ∃ o, mbParse {} (is.flatMap MbItem.args) = .go o ∧ MbAsked is o := by
  refine ⟨is.foldl MbItem.apply {}, ?_, ?_⟩
  · have := mbParse_items is {} [] h
    rw [List.append_nil] at this
    rw [this, mbParse]
  · simpa using asked_foldl is [] {} asked_nil h

/-- Something that begins with a dash and is no option ends mybld with an error, wherever it stands. -/
theorem C193_unknown (is : List MbItem) (h : ∀ i ∈ is, i.Plain) {w : Str} (rest : List Str) (hd : w.head? = some '-') (h1 : ∀ f l, w ≠ spellFlag f l) (h2 : ∀ v l, w ≠ spellVal v l)
    (h3 : w ≠ "--commit".toList ∧ w ≠ "-n".toList ∧ w ≠ "--new".toList ∧ w ≠ "-h".toList ∧ w ≠ "--help".toList) :
    mbParse {} (is.flatMap MbItem.args ++ w :: rest) = .stop 1 := by
  rw [mbParse_items is {} _ h]
  have e1 : mbFlag w = none := by
    unfold mbFlag
    rw [if_neg (by rintro (e | e); exacts [h1 .pause false e, h1 .pause true e]), if_neg (by rintro (e | e); exacts [h1 .verbose false e, h1 .verbose true e]),
      if_neg (by rintro (e | e); exacts [h1 .init false e, h1 .init true e]), if_neg (by rintro (e | e); exacts [h1 .ask false e, h1 .ask true e])]
  have e2 : mbVal w = none := by
    unfold mbVal
    rw [if_neg (by rintro (e | e); exacts [h2 .cleanup false e, h2 .cleanup true e]), if_neg (by rintro (e | e); exacts [h2 .check false e, h2 .check true e]),
      if_neg (by rintro (e | e); exacts [h2 .increment false e, h2 .increment true e]), if_neg (by rintro (e | e); exacts [h2 .diff false e, h2 .diff true e]),
      if_neg (by rintro (e | e); exacts [h2 .sync false e, h2 .sync true e])]
  rw [mbParse, if_neg (by intro e; rw [e] at hd; cases hd), e1]
  simp only [e2]
  rw [if_neg h3.1, if_neg (by rintro (e | e); exacts [h3.2.1 e, h3.2.2.1 e]), if_neg (by rintro (e | e); exacts [h3.2.2.2.1 e, h3.2.2.2.2 e]), if_pos hd]

/-- An option that wants a word, as the last one, is an error. -/
theorem C193_no_word (is : List MbItem) (h : ∀ i ∈ is, i.Plain) (v : MbVal) (l : Bool) : mbParse {} (is.flatMap MbItem.args ++ [spellVal v l]) = .stop 1 := by
  rw [mbParse_items is {} _ h]
  obtain ⟨h1, h2, h3⟩ := mbVal_spell v l
  rw [mbParse, if_neg h3, h2]
  simp only [h1]

def c193 : List MbItem := [.flag .verbose false, .val .increment true "nano".toList, .word "8.0".toList]

example : (∀ i ∈ c193, i.Plain) ∧ c193.flatMap MbItem.args = ["-v".toList, "--increment".toList, "nano".toList, "8.0".toList] := by
  refine ⟨?_, by decide⟩
  intro i hi
  simp only [c193, List.mem_cons, List.not_mem_nil, or_false] at hi
  rcases hi with rfl | rfl | rfl
  · trivial
  · exact ⟨by decide, by decide⟩
  · exact ⟨by decide, by decide, by decide⟩

/-- What stands behind an empty word is not looked at. -/
theorem C193_empty_counterexample : mbParse {} ["nano".toList, [], "--pausse".toList, "-I".toList] = .go { params := ["nano".toList] } := by decide +kernel

/-- An option that wants a word takes the next option for it. -/
theorem C193_swallowed_counterexample : mbParse {} ["-i".toList, "-v".toList, "nano".toList] = .go { increment := true, params := ["-v".toList, "nano".toList] } := by decide +kernel

/-! ## C194: outdated -/

/-- A name that is a collection is accepted. -/
theorem outKnown_of_mem {w : Str} (h : w ∈ outColls) : outKnown w = true := by
  have : ∀ w ∈ outColls, outKnown w = true := by decide +kernel
  exact this w h

theorem coll_no_dash : ∀ w ∈ outColls, w.head? ≠ some '-' := by decide

theorem outParse_word {w : Str} (hd : w.head? ≠ some '-') (o : OutOpts) (ws : List Str) :
    outParse o (w :: ws) = if outKnown w then outParse { o with params := o.params ++ [w] } ws else .inl 1 := by
  have hn : ∀ {x y : Str}, x.head? = some '-' → y.head? = some '-' → ¬ (w = x ∨ w = y) := by
    rintro x y hx hy (rfl | rfl)
    · exact hd hx
    · exact hd hy
  rw [outParse, if_neg (hn (by decide) (by decide)), if_neg (hn (by decide) (by decide)), if_neg (hn (by decide) (by decide)), if_neg (hn (by decide) (by decide)),
    if_neg (by rintro rfl; exact hd (by decide)), if_neg hd]

/-- The words are accepted exactly when each is a part of the text with all names. Missing for the whole property: the words should be names. -/
theorem C194_accepted_partial : ∀ (ws : List Str) (o : OutOpts), (∀ w ∈ ws, w.head? ≠ some '-') →
    ((∃ r, outParse o ws = .inr r) ↔ ∀ w ∈ ws, w <:+: "base cli cli-extra gui gui-extra".toList) ∧
      ∀ r, outParse o ws = .inr r → r = { o with params := o.params ++ ws } := by
  have e : echoWords outColls = "base cli cli-extra gui gui-extra".toList := by decide
  intro ws
  induction ws with
  | nil =>
    intro o _
    refine ⟨⟨fun _ w hw => by simp at hw, fun _ => ⟨o, rfl⟩⟩, ?_⟩
    intro r hr
    simp only [outParse, Sum.inr.injEq] at hr
    rw [← hr, List.append_nil]
  | cons w ws ih =>
    intro o h
    rw [outParse_word (h w List.mem_cons_self), List.forall_mem_cons]
    have hk : outKnown w = true ↔ w <:+: "base cli cli-extra gui gui-extra".toList := by rw [← e]; exact isSome_infix
    by_cases hw : outKnown w = true
    · rw [if_pos hw]
      obtain ⟨i1, i2⟩ := ih { o with params := o.params ++ [w] } (fun x hx => h x (List.mem_cons_of_mem _ hx))
      refine ⟨?_, ?_⟩
      · rw [i1]
        exact ⟨fun hh => ⟨hk.mp hw, hh⟩, fun hh => hh.2⟩
      · intro r hr
        rw [i2 r hr]
        simp
    · rw [if_neg hw]
      refine ⟨⟨?_, ?_⟩, ?_⟩
      · rintro ⟨r, hr⟩; cases hr
      · rintro ⟨hh, -⟩; exact absurd (hk.mpr hh) hw
      · intro r hr; cases hr

/-- Names of collections are accepted, and these are gone through, in order. -/
theorem C194_names {ws : List Str} (srt : List Str → List Str) (h : ∀ w ∈ ws, w ∈ outColls) (hne : ws ≠ []) :
    outParse {} ws = .inr { params := ws } ∧ outLoop srt { params := ws } = srt ws := by
  have hd : ∀ w ∈ ws, w.head? ≠ some '-' := fun w hw => coll_no_dash w (h w hw)
  obtain ⟨a, b⟩ := C194_accepted_partial ws {} hd
  have e : echoWords outColls = "base cli cli-extra gui gui-extra".toList := by decide
  obtain ⟨r, hr⟩ := a.mpr (fun w hw => by
    have := outKnown_of_mem (h w hw)
    rw [← e]; exact isSome_infix.mp this)
  refine ⟨by rw [hr, b r hr]; simp, ?_⟩
  have hp : ∀ w ∈ outColls, w ≠ [] ∧ ' ' ∉ w := by decide
  have hf : ws.flatMap shWords = ws := by
    clear a b hr hd hne
    induction ws with
    | nil => rfl
    | cons w ws ih =>
      rw [List.flatMap_cons, shWords_plain (hp w (h w List.mem_cons_self)).1 (hp w (h w List.mem_cons_self)).2, ih (fun x hx => h x (List.mem_cons_of_mem _ hx))]
      rfl
  unfold outLoop
  rw [if_neg, hf]
  intro hx
  cases ws with
  | nil => exact hne rfl
  | cons w ws =>
    simp only [List.flatten_cons, List.append_eq_nil_iff] at hx
    exact (hp w (h w List.mem_cons_self)).1 hx.1

/-- Without a name all collections are gone through. -/
theorem C194_all (srt : List Str → List Str) : outParse {} [] = .inr {} ∧ outLoop srt {} = ["base".toList, "cli".toList, "cli-extra".toList, "gui".toList, "gui-extra".toList] := by
  exact ⟨rfl, rfl⟩

/-- Whatever is accepted: exactly the options given are set, and the words that are no options are the collections, in their order. -/
theorem C194_options : ∀ (ws : List Str) (o r : OutOpts), outParse o ws = .inr r →
    (r.update = true ↔ o.update = true ∨ "-u".toList ∈ ws ∨ "--update".toList ∈ ws) ∧
    (r.summary = true ↔ o.summary = true ∨ "-s".toList ∈ ws ∨ "--summary".toList ∈ ws) ∧
    (r.notfound = true ↔ o.notfound = true ∨ "-nf".toList ∈ ws ∨ "--notfound".toList ∈ ws) ∧
    (r.debug = true ↔ o.debug = true ∨ "--debug".toList ∈ ws) ∧
    r.params = o.params ++ ws.filter (fun w => w.head? ≠ some '-') := by
  intro ws
  induction ws with
  | nil => intro o r h; simp only [outParse, Sum.inr.injEq] at h; subst h; simp
  | cons w ws ih =>
    intro o r h
    rw [outParse] at h
    split_ifs at h with c1 c2 c3 c4 c5 c6 c7
    · obtain ⟨a, b, c, d, e⟩ := ih _ _ h
      refine ⟨?_, ?_, ?_, ?_, ?_⟩
      · rw [a]; rcases c1 with rfl | rfl <;> simp
      · rw [b]; rcases c1 with rfl | rfl <;> simp
      · rw [c]; rcases c1 with rfl | rfl <;> simp
      · rw [d]; rcases c1 with rfl | rfl <;> simp
      · rw [e]; rcases c1 with rfl | rfl <;> simp
    · obtain ⟨a, b, c, d, e⟩ := ih _ _ h
      refine ⟨?_, ?_, ?_, ?_, ?_⟩
      · rw [a]; rcases c2 with rfl | rfl <;> simp
      · rw [b]; rcases c2 with rfl | rfl <;> simp
      · rw [c]; rcases c2 with rfl | rfl <;> simp
      · rw [d]; rcases c2 with rfl | rfl <;> simp
      · rw [e]; rcases c2 with rfl | rfl <;> simp
    · obtain ⟨a, b, c, d, e⟩ := ih _ _ h
      refine ⟨?_, ?_, ?_, ?_, ?_⟩
      · rw [a]; rcases c3 with rfl | rfl <;> simp
      · rw [b]; rcases c3 with rfl | rfl <;> simp
      · rw [c]; rcases c3 with rfl | rfl <;> simp
      · rw [d]; rcases c3 with rfl | rfl <;> simp
      · rw [e]; rcases c3 with rfl | rfl <;> simp
    · obtain ⟨a, b, c, d, e⟩ := ih _ _ h
      subst c5
      refine ⟨?_, ?_, ?_, ?_, ?_⟩
      · rw [a]; simp
      · rw [b]; simp
      · rw [c]; simp
      · rw [d]; simp
      · rw [e]; simp
    · obtain ⟨a, b, c, d, e⟩ := ih _ _ h
      have hne : ∀ x : Str, x.head? = some '-' → x ≠ w := fun x hx e => c6 (e ▸ hx)
      refine ⟨?_, ?_, ?_, ?_, ?_⟩
      · rw [a, List.mem_cons, List.mem_cons, or_iff_right (hne _ (by decide)), or_iff_right (hne _ (by decide))]
      · rw [b, List.mem_cons, List.mem_cons, or_iff_right (hne _ (by decide)), or_iff_right (hne _ (by decide))]
      · rw [c, List.mem_cons, List.mem_cons, or_iff_right (hne _ (by decide)), or_iff_right (hne _ (by decide))]
      · rw [d, List.mem_cons, or_iff_right (hne _ (by decide))]
      · rw [e, List.filter_cons_of_pos (by simpa using c6)]; simp

/-- Something that begins with a dash and is no option is an error. -/
theorem C194_unknown (o : OutOpts) (w : Str) (ws : List Str) (hd : w.head? = some '-')
    (h : w ∉ ["-u", "--update", "-s", "--summary", "-nf", "--notfound", "-h", "--help", "--debug"].map (·.toList)) : outParse o (w :: ws) = .inl 1 := by
  simp only [List.map_cons, List.map_nil, List.mem_cons, List.not_mem_nil, or_false, not_or] at h
  obtain ⟨a, b, c, d, e, f, g, i, j⟩ := h
  rw [outParse, if_neg (not_or.mpr ⟨a, b⟩), if_neg (not_or.mpr ⟨c, d⟩), if_neg (not_or.mpr ⟨e, f⟩), if_neg (not_or.mpr ⟨g, i⟩), if_neg j, if_pos hd]

/-- `outdated xtra` is not refused, and no collection is looked at. -/
theorem C194_part_counterexample : outParse {} ["xtra".toList] = .inr { params := ["xtra".toList] } ∧ outLoop id { params := ["xtra".toList] } = ["xtra".toList] ∧ "xtra".toList ∉ outColls := by
  decide +kernel

example : outParse {} ["-s".toList, "gui".toList, "base".toList] = .inr { summary := true, params := ["gui".toList, "base".toList] } := by decide +kernel

end Cards.Props
