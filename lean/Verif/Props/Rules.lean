import Verif.Model.RuleFile
import Verif.Props.Strings
import Verif.Props.TransDb
import Mathlib.Data.List.Forall2
/-!
# C30, C31: the rule file and the rules
-/
namespace Cards.Props
open Cards Cards.Spec

/-! ## C31 -/

/-- INSTALL: a file of the archive is installed unless the last INSTALL rule that matches it says NO; the others are exactly the files not installed. -/
theorem C31_install_decision (rx : Matcher) (files : List Str) (rules : List Rule) (f : Str) :
    (f ∈ (applyInstallRules rx files rules).1 ↔ f ∈ files ∧ ∀ r, LastRule rx rules .INSTALL f r → r.action = true) ∧
    (f ∈ (applyInstallRules rx files rules).2 ↔ f ∈ files ∧ ∃ r, LastRule rx rules .INSTALL f r ∧ r.action = false) := by
  refine ⟨?_, mem_applyInstallRules.2⟩
  rw [mem_applyInstallRules.1]
  unfold Excluded
  simp

/-- UPGRADE: a file is kept exactly when the last UPGRADE rule that matches it says NO. -/
theorem C31_upgrade_decision (rx : Matcher) (files : List Str) (rules : List Rule) (f : Str) :
    f ∈ keepFileList rx files rules ↔ f ∈ files ∧ ∃ r, LastRule rx rules .UPGRADE f r ∧ r.action = false :=
  mem_keepFileList

/-- The governing rule is unique, and exists as soon as some rule of the event matches. -/
theorem C31_governing_rule (rx : Matcher) (rules : List Rule) (ev : Event) (f : Str) :
    (∀ r r', LastRule rx rules ev f r → LastRule rx rules ev f r' → r = r') ∧
    ((∃ r ∈ rules, r.event = ev ∧ rx r.pattern f = true) ↔ ∃ r, LastRule rx rules ev f r) := by
  refine ⟨fun r r' h h' => lastApplying_unique h h', ?_, ?_⟩
  · rintro ⟨r, hr, he, hm⟩
    cases h : lastApplying rx (rulesOf rules ev) f with
    | some r' => exact ⟨r', (lastApplying_some ..).mp h⟩
    | none =>
      exfalso
      unfold lastApplying rulesOf at h
      rw [List.find?_eq_none] at h
      have := h r (by simp [hr, he])
      simp [hm] at this
  · rintro ⟨r, b, a, rfl, he, hm, _⟩
    exact ⟨r, by simp, he, hm⟩

/-- Rules of other events never change a decision: only the rules of the event, in their order, count. -/
theorem C31_other_events_irrelevant (rx : Matcher) (rules rules' : List Rule) (files : List Str)
    (hi : rules.filter (fun r => r.event = .INSTALL) = rules'.filter (fun r => r.event = .INSTALL))
    (hu : rules.filter (fun r => r.event = .UPGRADE) = rules'.filter (fun r => r.event = .UPGRADE)) :
    applyInstallRules rx files rules = applyInstallRules rx files rules' ∧
    keepFileList rx files rules = keepFileList rx files rules' := by
  unfold applyInstallRules installFile keepFileList rulesOf
  rw [hi, hu]
  exact ⟨rfl, rfl⟩

example : LastRule xEnv.rx [⟨.INSTALL, "usr".toList, false⟩, ⟨.INSTALL, "usr/bin".toList, true⟩, ⟨.UPGRADE, "usr".toList, false⟩] .INSTALL
    "usr/bin/x".toList ⟨.INSTALL, "usr/bin".toList, true⟩ :=
  ⟨[_], [_], rfl, rfl, by decide, by decide⟩
example : (applyInstallRules xEnv.rx ["usr/bin/x".toList, "usr/doc".toList]
    [⟨.INSTALL, "usr".toList, false⟩, ⟨.INSTALL, "usr/bin".toList, true⟩]) = (["usr/bin/x".toList], ["usr/doc".toList]) := by decide

/-! ## C30 -/

/-- The lines of a text: it is the lines joined by newlines, no line has one inside. -/
def IsLines (content : Str) (ls : List Str) : Prop :=
  (∀ l ∈ ls, '\n' ∉ l) ∧ ls ≠ [] ∧ some content = ls.foldr (fun l acc => if acc = none then some l else some (l ++ '\n' :: acc.getD [])) none

theorem lines_ne_nil (s : Str) : lines s ≠ [] := by
  cases s with
  | nil => simp [lines]
  | cons c cs => simp only [lines]; split; · simp
                 split <;> simp

theorem lines_isLines (s : Str) : IsLines s (lines s) := by
  induction s with
  | nil => exact ⟨by simp [lines], by simp [lines], by simp [lines]⟩
  | cons c cs ih =>
    obtain ⟨h1, h2, h3⟩ := ih
    have hnone : ∀ (ls : List Str), ls ≠ [] →
        ∃ x, ls.foldr (fun l acc => if acc = none then some l else some (l ++ '\n' :: acc.getD [])) none = some x := by
      intro ls h
      cases ls with
      | nil => exact absurd rfl h
      | cons a b => simp only [List.foldr_cons]; split <;> exact ⟨_, rfl⟩
    simp only [lines]
    split
    · rename_i hc
      subst hc
      refine ⟨by simpa using h1, by simp, ?_⟩
      obtain ⟨x, hx⟩ := hnone _ h2
      simp only [List.foldr_cons]
      rw [hx] at h3 ⊢
      simp only [Option.some.injEq] at h3
      simp [h3]
    · rename_i hc
      split
      · rename_i he; exact absurd he h2
      · rename_i a b he
        rw [he] at h1 h2 h3
        refine ⟨?_, by simp, ?_⟩
        · intro l hl
          rcases List.mem_cons.mp hl with rfl | hl
          · intro hm
            rcases List.mem_cons.mp hm with e | e
            · exact hc e.symm
            · exact h1 a (by simp) e
          · exact h1 l (by simp [hl])
        · simp only [List.foldr_cons] at h3 ⊢
          split at h3
          · rename_i hn; simp only [Option.some.injEq] at h3; simp [hn, h3]
          · rename_i hn; simp only [Option.some.injEq] at h3; simp [hn, h3]

/-- The event names of the manual. -/
def EventName (s : Str) (e : Event) : Prop :=
  (String.ofList s, e) ∈ [("UPGRADE", Event.UPGRADE), ("INSTALL", .INSTALL), ("INFO", .INFO), ("LDCONF", .LDCONF), ("FONTS", .FONTS),
    ("ICONS", .ICONS), ("SCHEMAS", .SCHEMAS), ("DESKTOP_DB", .DESKTOP_DB), ("MIME_DB", .MIME_DB), ("QUERY_PIXBUF", .QUERY_PIXBUF),
    ("GIO_QUERY", .GIO_QUERY), ("QUERY_IMOD3", .QUERY_IMOD3), ("QUERY_IMOD2", .QUERY_IMOD2)]

theorem eventOf_iff (s : Str) (e : Event) : eventOf s = some e ↔ EventName s e := by
  have hs : ∀ t : String, String.ofList s = t ↔ s = t.toList := by
    intro t; constructor
    · rintro rfl; simp
    · rintro rfl; simp
  unfold EventName eventOf
  simp only [List.mem_cons, List.not_mem_nil, or_false, Prod.mk.injEq, hs]
  constructor
  · intro h
    have key : ∀ {c : Prop} [Decidable c] {x : Event} {y : Option Event} {P : Prop},
        (if c then some x else y) = some e → (c → e = x → P) → (y = some e → P) → P := by
      intro c _ x y P h1 h2 h3
      by_cases hc : c
      · rw [if_pos hc] at h1; exact h2 hc (Option.some.inj h1).symm
      · rw [if_neg hc] at h1; exact h3 h1
    refine key h (fun a b => .inl ⟨a, b⟩) (fun h => .inr ?_)
    refine key h (fun a b => .inl ⟨a, b⟩) (fun h => .inr ?_)
    refine key h (fun a b => .inl ⟨a, b⟩) (fun h => .inr ?_)
    refine key h (fun a b => .inl ⟨a, b⟩) (fun h => .inr ?_)
    refine key h (fun a b => .inl ⟨a, b⟩) (fun h => .inr ?_)
    refine key h (fun a b => .inl ⟨a, b⟩) (fun h => .inr ?_)
    refine key h (fun a b => .inl ⟨a, b⟩) (fun h => .inr ?_)
    refine key h (fun a b => .inl ⟨a, b⟩) (fun h => .inr ?_)
    refine key h (fun a b => .inl ⟨a, b⟩) (fun h => .inr ?_)
    refine key h (fun a b => .inl ⟨a, b⟩) (fun h => .inr ?_)
    refine key h (fun a b => .inl ⟨a, b⟩) (fun h => .inr ?_)
    refine key h (fun a b => .inl ⟨a, b⟩) (fun h => .inr ?_)
    exact key h (fun a b => ⟨a, b⟩) (fun h => by cases h)
  · intro h
    rcases h with h | h | h | h | h | h | h | h | h | h | h | h | h <;> obtain ⟨rfl, rfl⟩ := h <;> decide

/-- A well-formed rule line `EVENT PATTERN YES|NO`: three words separated (and possibly surrounded) by white space. -/
def IsRuleLine (line : Str) (r : Rule) : Prop :=
  line.length < 1024 ∧ line ≠ [] ∧ line.head? ≠ some '#' ∧
  ∃ ev act, Pieces isSpaceC line [ev, r.pattern, act] ∧ EventName ev r.event ∧
    ((act = "YES".toList ∧ r.action = true) ∨ (act = "NO".toList ∧ r.action = false))

/-- What a line contributes: nothing for an empty line or a comment, one rule for a rule line. -/
inductive LineMeans : Str → List Rule → Prop
  | empty : LineMeans [] []
  | comment (t : Str) : LineMeans ('#' :: t) []
  | rule (line : Str) (r : Rule) : IsRuleLine line r → LineMeans line [r]

theorem scanWords_three {line : Str} (hn : '\x00' ∉ line) {a b c : Str} :
    scanWords line = [a, b, c] ↔ Pieces isSpaceC line [a, b, c] := by
  have ht : line.takeWhile (fun c => decide (c ≠ '\x00')) = line := by
    have h2 := List.takeWhile_append_dropWhile (p := fun c => decide (c ≠ '\x00')) (l := line)
    rw [dropWhile_eq_nil_iff'.mpr (by intro x hx; simp; rintro rfl; exact hn hx)] at h2
    simpa using h2
  unfold scanWords
  rw [ht]
  obtain ⟨ps, h1, h2⟩ := splitLoop_pieces isSpaceC line [] [] (by simp)
  simp only [List.nil_append] at h1 h2
  rw [h1]
  constructor
  · intro h
    have : ps = [a, b, c] := by
      match ps, h with
      | [_, _, _], h => simpa using h
      | _ :: _ :: _ :: _ :: _, h => simp at h
    rw [← this]; exact h2
  · intro h
    have := pieces_splitLoop h []
    rw [h1] at this
    simp only [List.nil_append] at this
    rw [this]; rfl

theorem readRuleLine_ok (line : Str) (hn : '\x00' ∉ line) (rs : List Rule) :
    readRuleLine line = .ok rs ↔ LineMeans line rs := by
  unfold readRuleLine
  constructor
  · intro h
    split at h
    · rename_i hc
      simp at h; subst h
      rcases hc with rfl | hc
      · exact .empty
      · cases line with
        | nil => simp at hc
        | cons c t => simp at hc; subst hc; exact .comment t
    · rename_i hc
      simp only [not_or] at hc
      split at h
      · simp at h
      · rename_i hl
        split at h
        · rename_i ev pat act hw
          split at h
          · simp at h
          · rename_i e he
            have hp := (scanWords_three hn).mp hw
            have hev := (eventOf_iff _ _).mp he
            split at h
            · rename_i ha
              simp at h; subst h
              exact .rule _ _ ⟨by omega, hc.1, hc.2, ev, act, hp, hev, Or.inl ⟨ha, rfl⟩⟩
            · split at h
              · rename_i ha
                simp at h; subst h
                exact .rule _ _ ⟨by omega, hc.1, hc.2, ev, act, hp, hev, Or.inr ⟨ha, rfl⟩⟩
              · simp at h
        · simp at h
  · intro h
    cases h with
    | empty => simp
    | comment t => simp
    | rule line r h =>
      obtain ⟨h1, h2, h3, ev, act, hp, hev, ha⟩ := h
      rw [if_neg (by simp [h2, h3]), if_neg (by omega), (scanWords_three hn).mpr hp]
      simp only [(eventOf_iff _ _).mpr hev]
      rcases ha with ⟨rfl, ha⟩ | ⟨rfl, ha⟩
      · simp; cases r; simp_all
      · rw [if_neg (by decide)]; simp; cases r; simp_all

theorem foldlM_ok (ls : List Str) (acc rs : List Rule) :
    ls.foldlM (fun acc l => do let r ← readRuleLine l; pure (acc ++ r)) acc = Except.ok (ε := RuleErr) rs ↔
      ∃ rss : List (List Rule), rs = acc ++ rss.flatten ∧ List.Forall₂ (fun l r => readRuleLine l = .ok r) ls rss := by
  induction ls generalizing acc with
  | nil =>
    simp only [List.foldlM_nil]
    constructor
    · intro h
      have : acc = rs := by simpa [pure, Except.pure] using h
      exact ⟨[], by simp [this], .nil⟩
    · rintro ⟨rss, h, hf⟩
      cases hf
      simp at h; simp [pure, Except.pure, h]
  | cons l ls ih =>
    simp only [List.foldlM_cons]
    cases hl : readRuleLine l with
    | error e =>
      constructor
      · intro h; simp [bind, Except.bind] at h
      · rintro ⟨rss, _, hf⟩
        cases hf with
        | cons h _ => rw [hl] at h; simp at h
    | ok r =>
      have : (do let r' ← (Except.ok r : Except RuleErr (List Rule)); pure (acc ++ r') : Except RuleErr (List Rule)) = .ok (acc ++ r) := rfl
      rw [this]
      show ls.foldlM _ (acc ++ r) = _ ↔ _
      rw [ih]
      constructor
      · rintro ⟨rss, h, hf⟩
        exact ⟨r :: rss, by simp [h], .cons hl hf⟩
      · rintro ⟨rss, h, hf⟩
        cases hf with
        | cons h' hf' =>
          rw [hl] at h'; simp at h'; subst h'
          exact ⟨_, by simpa using h, hf'⟩

/-- Reading the rule file succeeds with the rules `rs` exactly when every line is empty, a comment or a rule line, and `rs` are the rules of the
rule lines in file order. (The file has no NUL characters.) -/
theorem C30_rules_exact (content : Str) (hn : '\x00' ∉ content) (rs : List Rule) :
    readRules (some content) = .ok rs ↔
      ∃ rss, rs = rss.flatten ∧ List.Forall₂ LineMeans (lines content) rss := by
  unfold readRules
  rw [foldlM_ok]
  have hlines : ∀ l ∈ lines content, '\x00' ∉ l := by
    have : ∀ s : Str, '\x00' ∉ s → ∀ l ∈ lines s, '\x00' ∉ l := by
      intro s
      induction s with
      | nil => simp [lines]
      | cons c cs ih =>
        intro h l hl
        simp at h
        simp only [lines] at hl
        split at hl
        · rcases List.mem_cons.mp hl with rfl | hl
          · simp
          · exact ih h.2 l hl
        · split at hl
          · simp at hl; subst hl; simpa using h.1
          · rename_i a b he
            rcases List.mem_cons.mp hl with rfl | hl
            · simp; exact ⟨h.1, ih h.2 a (by rw [he]; simp)⟩
            · exact ih h.2 l (by rw [he]; simp [hl])
    exact this content hn
  have hconv : ∀ (ls : List Str) (rss : List (List Rule)), (∀ l ∈ ls, '\x00' ∉ l) →
      (List.Forall₂ (fun l r => readRuleLine l = .ok r) ls rss ↔ List.Forall₂ LineMeans ls rss) := by
    intro ls
    induction ls with
    | nil => intro rss _; constructor <;> (intro h; cases h; exact .nil)
    | cons l ls ih =>
      intro rss h
      constructor
      · intro hf; cases hf with
        | cons h1 h2 => exact .cons ((readRuleLine_ok l (h l (by simp)) _).mp h1) ((ih _ (fun x hx => h x (by simp [hx]))).mp h2)
      · intro hf; cases hf with
        | cons h1 h2 => exact .cons ((readRuleLine_ok l (h l (by simp)) _).mpr h1) ((ih _ (fun x hx => h x (by simp [hx]))).mpr h2)
  constructor
  · rintro ⟨rss, h, hf⟩; exact ⟨rss, by simpa using h, (hconv _ _ hlines).mp hf⟩
  · rintro ⟨rss, h, hf⟩; exact ⟨rss, by simpa using h, (hconv _ _ hlines).mpr hf⟩

/-- `lines` really are the lines of the file. -/
theorem C30_lines (content : Str) : IsLines content (lines content) := lines_isLines content

/-- A rule file with any other line makes pkgadd fail before the file tree or the database is touched. -/
theorem C30_bad_rules_no_effect (env : Env) (content : Str) (opts : Opts) (a : Archive) (s : Sys) (hn : '\x00' ∉ content)
    (hbad : ∃ l ∈ lines content, ∀ rs, ¬ LineMeans l rs) :
    (∃ e, (pkgaddConf env (some content) opts a s).2 = some e) ∧ (pkgaddConf env (some content) opts a s).1 = s := by
  unfold pkgaddConf
  cases h : readRules (some content) with
  | error e => exact ⟨⟨_, rfl⟩, rfl⟩
  | ok rs =>
    exfalso
    obtain ⟨rss, hrs, hf⟩ := (C30_rules_exact content hn rs).mp h
    clear hrs
    obtain ⟨l, hl, hb⟩ := hbad
    generalize lines content = ls at hf hl
    induction hf with
    | nil => simp at hl
    | cons h1 h2 ih =>
      rcases List.mem_cons.mp hl with rfl | hl
      · exact hb _ h1
      · exact ih hl

example : readRules (some "# c\nUPGRADE\t^etc/.*$  NO\n\nINSTALL ^usr/share/doc/ NO\n".toList) =
    .ok [⟨.UPGRADE, "^etc/.*$".toList, false⟩, ⟨.INSTALL, "^usr/share/doc/".toList, false⟩] := by decide
example : readRules (some "UPGRADE ^etc/ MAYBE".toList) = .error .unknownAction := by decide
example : readRules (some "UPGRADE ^etc/ NO x".toList) = .error .wrongArgs := by decide
-- a line of blanks only is not accepted as empty
example : readRules (some "  \n".toList) = .error .wrongArgs := by decide

end Cards.Props
