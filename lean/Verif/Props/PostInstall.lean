import Verif.Model.RuleFile
import Verif.Props.TransDb
/-!
# C43: post-install triggers
-/
namespace Cards.Props
open Cards Cards.Spec

/-- `r` is the last rule of pkgadd.conf, other than INSTALL and UPGRADE rules, that matches `f`. -/
def LastTrigger (rx : Matcher) (rules : List Rule) (f : Str) (r : Rule) : Prop :=
  ∃ before after, rules = before ++ r :: after ∧ r.event ≠ .INSTALL ∧ r.event ≠ .UPGRADE ∧ rx r.pattern f = true ∧
    ∀ r' ∈ after, r'.event ≠ .INSTALL → r'.event ≠ .UPGRADE → rx r'.pattern f = false

/-- What is to be run after `f` was installed according to the manual: the trigger of the last rule that matches `f`, if its action is YES. -/
def Triggers (rx : Matcher) (rules : List Rule) (f : Str) (ev : Event) : Prop :=
  ∃ r, LastTrigger rx rules f r ∧ r.event = ev ∧ r.action = true

theorem postScan_none (rx : Matcher) (f : Str) (l : List Rule) (ev : Event) (b : Bool) (h : ∀ r ∈ l, rx r.pattern f = false) :
    postScan rx f l ev b = ((l.getLast?.map (·.event)).getD ev, b) := by
  induction l generalizing ev with
  | nil => rfl
  | cons r l ih =>
    simp only [postScan, h r (by simp)]
    simp only [Bool.false_eq_true, if_false]
    rw [ih _ (fun x hx => h x (by simp [hx]))]
    cases l with
    | nil => rfl
    | cons a l => simp [List.getLast?_cons_cons]; rw [List.getLast?_eq_some_getLast (by simp)]; rfl

theorem postScan_some (rx : Matcher) (f : Str) (a : List Rule) (r : Rule) (b : List Rule) (ev : Event) (i : Bool)
    (h : ∀ r ∈ a, rx r.pattern f = false) (hr : rx r.pattern f = true) :
    postScan rx f (a ++ r :: b) ev i = (r.event, r.action) := by
  induction a generalizing ev with
  | nil => simp [postScan, hr]
  | cons x a ih =>
    simp only [List.cons_append, postScan, h x (by simp)]
    simp only [Bool.false_eq_true, if_false]
    exact ih _ (fun y hy => h y (by simp [hy]))

theorem lastTrigger_split {rx : Matcher} {rules : List Rule} {f : Str} {r : Rule} (h : LastTrigger rx rules f r) :
    ∃ a b, (postRulesOf rules).reverse = a ++ r :: b ∧ (∀ x ∈ a, rx x.pattern f = false) ∧ rx r.pattern f = true := by
  obtain ⟨before, after, rfl, h1, h2, h3, h4⟩ := h
  refine ⟨(postRulesOf after).reverse, (postRulesOf before).reverse, ?_, ?_, h3⟩
  · simp [postRulesOf, List.filter_append, List.filter_cons, h1, h2]
  · intro x hx
    simp only [postRulesOf, List.mem_reverse, List.mem_filter, Bool.and_eq_true, decide_eq_true_eq] at hx
    exact h4 x hx.1 hx.2.1 hx.2.2

/-- For a file that some trigger rule matches the entry is right: it is the trigger of the last matching rule when its action is YES, nothing when
it is NO (with an empty file name for LDCONF). -/
theorem C43_matched_partial (rx : Matcher) (rules : List Rule) (f : Str) (r : Rule) (h : LastTrigger rx rules f r) :
    postEntry rx rules f = if r.action then some (if r.event = .LDCONF then [] else f, r.event) else none := by
  obtain ⟨a, b, h1, h2, h3⟩ := lastTrigger_split h
  unfold postEntry
  rw [h1, postScan_some rx f a r b _ _ h2 h3]

/-- The trigger list holds the entry of every file. -/
theorem C43_list (rx : Matcher) (rules : List Rule) (files : List Str) (e : Str × Event) :
    e ∈ postInstallList rx rules files ↔ ∃ f ∈ files, postEntry rx rules f = some e := by
  simp [postInstallList, List.mem_eraseDups, List.mem_filterMap]

/-- What the code does with a file no trigger rule matches: when it is installed, it starts the trigger of the first trigger rule in
pkgadd.conf (ldconfig when there is none). -/
theorem C43_unmatched_partial (rx : Matcher) (rules : List Rule) (f : Str)
    (h : ∀ r ∈ rules, r.event ≠ .INSTALL → r.event ≠ .UPGRADE → rx r.pattern f = false) :
    postEntry rx rules f =
      let ev := (((rules.filter (fun r => r.event ≠ .INSTALL ∧ r.event ≠ .UPGRADE)).head?).map (·.event)).getD .LDCONF
      if installFile rx rules f then some (if ev = .LDCONF then [] else f, ev) else none := by
  unfold postEntry
  rw [postScan_none]
  · have hf : postRulesOf rules = rules.filter (fun r => r.event ≠ .INSTALL ∧ r.event ≠ .UPGRADE) := by
      unfold postRulesOf; congr 1; funext r; simp
    rw [List.getLast?_reverse, hf]
  · intro r hr
    simp only [postRulesOf, List.mem_reverse, List.mem_filter, Bool.and_eq_true, decide_eq_true_eq] at hr
    exact h r hr.1 hr.2.1 hr.2.2

/-- So the property fails: with the single rule `MIME_DB ^usr/share/mime/ YES`, installing `etc/motd` runs update-mime-database on it. -/
theorem C43_spurious_counterexample :
    ∃ (rx : Matcher) (rules : List Rule) (f : Str), (∀ ev, ¬ Triggers rx rules f ev) ∧ (f, Event.MIME_DB) ∈ postInstallList rx rules [f] := by
  refine ⟨fun p f => p.isPrefixOf f, [⟨.MIME_DB, "usr/share/mime/".toList, true⟩], "etc/motd".toList, ?_, ?_⟩
  · rintro ev ⟨r, ⟨b, a, h, _, _, h3, _⟩, _⟩
    have : r ∈ [Rule.mk .MIME_DB "usr/share/mime/".toList true] := by rw [h]; simp
    rw [List.mem_singleton] at this
    subst this
    revert h3; decide
  · rw [C43_list]; exact ⟨_, List.mem_singleton.mpr rfl, by decide⟩

/-- And a file a rule excludes from installation triggers all the same when a trigger rule matches it. -/
theorem C43_excluded_counterexample :
    ∃ (rx : Matcher) (rules : List Rule) (f : Str), Excluded rx rules f ∧ (f, Event.MIME_DB) ∈ postInstallList rx rules [f] := by
  refine ⟨fun p f => p.isPrefixOf f, [⟨.INSTALL, "usr/".toList, false⟩, ⟨.MIME_DB, "usr/share/mime/".toList, true⟩], "usr/share/mime/x".toList, ?_, ?_⟩
  · exact ⟨_, ⟨[], [_], rfl, rfl, by decide, by decide⟩, rfl⟩
  · rw [C43_list]; exact ⟨_, List.mem_singleton.mpr rfl, by decide⟩

theorem eraseDups_nodup {α} [BEq α] [LawfulBEq α] : ∀ (n : Nat) (l : List α), l.length ≤ n → l.eraseDups.Nodup
  | 0, l, h => by cases l with | nil => exact List.Pairwise.nil | cons _ _ => simp at h
  | _ + 1, [], _ => List.Pairwise.nil
  | n + 1, x :: xs, h => by
    rw [List.eraseDups_cons]
    refine List.nodup_cons.mpr ⟨?_, eraseDups_nodup n _ (Nat.le_trans (List.length_filter_le _ _) (by simpa using h))⟩
    intro hm
    rw [List.mem_eraseDups, List.mem_filter] at hm
    simp at hm

/-- No entry is twice in the list. -/
theorem C43_nodup (rx : Matcher) (rules : List Rule) (files : List Str) : (postInstallList rx rules files).Nodup :=
  eraseDups_nodup (files.filterMap (postEntry rx rules)).length _ (Nat.le_refl _)

example : LastTrigger (fun p f => p.isPrefixOf f) [⟨.INFO, "usr/".toList, true⟩, ⟨.MIME_DB, "usr/share/".toList, true⟩, ⟨.INSTALL, "usr/share/".toList, false⟩]
    "usr/share/x".toList ⟨.MIME_DB, "usr/share/".toList, true⟩ := ⟨[_], [_], rfl, by decide, by decide, by decide, by decide⟩

end Cards.Props
