import Verif.Model.Trigger
import Verif.Props.PostInstall
import Verif.Props.TransFs
import Verif.Props.Archive
import Verif.Props.Repo
/-!
# C80: the programs pkgadd starts at its end
-/
namespace Cards.Props
open Cards Cards.Spec

/-- What the rule file asks for: for the trigger `ev` on the file `f`, the file looked for, the program and its arguments. -/
inductive Command (root : Str) : Event → Str → Str → Run → Prop
  | ldconf (f : Str) : Command root .LDCONF f "etc/ld.so.conf".toList ⟨"usr/bin/ldconfig".toList, ["-r".toList, root]⟩
  | info (f : Str) : Command root .INFO f "usr/bin/install-info".toList ⟨"usr/bin/install-info".toList, ["--info-dir=usr/share/info".toList, f]⟩
  | icons (f : Str) : Command root .ICONS f "usr/bin/gtk-update-icon-cache".toList ⟨"usr/bin/gtk-update-icon-cache".toList, ["-f".toList, "-t".toList, f]⟩
  | fonts1 (f : Str) : Command root .FONTS f "usr/bin/mkfontscale".toList ⟨"usr/bin/mkfontscale".toList, [f]⟩
  | fonts2 (f : Str) : Command root .FONTS f "usr/bin/mkfontdir".toList ⟨"usr/bin/mkfontdir".toList, [f]⟩
  | fonts3 (f : Str) : Command root .FONTS f "usr/bin/fc-cache".toList ⟨"usr/bin/fc-cache".toList, [f]⟩
  | schemas (f : Str) : Command root .SCHEMAS f "usr/bin/glib-compile-schemas".toList ⟨"usr/bin/glib-compile-schemas".toList, [f]⟩
  | desktop (f : Str) : Command root .DESKTOP_DB f "usr/bin/update-desktop-database".toList ⟨"usr/bin/update-desktop-database".toList, ["-q".toList, f]⟩
  | mime (f : Str) : Command root .MIME_DB f "usr/bin/update-mime-database".toList ⟨"usr/bin/update-mime-database".toList, ["-n".toList, f]⟩
  | pixbuf (f : Str) : Command root .QUERY_PIXBUF f "usr/bin/gdk-pixbuf-query-loaders".toList ⟨"usr/bin/gdk-pixbuf-query-loaders".toList, ["--update-cache".toList]⟩
  | gio (f : Str) : Command root .GIO_QUERY f "usr/bin/gio-querymodules".toList ⟨"usr/bin/gio-querymodules".toList, ["usr/lib/gio/modules".toList]⟩
  | imod3 (f : Str) : Command root .QUERY_IMOD3 f "usr/bin/gtk-query-immodules-3.0".toList ⟨"usr/bin/gtk-query-immodules-3.0".toList, ["--update-cache".toList]⟩
  | imod2 (f : Str) : Command root .QUERY_IMOD2 f "usr/bin/gtk-query-immodules-2.0".toList ⟨"usr/bin/gtk-query-immodules-2.0".toList, ["--update-cache".toList]⟩

/-- A text without blank, not empty: it stays one argument. -/
def OneWord (f : Str) : Prop := f ≠ [] ∧ ' ' ∉ f

theorem mem_startIf {there : Str → Bool} {look app args : Str} {r : Run} :
    r ∈ startIf there look app args ↔ there look = true ∧ r = ⟨app, splitChar ' ' args⟩ := by
  unfold startIf
  split
  · next h => simp [h]
  · next h => simp [h]

theorem words1 {f : Str} (h : OneWord f) : splitChar ' ' f = [f] := splitChar_last ' ' f h.2 h.1

theorem words2 {w f : Str} (hw : OneWord w) (h : OneWord f) : splitChar ' ' (w ++ ' ' :: f) = [w, f] := by
  rw [splitChar_line ' ' w f hw.2 hw.1, words1 h]

theorem words3 {v w f : Str} (hv : OneWord v) (hw : OneWord w) (h : OneWord f) : splitChar ' ' (v ++ ' ' :: (w ++ ' ' :: f)) = [v, w, f] := by
  rw [splitChar_line ' ' v _ hv.2 hv.1, words2 hw h]

theorem root_words {root : Str} (h : OneWord root) : splitChar ' ' ("-r ".toList ++ root) = ["-r".toList, root] :=
  words2 (w := "-r".toList) (by unfold OneWord; decide) h
theorem info_words {f : Str} (h : OneWord f) : splitChar ' ' ("--info-dir=usr/share/info ".toList ++ f) = ["--info-dir=usr/share/info".toList, f] :=
 by
  have e : "--info-dir=usr/share/info ".toList = "--info-dir=usr/share/info".toList ++ [' '] := by decide
  rw [e, List.append_assoc]
  exact words2 (by unfold OneWord; decide) h
theorem q_words {f : Str} (h : OneWord f) : splitChar ' ' ("-q ".toList ++ f) = ["-q".toList, f] :=
  words2 (w := "-q".toList) (by unfold OneWord; decide) h
theorem n_words {f : Str} (h : OneWord f) : splitChar ' ' ("-n ".toList ++ f) = ["-n".toList, f] :=
  words2 (w := "-n".toList) (by unfold OneWord; decide) h
theorem icon_words {f : Str} (h : OneWord f) : splitChar ' ' ("-f -t ".toList ++ f) = ["-f".toList, "-t".toList, f] :=
  words3 (v := "-f".toList) (w := "-t".toList) (by unfold OneWord; decide) (by unfold OneWord; decide) h

/-- One entry of the list starts exactly the commands of its trigger whose program is there. -/
theorem runsOf_exact {root : Str} (hroot : OneWord root) (there : Str → Bool) (ev : Event) (f : Str) (hf : ev ≠ .LDCONF → OneWord f) (r : Run) :
    r ∈ runsOf root there (f, ev.num) ↔ ∃ look, Command root ev f look r ∧ there look = true := by
  cases ev <;> simp only [Event.num, runsOf, List.mem_append, mem_startIf]
  case LDCONF =>
    rw [root_words hroot]
    constructor
    · rintro ⟨h, rfl⟩; exact ⟨_, .ldconf f, h⟩
    · rintro ⟨_, ⟨⟩, h⟩; exact ⟨h, rfl⟩
  case UPGRADE => simp only [List.not_mem_nil, false_iff]; rintro ⟨_, ⟨⟩, _⟩
  case INSTALL => simp only [List.not_mem_nil, false_iff]; rintro ⟨_, ⟨⟩, _⟩
  case INFO =>
    rw [info_words (hf (by decide))]
    constructor
    · rintro ⟨h, rfl⟩; exact ⟨_, .info f, h⟩
    · rintro ⟨_, ⟨⟩, h⟩; exact ⟨h, rfl⟩
  case ICONS =>
    rw [icon_words (hf (by decide))]
    constructor
    · rintro ⟨h, rfl⟩; exact ⟨_, .icons f, h⟩
    · rintro ⟨_, ⟨⟩, h⟩; exact ⟨h, rfl⟩
  case FONTS =>
    rw [words1 (hf (by decide))]
    constructor
    · rintro ((⟨h, rfl⟩ | ⟨h, rfl⟩) | ⟨h, rfl⟩)
      · exact ⟨_, .fonts1 f, h⟩
      · exact ⟨_, .fonts2 f, h⟩
      · exact ⟨_, .fonts3 f, h⟩
    · rintro ⟨_, hc, h⟩
      cases hc
      · exact Or.inl (Or.inl ⟨h, rfl⟩)
      · exact Or.inl (Or.inr ⟨h, rfl⟩)
      · exact Or.inr ⟨h, rfl⟩
  case SCHEMAS =>
    rw [words1 (hf (by decide))]
    constructor
    · rintro ⟨h, rfl⟩; exact ⟨_, .schemas f, h⟩
    · rintro ⟨_, ⟨⟩, h⟩; exact ⟨h, rfl⟩
  case DESKTOP_DB =>
    rw [q_words (hf (by decide))]
    constructor
    · rintro ⟨h, rfl⟩; exact ⟨_, .desktop f, h⟩
    · rintro ⟨_, ⟨⟩, h⟩; exact ⟨h, rfl⟩
  case MIME_DB =>
    rw [n_words (hf (by decide))]
    constructor
    · rintro ⟨h, rfl⟩; exact ⟨_, .mime f, h⟩
    · rintro ⟨_, ⟨⟩, h⟩; exact ⟨h, rfl⟩
  case QUERY_PIXBUF =>
    rw [words1 (f := "--update-cache".toList) (by unfold OneWord; decide)]
    constructor
    · rintro ⟨h, rfl⟩; exact ⟨_, .pixbuf f, h⟩
    · rintro ⟨_, ⟨⟩, h⟩; exact ⟨h, rfl⟩
  case GIO_QUERY =>
    rw [words1 (f := "usr/lib/gio/modules".toList) (by unfold OneWord; decide)]
    constructor
    · rintro ⟨h, rfl⟩; exact ⟨_, .gio f, h⟩
    · rintro ⟨_, ⟨⟩, h⟩; exact ⟨h, rfl⟩
  case QUERY_IMOD3 =>
    rw [words1 (f := "--update-cache".toList) (by unfold OneWord; decide)]
    constructor
    · rintro ⟨h, rfl⟩; exact ⟨_, .imod3 f, h⟩
    · rintro ⟨_, ⟨⟩, h⟩; exact ⟨h, rfl⟩
  case QUERY_IMOD2 =>
    rw [words1 (f := "--update-cache".toList) (by unfold OneWord; decide)]
    constructor
    · rintro ⟨h, rfl⟩; exact ⟨_, .imod2 f, h⟩
    · rintro ⟨_, ⟨⟩, h⟩; exact ⟨h, rfl⟩

theorem mem_postFold (rx : Matcher) (rules : List Rule) (x : Str × Nat) : ∀ (files : List Str) (s : List (Str × Nat)),
    x ∈ files.foldl (postStep rx rules) s ↔ x ∈ s ∨ ∃ f ∈ files, ∃ e, postEntry rx rules f = some e ∧ x = (e.1, e.2.num)
  | [], s => by simp
  | f :: fs, s => by
    simp only [List.foldl_cons]
    rw [mem_postFold rx rules x fs]
    unfold postStep
    cases he : postEntry rx rules f with
    | none =>
      simp only [List.mem_cons]
      constructor
      · rintro (h | ⟨g, hg, h⟩)
        · exact Or.inl h
        · exact Or.inr ⟨g, Or.inr hg, h⟩
      · rintro (h | ⟨g, rfl | hg, e, h, hx⟩)
        · exact Or.inl h
        · rw [he] at h; simp at h
        · exact Or.inr ⟨g, hg, e, h, hx⟩
    | some e =>
      simp only [mem_dinsert, List.mem_cons]
      constructor
      · rintro ((h | h) | ⟨g, hg, h⟩)
        · exact Or.inr ⟨f, Or.inl rfl, e, he, h⟩
        · exact Or.inl h
        · exact Or.inr ⟨g, Or.inr hg, h⟩
      · rintro (h | ⟨g, rfl | hg, e', h, hx⟩)
        · exact Or.inl (Or.inr h)
        · rw [he] at h
          exact Or.inl (Or.inl (Option.some.inj h ▸ hx))
        · exact Or.inr ⟨g, hg, e', h, hx⟩

theorem mem_postSet {rx : Matcher} {rules : List Rule} {files : List Str} {x : Str × Nat} :
    x ∈ postSet rx rules files ↔ ∃ f ∈ files, ∃ e, postEntry rx rules f = some e ∧ x = (e.1, e.2.num) := by
  unfold postSet
  rw [mem_postFold]
  simp

/-- The trigger of the entry of a file is on that file, or ldconfig. -/
theorem postEntry_name {rx : Matcher} {rules : List Rule} {f : Str} {e : Str × Event} (h : postEntry rx rules f = some e) :
    e.1 = if e.2 = .LDCONF then [] else f := by
  unfold postEntry at h
  simp only at h
  split at h
  · have := Option.some.inj h
    subst this
    rfl
  · simp at h

theorem not_command_in {root : Str} {f look : Str} {r : Run} (ev : Event) (h : ev = .INSTALL ∨ ev = .UPGRADE) : ¬ Command root ev f look r := by
  rcases h with rfl | rfl <;> rintro ⟨⟩

theorem command_ldconf {root f g look : Str} {r : Run} (h : Command root .LDCONF f look r) : Command root .LDCONF g look r := by
  cases h; exact .ldconf g

/-- Every file of the archive has a trigger rule that matches it. -/
def AllMatched (rx : Matcher) (rules : List Rule) (a : Archive) : Prop := ∀ f ∈ a.files, ∃ r, LastTrigger rx rules f r

theorem lastTrigger_unique {rx : Matcher} {rules : List Rule} {f : Str} {r r' : Rule} (h : LastTrigger rx rules f r) (h' : LastTrigger rx rules f r') :
    r.action = r'.action ∧ (r.action = true → r.event = r'.event) := by
  have e := C43_matched_partial rx rules f r h
  have e' := C43_matched_partial rx rules f r' h'
  rw [e] at e'
  cases ha : r.action <;> cases ha' : r'.action <;> rw [ha, ha'] at e' <;> simp at e' <;> simp [e']

/-- A command past its first tests starts, for every file of the archive whose last matching trigger rule says YES, the programs of the trigger
that are there, and, when each file has a matching rule, no others. File names are single words here. -/
theorem C80_exact_partial (env : Env) (rules : List Rule) (opts : Opts) (root : Str) (hroot : OneWord root) (there : Str → Bool) (a : Archive) (s : Sys)
    (hpre : precheck opts a (load s opts.asDep) = none) (hwords : ∀ f ∈ a.files, OneWord f) (hall : AllMatched env.rx rules a) (r : Run) :
    r ∈ pkgaddRuns env rules opts root there a s ↔
      ∃ f ∈ a.files, ∃ ev, Triggers env.rx rules f ev ∧ ∃ look, Command root ev f look r ∧ there look = true := by
  unfold pkgaddRuns
  rw [hpre]
  simp only [runLast, List.mem_flatMap]
  constructor
  · rintro ⟨x, hx, hr⟩
    obtain ⟨f, hf, e, he, rfl⟩ := mem_postSet.mp hx
    have hn := postEntry_name he
    obtain ⟨q, hq⟩ := hall f hf
    have hm := C43_matched_partial env.rx rules f q hq
    rw [he] at hm
    cases ha : q.action with
    | false => rw [ha] at hm; simp at hm
    | true =>
      rw [ha] at hm
      simp only [if_true, Option.some.injEq] at hm
      have hev : e.2 = q.event := by rw [hm]
      rw [runsOf_exact hroot there e.2 e.1 (by intro h; rw [hn, if_neg h]; exact hwords f hf)] at hr
      obtain ⟨look, hc, ht⟩ := hr
      refine ⟨f, hf, e.2, ⟨q, hq, hev.symm, ha⟩, look, ?_, ht⟩
      rw [hn] at hc
      by_cases hl : e.2 = .LDCONF
      · rw [hl] at hc ⊢; exact command_ldconf hc
      · rw [if_neg hl] at hc; exact hc
  · rintro ⟨f, hf, ev, ⟨q, hq, rfl, ha⟩, look, hc, ht⟩
    have hm := C43_matched_partial env.rx rules f q hq
    rw [ha] at hm
    simp only [if_true] at hm
    refine ⟨(if q.event = .LDCONF then [] else f, q.event.num), mem_postSet.mpr ⟨f, hf, _, hm, rfl⟩, ?_⟩
    rw [runsOf_exact hroot there q.event _ (by intro h; rw [if_neg h]; exact hwords f hf)]
    refine ⟨look, ?_, ht⟩
    by_cases hl : q.event = .LDCONF
    · rw [hl] at hc ⊢; exact command_ldconf hc
    · rw [if_neg hl]; exact hc

/-- In general, every program started belongs to the trigger of a file of the archive: of its last matching rule, or, for an installed file that no
rule matches, of the first trigger rule (ldconfig when there is none). -/
theorem C80_only_listed (env : Env) (rules : List Rule) (opts : Opts) (root : Str) (hroot : OneWord root) (there : Str → Bool) (a : Archive) (s : Sys)
    (hwords : ∀ f ∈ a.files, OneWord f) (r : Run) (hr : r ∈ pkgaddRuns env rules opts root there a s) :
    ∃ f ∈ a.files, ∃ ev, postEntry env.rx rules f = some (if ev = .LDCONF then [] else f, ev) ∧ ∃ look, Command root ev f look r ∧ there look = true := by
  unfold pkgaddRuns at hr
  split at hr
  · simp at hr
  · simp only [runLast, List.mem_flatMap] at hr
    obtain ⟨x, hx, hr⟩ := hr
    obtain ⟨f, hf, e, he, rfl⟩ := mem_postSet.mp hx
    have hn := postEntry_name he
    rw [runsOf_exact hroot there e.2 e.1 (by intro h; rw [hn, if_neg h]; exact hwords f hf)] at hr
    obtain ⟨look, hc, ht⟩ := hr
    refine ⟨f, hf, e.2, by rw [he, ← hn], look, ?_, ht⟩
    rw [hn] at hc
    by_cases hl : e.2 = .LDCONF
    · rw [hl] at hc ⊢; exact command_ldconf hc
    · rw [if_neg hl] at hc; exact hc

/-- A command refused by the first tests (already installed, not installed, wrong architecture, damaged archive) starts nothing. -/
theorem C80_refused_early (env : Env) (rules : List Rule) (opts : Opts) (root : Str) (there : Str → Bool) (a : Archive) (s : Sys)
    (h : precheck opts a (load s opts.asDep) ≠ none) : pkgaddRuns env rules opts root there a s = [] := by
  unfold pkgaddRuns
  cases hp : precheck opts a (load s opts.asDep) with
  | none => exact absurd hp h
  | some e => rfl

/-! ### Once -/

theorem dinsert_sorted {x : Str × Nat} : ∀ {l : List (Str × Nat)}, l.Pairwise (fun a b => depLt a b = true) → (dinsert x l).Pairwise (fun a b => depLt a b = true)
  | [], _ => by simp [dinsert]
  | y :: ys, h => by
    have htr : ∀ a b c : Str × Nat, depLt a b = true → depLt b c = true → depLt a c = true := by
      intro a b c hab hbc
      unfold depLt at hab hbc ⊢
      simp only [Bool.or_eq_true, Bool.and_eq_true, decide_eq_true_eq] at hab hbc ⊢
      rcases hab with h1 | ⟨h1, h1'⟩ <;> rcases hbc with h2 | ⟨h2, h2'⟩
      · exact Or.inl (str_lt_trans h1 h2)
      · exact Or.inl (h2 ▸ h1)
      · exact Or.inl (h1 ▸ h2)
      · exact Or.inr ⟨h1.trans h2, Nat.lt_trans h1' h2'⟩
    rw [List.pairwise_cons] at h
    unfold dinsert
    split
    · exact List.pairwise_cons.mpr h
    · next hne =>
      split
      · next hlt =>
        refine List.pairwise_cons.mpr ⟨?_, List.pairwise_cons.mpr h⟩
        intro z hz
        rcases List.mem_cons.mp hz with rfl | hz
        · exact hlt
        · exact htr _ _ _ hlt (h.1 z hz)
      · next hnlt =>
        refine List.pairwise_cons.mpr ⟨?_, dinsert_sorted h.2⟩
        intro z hz
        rcases mem_dinsert.mp hz with rfl | hz
        · unfold depLt at hnlt ⊢
          simp only [Bool.or_eq_true, Bool.and_eq_true, decide_eq_true_eq, not_or, not_and] at hnlt ⊢
          by_cases hl : z.1 = y.1
          · right
            refine ⟨hl.symm, ?_⟩
            have := hnlt.2 hl
            rcases Nat.lt_trichotomy z.2 y.2 with h' | h' | h'
            · exact absurd h' this
            · exact absurd (Prod.ext hl h') hne
            · exact h'
          · exact Or.inl (str_lt_of_not hnlt.1 hl)
        · exact h.1 z hz

theorem postSet_sorted (rx : Matcher) (rules : List Rule) (files : List Str) : (postSet rx rules files).Pairwise (fun a b => depLt a b = true) := by
  have : ∀ (files : List Str) (s : List (Str × Nat)), s.Pairwise (fun a b => depLt a b = true) →
      (files.foldl (postStep rx rules) s).Pairwise (fun a b => depLt a b = true) := by
    intro files
    induction files with
    | nil => intro s h; exact h
    | cons f fs ih =>
      intro s h
      rw [List.foldl_cons]
      apply ih
      unfold postStep
      split
      · exact dinsert_sorted h
      · exact h
  exact this files [] List.Pairwise.nil

theorem depLt_ne {a b : Str × Nat} (h : depLt a b = true) : a ≠ b := by
  rintro rfl
  unfold depLt at h
  simp only [Bool.or_eq_true, Bool.and_eq_true, decide_eq_true_eq] at h
  rcases h with h | ⟨_, h⟩
  · exact str_lt_irrefl _ h
  · exact Nat.lt_irrefl _ h

theorem Event.num_inj {a b : Event} (h : a.num = b.num) : a = b := by
  cases a <;> cases b <;> first | rfl | (simp [Event.num] at h)

/-- The programs and the triggers that ask for them. -/
def programs : List (Str × Event) :=
  [("usr/bin/ldconfig".toList, .LDCONF), ("usr/bin/install-info".toList, .INFO), ("usr/bin/gtk-update-icon-cache".toList, .ICONS),
   ("usr/bin/mkfontscale".toList, .FONTS), ("usr/bin/mkfontdir".toList, .FONTS), ("usr/bin/fc-cache".toList, .FONTS),
   ("usr/bin/glib-compile-schemas".toList, .SCHEMAS), ("usr/bin/update-desktop-database".toList, .DESKTOP_DB),
   ("usr/bin/update-mime-database".toList, .MIME_DB), ("usr/bin/gdk-pixbuf-query-loaders".toList, .QUERY_PIXBUF),
   ("usr/bin/gio-querymodules".toList, .GIO_QUERY), ("usr/bin/gtk-query-immodules-3.0".toList, .QUERY_IMOD3),
   ("usr/bin/gtk-query-immodules-2.0".toList, .QUERY_IMOD2)]

/-- The four programs whose command line does not name the file. -/
def cachePrograms : List Str :=
  ["usr/bin/gdk-pixbuf-query-loaders".toList, "usr/bin/gio-querymodules".toList, "usr/bin/gtk-query-immodules-3.0".toList,
   "usr/bin/gtk-query-immodules-2.0".toList]

theorem command_event {root f look : Str} {ev : Event} {r : Run} (h : Command root ev f look r) : programs.lookup r.app = some ev := by
  cases h <;> (dsimp only; decide +kernel)

theorem command_file {root f look : Str} {ev : Event} {r : Run} (h : Command root ev f look r) :
    ev = .LDCONF ∨ r.app ∈ cachePrograms ∨ r.args.getLast? = some f := by
  cases h
  case ldconf => exact Or.inl rfl
  case pixbuf => exact Or.inr (Or.inl (by dsimp only; decide +kernel))
  case gio => exact Or.inr (Or.inl (by dsimp only; decide +kernel))
  case imod3 => exact Or.inr (Or.inl (by dsimp only; decide +kernel))
  case imod2 => exact Or.inr (Or.inl (by dsimp only; decide +kernel))
  all_goals exact Or.inr (Or.inr rfl)

theorem runsOf_app {root : Str} {there : Str → Bool} {x : Str × Nat} {r : Run} (h : r ∈ runsOf root there x) (ha : r.app = "usr/bin/ldconfig".toList) :
    x.2 = 0 := by
  unfold runsOf at h
  split at h
  case h_1 hx => exact hx
  all_goals
    simp only [List.mem_append, mem_startIf, List.not_mem_nil] at h
  case h_4 =>
    rcases h with (⟨_, rfl⟩ | ⟨_, rfl⟩) | ⟨_, rfl⟩ <;> exact absurd ha (by dsimp only; decide +kernel)
  all_goals
    obtain ⟨_, rfl⟩ := h
    exact absurd ha (by dsimp only; decide +kernel)

theorem runsOf_diff (root : Str) (there : Str → Bool) (x : Str × Nat) : (runsOf root there x).Pairwise (fun a b => a.app ≠ b.app) := by
  unfold runsOf
  have h1 : ∀ look app args, (startIf there look app args).Pairwise (fun a b => a.app ≠ b.app) := by
    intro look app args
    unfold startIf
    split <;> simp
  split
  case h_4 =>
    rw [List.pairwise_append, List.pairwise_append]
    refine ⟨⟨h1 _ _ _, h1 _ _ _, ?_⟩, h1 _ _ _, ?_⟩
    · intro a ha b hb
      rw [(mem_startIf.mp ha).2, (mem_startIf.mp hb).2]
      show ¬ ("usr/bin/mkfontscale".toList = "usr/bin/mkfontdir".toList)
      decide +kernel
    · intro a ha b hb
      rw [(mem_startIf.mp hb).2]
      rcases List.mem_append.mp ha with ha | ha
      · rw [(mem_startIf.mp ha).2]
        show ¬ ("usr/bin/mkfontscale".toList = "usr/bin/fc-cache".toList)
        decide +kernel
      · rw [(mem_startIf.mp ha).2]
        show ¬ ("usr/bin/mkfontdir".toList = "usr/bin/fc-cache".toList)
        decide +kernel
  all_goals first | exact h1 _ _ _ | exact List.Pairwise.nil

/-- ldconfig is the first program started, and is started at most once: nothing comes before a start of ldconfig. -/
theorem C80_ldconfig_first (env : Env) (rules : List Rule) (opts : Opts) (root : Str) (there : Str → Bool) (a : Archive) (s : Sys)
    (pre post : List Run) (r : Run) (h : pkgaddRuns env rules opts root there a s = pre ++ r :: post) (hr : r.app = "usr/bin/ldconfig".toList) : pre = [] := by
  have hp : (pkgaddRuns env rules opts root there a s).Pairwise (fun _ b => b.app ≠ "usr/bin/ldconfig".toList) := by
    unfold pkgaddRuns
    split
    · exact List.Pairwise.nil
    · unfold runLast
      rw [List.pairwise_flatMap]
      constructor
      · intro x hx
        by_cases h0 : x.2 = 0
        · unfold runsOf
          rw [h0]
          show List.Pairwise _ (startIf _ _ _ _)
          unfold startIf
          split <;> simp
        · refine List.Pairwise.imp_of_mem ?_ (runsOf_diff root there x)
          intro p q _ hq _ happ
          exact h0 (runsOf_app hq happ)
      · refine List.Pairwise.imp_of_mem ?_ (postSet_sorted env.rx rules a.files)
        intro x y _ hy hlt p _ q hq happ
        have h0 := runsOf_app hq happ
        obtain ⟨f, _, e, he, rfl⟩ := mem_postSet.mp hy
        have hn := postEntry_name he
        rw [if_pos (Event.num_inj (b := .LDCONF) h0)] at hn
        unfold depLt at hlt
        simp only [Bool.or_eq_true, Bool.and_eq_true, decide_eq_true_eq] at hlt h0
        rcases hlt with hlt | ⟨_, hlt⟩
        · rw [hn] at hlt
          exact absurd hlt (List.not_lt_nil _)
        · omega
  rw [h] at hp
  cases pre with
  | nil => rfl
  | cons p ps =>
    rw [List.cons_append, List.pairwise_cons] at hp
    exact absurd hr (hp.1 r (List.mem_append.mpr (Or.inr List.mem_cons_self)))

/-- No program is started twice with the same arguments, except the four that rebuild a cache whatever the file. -/
theorem C80_once_partial (env : Env) (rules : List Rule) (opts : Opts) (root : Str) (hroot : OneWord root) (there : Str → Bool) (a : Archive) (s : Sys)
    (hwords : ∀ f ∈ a.files, OneWord f) :
    (pkgaddRuns env rules opts root there a s).Pairwise (fun x y => x = y → x.app ∈ cachePrograms) := by
  unfold pkgaddRuns
  split
  · exact List.Pairwise.nil
  · unfold runLast
    rw [List.pairwise_flatMap]
    constructor
    · intro x _
      refine List.Pairwise.imp_of_mem ?_ (runsOf_diff root there x)
      intro p q _ _ hne he
      exact absurd (congrArg Run.app he) hne
    · refine List.Pairwise.imp_of_mem ?_ (postSet_sorted env.rx rules a.files)
      intro x y hx hy hlt p hp q hq hpq
      subst hpq
      obtain ⟨f, hf, e, he, rfl⟩ := mem_postSet.mp hx
      obtain ⟨g, hg, e', he', rfl⟩ := mem_postSet.mp hy
      have hn := postEntry_name he
      have hn' := postEntry_name he'
      rw [runsOf_exact hroot there e.2 e.1 (by intro h; rw [hn, if_neg h]; exact hwords f hf)] at hp
      rw [runsOf_exact hroot there e'.2 e'.1 (by intro h; rw [hn', if_neg h]; exact hwords g hg)] at hq
      obtain ⟨_, hc, _⟩ := hp
      obtain ⟨_, hc', _⟩ := hq
      have hev : e.2 = e'.2 := by
        have h1 := command_event hc
        rw [command_event hc'] at h1
        exact (Option.some.inj h1).symm
      by_cases hl : e.2 = .LDCONF
      · exfalso
        apply depLt_ne hlt
        rw [hn, hn', ← hev]
        simp only [if_pos hl]
      · rcases command_file hc with h | h | h
        · exact absurd h hl
        · exact h
        · rcases command_file hc' with h' | h' | h'
          · exact absurd (hev.trans h') hl
          · exact h'
          · rw [h] at h'
            have hff : e.1 = e'.1 := Option.some.inj h'
            exact absurd (by rw [hff, hev]) (depLt_ne hlt)

/-! ### A concrete command, and what the ideal statement would forbid -/

/-- `app` ships a library, an icon and two input modules. -/
def xTrigArch : Archive := xArch "app" ["usr/", "usr/lib/libapp.so", "usr/share/icons/app.png", "usr/lib/gio/a.so", "usr/lib/gio/b.so"]

def xTrigRules : List Rule := [⟨.LDCONF, "usr/".toList, false⟩, ⟨.LDCONF, "usr/lib/lib".toList, true⟩, ⟨.ICONS, "usr/share/icons/".toList, true⟩,
  ⟨.GIO_QUERY, "usr/lib/gio/".toList, true⟩, ⟨.UPGRADE, "etc/".toList, false⟩]

/-- Everything is there but the icon program. -/
def xThere (f : Str) : Bool := f ≠ "usr/bin/gtk-update-icon-cache".toList

/-- The hypotheses of the theorems above hold of a concrete command; ldconfig comes first, the icon program is not there. The program that reads
the modules is started twice, once for each file, with the same arguments: the ideal "no program twice" fails. -/
theorem C80_twice_counterexample :
    precheck xOpts xTrigArch (load xSys false) = none ∧ (∀ f ∈ xTrigArch.files, OneWord f) ∧ OneWord "/".toList ∧
    pkgaddRuns xEnv xTrigRules xOpts "/".toList xThere xTrigArch xSys =
      [⟨"usr/bin/ldconfig".toList, ["-r".toList, "/".toList]⟩, ⟨"usr/bin/gio-querymodules".toList, ["usr/lib/gio/modules".toList]⟩,
       ⟨"usr/bin/gio-querymodules".toList, ["usr/lib/gio/modules".toList]⟩] := by
  refine ⟨by decide +kernel, ?_, by unfold OneWord; decide, by decide +kernel⟩
  unfold OneWord
  decide +kernel

theorem xTrig_files : ∀ f ∈ xTrigArch.files, f = "usr/".toList ∨ f = "usr/lib/libapp.so".toList ∨ f = "usr/share/icons/app.png".toList ∨
    f = "usr/lib/gio/a.so".toList ∨ f = "usr/lib/gio/b.so".toList := by decide +kernel

/-- Every file of `xTrigArch` has a matching rule. -/
example : AllMatched xEnv.rx xTrigRules xTrigArch := by
  intro f hf
  rcases xTrig_files f hf with rfl | rfl | rfl | rfl | rfl
  · exact ⟨_, [], _, rfl, by decide, by decide, by decide, by decide⟩
  · exact ⟨_, [_], _, rfl, by decide, by decide, by decide, by decide⟩
  · exact ⟨_, [_, _], _, rfl, by decide, by decide, by decide, by decide⟩
  · exact ⟨_, [_, _, _], _, rfl, by decide, by decide, by decide, by decide⟩
  · exact ⟨_, [_, _, _], _, rfl, by decide, by decide, by decide, by decide⟩

/-- A file name with a blank becomes two arguments. -/
theorem C80_blank_counterexample :
    pkgaddRuns xEnv xTrigRules xOpts "/".toList (fun _ => true) (xArch "app" ["usr/share/icons/my app.png"]) xSys =
      [⟨"usr/bin/gtk-update-icon-cache".toList, ["-f".toList, "-t".toList, "usr/share/icons/my".toList, "app.png".toList]⟩] := by
  decide +kernel

/-- A command refused because of a conflict has installed nothing, and still starts the programs of the files it did not install. -/
theorem C80_refused_counterexample :
    (pkgadd xEnv xTrigRules xOpts (xArch "app" ["etc/", "etc/bar", "usr/lib/libapp.so"]) xSys).2 ≠ none ∧
    (pkgadd xEnv xTrigRules xOpts (xArch "app" ["etc/", "etc/bar", "usr/lib/libapp.so"]) xSys).1.fs = xSys.fs ∧
    ⟨"usr/bin/ldconfig".toList, ["-r".toList, "/".toList]⟩ ∈
      pkgaddRuns xEnv xTrigRules xOpts "/".toList (fun _ => true) (xArch "app" ["etc/", "etc/bar", "usr/lib/libapp.so"]) xSys := by
  refine ⟨by decide +kernel, by decide +kernel, by decide +kernel⟩

end Cards.Props
