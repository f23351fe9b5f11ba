import Verif.Model.Shipped
import Verif.Props.Rules
import Verif.Props.PostInstall
import Verif.Props.TransFs
import Mathlib.Tactic.Common
/-!
# C220–C222: the configuration of pkgadd that is shipped
-/
namespace Cards.Props
open Cards Cards.Spec

/-- The rules if the file was read. -/
def okRules : Except RuleErr (List Rule) → Option (List Rule)
  | .ok r => some r
  | .error _ => none

theorem shipped_ok : okRules (readRules (some shippedConf)) = some shippedRules := by decide +kernel

/-- The shipped file is read without an error, as the rules it shows. -/
theorem C220_read : readRules (some shippedConf) = .ok shippedRules := by
  have h := shipped_ok
  revert h
  cases readRules (some shippedConf) with
  | error e => intro h; cases h
  | ok r => intro h; injection h with h; rw [h]

/-! ## The expressions

The shipped file in the model of the rule file, and its expressions in a matcher of their own. -/

def lits (p : Str) : List (EreAtom × Bool) := p.map (fun c => (.chr c, false))

theorem here_lits (e : Bool) (p : Str) (is : List (EreAtom × Bool)) (s : Str) :
    ereHere e (lits p ++ is) s = true ↔ ∃ r, s = p ++ r ∧ ereHere e is r = true := by
  induction p generalizing s with
  | nil => simp [lits]
  | cons c p ih =>
    show ereHere e ((.chr c, false) :: (lits p ++ is)) s = true ↔ _
    cases s with
    | nil => simp [ereHere]
    | cons d s =>
      simp only [ereHere, EreAtom.ok, Bool.and_eq_true, decide_eq_true_eq, ih, List.cons_append, List.cons.injEq]
      constructor
      · rintro ⟨rfl, r, rfl, h⟩; exact ⟨r, ⟨rfl, rfl⟩, h⟩
      · rintro ⟨r, ⟨rfl, rfl⟩, h⟩; exact ⟨rfl, r, rfl, h⟩

theorem here_one (e : Bool) (a : EreAtom) (is : List (EreAtom × Bool)) (s : Str) :
    ereHere e ((a, false) :: is) s = true ↔ ∃ c r, s = c :: r ∧ a.ok c = true ∧ ereHere e is r = true := by
  cases s with
  | nil => simp [ereHere]
  | cons c s =>
    simp only [ereHere, Bool.and_eq_true, List.cons.injEq]
    constructor
    · rintro ⟨h1, h2⟩; exact ⟨c, s, ⟨rfl, rfl⟩, h1, h2⟩
    · rintro ⟨_, _, ⟨rfl, rfl⟩, h1, h2⟩; exact ⟨h1, h2⟩

theorem star_iff (a : EreAtom) (k : Str → Bool) (s : Str) :
    ereStar a k s = true ↔ ∃ w r, s = w ++ r ∧ (∀ c ∈ w, a.ok c = true) ∧ k r = true := by
  induction s with
  | nil =>
    simp only [ereStar]
    constructor
    · intro h; exact ⟨[], [], rfl, by simp, h⟩
    · rintro ⟨w, r, h, _, hk⟩
      have := List.append_eq_nil_iff.mp h.symm
      rw [this.2] at hk; exact hk
  | cons c s ih =>
    simp only [ereStar, Bool.or_eq_true, Bool.and_eq_true, ih]
    constructor
    · rintro (h | ⟨h1, w, r, rfl, hw, hk⟩)
      · exact ⟨[], c :: s, rfl, by simp, h⟩
      · exact ⟨c :: w, r, rfl, by simpa [h1] using hw, hk⟩
    · rintro ⟨w, r, h, hw, hk⟩
      cases w with
      | nil => left; rw [List.nil_append] at h; rw [h]; exact hk
      | cons d w =>
        obtain ⟨rfl, rfl⟩ := List.cons.inj h
        right
        exact ⟨hw c (by simp), w, r, rfl, fun x hx => hw x (by simp [hx]), hk⟩

theorem here_star (e : Bool) (a : EreAtom) (is : List (EreAtom × Bool)) (s : Str) :
    ereHere e ((a, true) :: is) s = true ↔ ∃ w r, s = w ++ r ∧ (∀ c ∈ w, a.ok c = true) ∧ ereHere e is r = true := by
  rw [ereHere]; exact star_iff a _ s

theorem here_nil (s : Str) : ereHere false [] s = true := by simp [ereHere]

theorem here_end (s : Str) : ereHere true [] s = true ↔ s = [] := by simp [ereHere]

theorem here_rest (s : Str) : ereHere true [(.any, true)] s = true :=
  (here_star ..).mpr ⟨s, [], by simp, fun _ _ => rfl, by simp [ereHere]⟩

theorem ere_of {p : Str} {is : List (EreAtom × Bool)} {e : Bool} (h : ereCompile p = some ⟨true, is, e⟩) (f : Str) :
    ere p f = ereHere e is f := by
  unfold ere; rw [h]; rfl

/-- `^lit.*$` -/
theorem ere_under {p l : Str} (h : ereCompile p = some ⟨true, lits l ++ [(.any, true)], true⟩) (f : Str) : ere p f = true ↔ l <+: f := by
  rw [ere_of h, here_lits]
  exact ⟨fun ⟨r, h, _⟩ => ⟨r, h.symm⟩, fun ⟨r, h⟩ => ⟨r, h.symm, here_rest r⟩⟩

/-- `^lit` -/
theorem ere_begins {p l : Str} (h : ereCompile p = some ⟨true, lits l, false⟩) (f : Str) : ere p f = true ↔ l <+: f := by
  rw [ere_of h, show lits l = lits l ++ [] from (List.append_nil _).symm, here_lits]
  exact ⟨fun ⟨r, h, _⟩ => ⟨r, h.symm⟩, fun ⟨r, h⟩ => ⟨r, h.symm, here_nil r⟩⟩

/-- `^lit$` -/
theorem ere_is {p l : Str} (h : ereCompile p = some ⟨true, lits l, true⟩) (f : Str) : ere p f = true ↔ f = l := by
  rw [ere_of h, show lits l = lits l ++ [] from (List.append_nil _).symm, here_lits]
  constructor
  · rintro ⟨r, h, hr⟩; rw [(here_end r).mp hr, List.append_nil] at h; exact h
  · rintro rfl; exact ⟨[], by simp, (here_end _).mpr rfl⟩

/-! ## C220: what an upgrade keeps -/

/-- The rules of udev. -/
def UdevRule (f : Str) : Prop := ∃ c r, f = "etc/udev/rules".toList ++ c :: ("d/".toList ++ r)

/-- The rules of udev whose name begins with a one. -/
def UdevOne (f : Str) : Prop := ∃ c r, f = "etc/udev/rules".toList ++ c :: ("d/1".toList ++ r)

/-- The files of `/etc` the shipped configuration protects. -/
def KeptEtc (f : Str) : Prop :=
  "etc/".toList <+: f ∧ ¬ "etc/ssl".toList <+: f ∧
    (UdevOne f ∨ f ∈ ["etc/rc.local".toList, "etc/rc.modules".toList, "etc/rc.conf".toList, "etc/rc.d/net".toList] ∨
      (¬ UdevRule f ∧ ¬ "etc/rc".toList <+: f ∧ ¬ "etc/X11/".toList <+: f ∧ ¬ "etc/ports/drivers/".toList <+: f))

/-- A crontab: `var/spool/…cron/…`. -/
def CronFile (f : Str) : Prop := ∃ w r, f = "var/spool/".toList ++ (w ++ ("cron/".toList ++ r)) ∧ ∀ c ∈ w, c.isAlphanum = true ∨ c = '_'

/-- All the files the shipped configuration protects from an upgrade. -/
def KeptFile (f : Str) : Prop :=
  KeptEtc f ∨ "dev/".toList <+: f ∨ "proc/".toList <+: f ∨ "sys/".toList <+: f ∨ "var/log/".toList <+: f ∨ f = "var/run/utmp".toList ∨ CronFile f

theorem clash {p q f : Str} (hp : p <+: f) (hq : q <+: f) (h1 : p.isPrefixOf q = false) (h2 : q.isPrefixOf p = false) : False := by
  rcases List.prefix_or_prefix_of_prefix hp hq with h | h
  · rw [List.isPrefixOf_iff_prefix.mpr h] at h1; cases h1
  · rw [List.isPrefixOf_iff_prefix.mpr h] at h2; cases h2

theorem shE1 (f : Str) : ere "^etc/.*$".toList f = true ↔ "etc/".toList <+: f := ere_under (by decide) f
theorem shE2 (f : Str) : ere "^var/log/.*$".toList f = true ↔ "var/log/".toList <+: f := ere_under (by decide) f
theorem shE3 (f : Str) : ere "^var/spool/\\w*cron/.*$".toList f = true ↔ CronFile f := by
  rw [ere_of (is := lits "var/spool/".toList ++ (.word, true) :: (lits "cron/".toList ++ [(.any, true)])) (e := true) (by decide), here_lits]
  unfold CronFile
  constructor
  · rintro ⟨_, rfl, h⟩
    obtain ⟨w, _, rfl, hw, h⟩ := (here_star ..).mp h
    obtain ⟨r, rfl, _⟩ := (here_lits ..).mp h
    exact ⟨w, r, rfl, fun c hc => by simpa [EreAtom.ok] using hw c hc⟩
  · rintro ⟨w, r, rfl, hw⟩
    exact ⟨_, rfl, (here_star ..).mpr ⟨w, _, rfl, fun c hc => by simpa [EreAtom.ok] using hw c hc, (here_lits ..).mpr ⟨r, rfl, here_rest r⟩⟩⟩
theorem shE4 (f : Str) : ere "^var/run/utmp$".toList f = true ↔ f = "var/run/utmp".toList := ere_is (by decide) f
theorem shE5 (f : Str) : ere "^etc/ports/drivers/.*$".toList f = true ↔ "etc/ports/drivers/".toList <+: f := ere_under (by decide) f
theorem shE6 (f : Str) : ere "^etc/X11/.*$".toList f = true ↔ "etc/X11/".toList <+: f := ere_under (by decide) f
theorem shE7 (f : Str) : ere "^etc/rc.*$".toList f = true ↔ "etc/rc".toList <+: f := ere_under (by decide) f
theorem shE8 (f : Str) : ere "^etc/rc\\.local$".toList f = true ↔ f = "etc/rc.local".toList := ere_is (by decide) f
theorem shE9 (f : Str) : ere "^etc/rc\\.modules$".toList f = true ↔ f = "etc/rc.modules".toList := ere_is (by decide) f
theorem shE10 (f : Str) : ere "^etc/rc\\.conf$".toList f = true ↔ f = "etc/rc.conf".toList := ere_is (by decide) f
theorem shE11 (f : Str) : ere "^etc/rc\\.d/net$".toList f = true ↔ f = "etc/rc.d/net".toList := ere_is (by decide) f

theorem udev_iff {p t : Str} (h : ereCompile p = some ⟨true, lits "etc/udev/rules".toList ++ (.any, false) :: (lits t ++ [(.any, true)]), true⟩) (f : Str) :
    ere p f = true ↔ ∃ c r, f = "etc/udev/rules".toList ++ c :: (t ++ r) := by
  rw [ere_of h, here_lits]
  constructor
  · rintro ⟨_, rfl, h⟩
    obtain ⟨c, _, rfl, _, h⟩ := (here_one ..).mp h
    obtain ⟨r, rfl, _⟩ := (here_lits ..).mp h
    exact ⟨c, r, rfl⟩
  · rintro ⟨c, r, rfl⟩
    exact ⟨_, rfl, (here_one ..).mpr ⟨c, _, rfl, rfl, (here_lits ..).mpr ⟨r, rfl, here_rest r⟩⟩⟩

theorem shE12 (f : Str) : ere "^etc/udev/rules.d/.*$".toList f = true ↔ UdevRule f := udev_iff (by decide) f
theorem shE13 (f : Str) : ere "^etc/udev/rules.d/1.*$".toList f = true ↔ UdevOne f := udev_iff (by decide) f
theorem shE14 (f : Str) : ere "^etc/ssl".toList f = true ↔ "etc/ssl".toList <+: f := ere_begins (by decide) f
theorem shE15 (f : Str) : ere "^dev/".toList f = true ↔ "dev/".toList <+: f := ere_begins (by decide) f
theorem shE16 (f : Str) : ere "^proc/".toList f = true ↔ "proc/".toList <+: f := ere_begins (by decide) f
theorem shE17 (f : Str) : ere "^sys/".toList f = true ↔ "sys/".toList <+: f := ere_begins (by decide) f

/-- Read from the last rule to the first: what is kept. -/
def keptOf (rx : Matcher) (f : Str) : List Rule → Bool
  | [] => false
  | r :: rs => if rx r.pattern f then !r.action else keptOf rx f rs

theorem keptOf_iff (rx : Matcher) (f : Str) (l : List Rule) :
    (∃ r, l.find? (fun r => rx r.pattern f) = some r ∧ r.action = false) ↔ keptOf rx f l = true := by
  induction l with
  | nil => simp [keptOf]
  | cons r l ih =>
    by_cases h : rx r.pattern f = true
    · simp [keptOf, h]
    · simp only [keptOf, List.find?_cons, h]
      simpa using ih

theorem upgrade_rules : (rulesOf shippedRules .UPGRADE).reverse = shippedUpgrade.reverse := by decide +kernel

/-- The decision, the rules taken for propositions. -/
theorem chain_kept (b : Nat → Bool) (hE : ∀ i ∈ [5, 6, 7, 8, 9, 10, 11, 12, 13, 14], b i = true → b 1 = true) (hV : b 1 = true → b 2 = false ∧ b 3 = false ∧ b 4 = false)
    (hU : b 12 = true → b 7 = false) (hR : b 8 = true ∨ b 9 = true ∨ b 10 = true ∨ b 11 = true → b 7 = true) :
    (if b 17 then !false else if b 16 then !false else if b 15 then !false else if b 14 then !true else if b 13 then !false else if b 12 then !true else if b 11 then !false else
      if b 10 then !false else if b 9 then !false else if b 8 then !false else if b 7 then !true else if b 6 then !true else if b 5 then !true else
      if b 4 then !false else if b 3 then !false else if b 2 then !false else if b 1 then !false else false) = true ↔
    (b 1 = true ∧ ¬ b 14 = true ∧ (b 13 = true ∨ (b 8 = true ∨ b 9 = true ∨ b 10 = true ∨ b 11 = true) ∨ (¬ b 12 = true ∧ ¬ b 7 = true ∧ ¬ b 6 = true ∧ ¬ b 5 = true))) ∨
      b 15 = true ∨ b 16 = true ∨ b 17 = true ∨ b 2 = true ∨ b 4 = true ∨ b 3 = true := by
  simp only [List.forall_mem_cons, List.not_mem_nil, false_implies, implies_true, and_true] at hE
  obtain ⟨h5, h6, h7, h8, h9, h10, h11, h12, h13, h14⟩ := hE
  generalize b 1 = b1 at *; generalize b 2 = b2 at *; generalize b 3 = b3 at *; generalize b 4 = b4 at *; generalize b 5 = b5 at *; generalize b 6 = b6 at *
  generalize b 7 = b7 at *; generalize b 8 = b8 at *; generalize b 9 = b9 at *; generalize b 10 = b10 at *; generalize b 11 = b11 at *; generalize b 12 = b12 at *
  generalize b 13 = b13 at *; generalize b 14 = b14 at *; generalize b 15 = b15 at *; generalize b 16 = b16 at *; generalize b 17 = b17 at *
  cases b17 <;> [skip; simp]
  cases b16 <;> [skip; simp]
  cases b15 <;> [skip; simp]
  cases b14 <;> [skip; (have := hV (h14 rfl); simp_all)]
  cases b13 <;> [skip; (have := h13 rfl; simp_all)]
  cases b1
  · clear hV hU hR h13 h14
    cases b12 <;> [skip; (exact absurd (h12 rfl) (by decide))]
    cases b11 <;> [skip; (exact absurd (h11 rfl) (by decide))]
    cases b10 <;> [skip; (exact absurd (h10 rfl) (by decide))]
    cases b9 <;> [skip; (exact absurd (h9 rfl) (by decide))]
    cases b8 <;> [skip; (exact absurd (h8 rfl) (by decide))]
    cases b7 <;> [skip; (exact absurd (h7 rfl) (by decide))]
    cases b6 <;> [skip; (exact absurd (h6 rfl) (by decide))]
    cases b5 <;> [skip; (exact absurd (h5 rfl) (by decide))]
    clear h5 h6 h7 h8 h9 h10 h11 h12
    cases b4 <;> cases b3 <;> cases b2 <;> simp
  · obtain ⟨rfl, rfl, rfl⟩ := hV rfl
    clear hV h5 h6 h7 h8 h9 h10 h11 h12 h13 h14
    cases b7 <;> cases b12 <;> cases b11 <;> cases b10 <;> cases b9 <;> cases b8 <;> simp at hU hR ⊢ <;> cases b6 <;> cases b5 <;> simp

theorem shipped_kept (f : Str) : keptOf ere f shippedUpgrade.reverse = true ↔ KeptFile f := by
  let b : Nat → Bool := fun i => match i with
    | 1 => ere "^etc/.*$".toList f | 2 => ere "^var/log/.*$".toList f | 3 => ere "^var/spool/\\w*cron/.*$".toList f | 4 => ere "^var/run/utmp$".toList f
    | 5 => ere "^etc/ports/drivers/.*$".toList f | 6 => ere "^etc/X11/.*$".toList f | 7 => ere "^etc/rc.*$".toList f | 8 => ere "^etc/rc\\.local$".toList f
    | 9 => ere "^etc/rc\\.modules$".toList f | 10 => ere "^etc/rc\\.conf$".toList f | 11 => ere "^etc/rc\\.d/net$".toList f | 12 => ere "^etc/udev/rules.d/.*$".toList f
    | 13 => ere "^etc/udev/rules.d/1.*$".toList f | 14 => ere "^etc/ssl".toList f | 15 => ere "^dev/".toList f | 16 => ere "^proc/".toList f | 17 => ere "^sys/".toList f
    | _ => false
  have hE : ∀ i ∈ [5, 6, 7, 8, 9, 10, 11, 12, 13, 14], b i = true → b 1 = true := by
    have tr : ∀ {q : Str}, q <+: f → "etc/".toList.isPrefixOf q = true → ere "^etc/.*$".toList f = true := fun hq hp => (shE1 f).mpr ((List.isPrefixOf_iff_prefix.mp hp).trans hq)
    have eqp : ∀ {q : Str}, f = q → q <+: f := fun h => h ▸ List.prefix_rfl
    have ud : ∀ {t : Str}, (∃ c r, f = "etc/udev/rules".toList ++ c :: (t ++ r)) → "etc/udev/rules".toList <+: f := fun ⟨c, r, h⟩ => ⟨_, h.symm⟩
    intro i hi
    simp only [List.mem_cons, List.not_mem_nil, or_false] at hi
    rcases hi with rfl | rfl | rfl | rfl | rfl | rfl | rfl | rfl | rfl | rfl
    · exact fun h => tr ((shE5 f).mp h) (by decide)
    · exact fun h => tr ((shE6 f).mp h) (by decide)
    · exact fun h => tr ((shE7 f).mp h) (by decide)
    · exact fun h => tr (eqp ((shE8 f).mp h)) (by decide)
    · exact fun h => tr (eqp ((shE9 f).mp h)) (by decide)
    · exact fun h => tr (eqp ((shE10 f).mp h)) (by decide)
    · exact fun h => tr (eqp ((shE11 f).mp h)) (by decide)
    · exact fun h => tr (ud ((shE12 f).mp h)) (by decide)
    · exact fun h => tr (ud ((shE13 f).mp h)) (by decide)
    · exact fun h => tr ((shE14 f).mp h) (by decide)
  have hV : b 1 = true → b 2 = false ∧ b 3 = false ∧ b 4 = false := by
    intro h
    have h := (shE1 f).mp h
    refine ⟨?_, ?_, ?_⟩ <;> rw [Bool.eq_false_iff] <;> intro hc
    · exact clash h ((shE2 f).mp hc) (by decide) (by decide)
    · obtain ⟨w, r, hf, _⟩ := (shE3 f).mp hc
      exact clash (q := "var/spool/".toList) h ⟨_, hf.symm⟩ (by decide) (by decide)
    · exact clash (q := "var/run/utmp".toList) h ((shE4 f).mp hc ▸ List.prefix_rfl) (by decide) (by decide)
  have hU : b 12 = true → b 7 = false := by
    intro h
    rw [Bool.eq_false_iff]
    intro hc
    obtain ⟨c, r, hf⟩ := (shE12 f).mp h
    exact clash (p := "etc/udev/rules".toList) ⟨_, hf.symm⟩ ((shE7 f).mp hc) (by decide) (by decide)
  have hR : b 8 = true ∨ b 9 = true ∨ b 10 = true ∨ b 11 = true → b 7 = true := by
    have tr : ∀ {q : Str}, f = q → "etc/rc".toList.isPrefixOf q = true → ere "^etc/rc.*$".toList f = true := fun hq hp => (shE7 f).mpr (hq ▸ List.isPrefixOf_iff_prefix.mp hp)
    rintro (h | h | h | h)
    · exact tr ((shE8 f).mp h) (by decide)
    · exact tr ((shE9 f).mp h) (by decide)
    · exact tr ((shE10 f).mp h) (by decide)
    · exact tr ((shE11 f).mp h) (by decide)
  have key := chain_kept b hE hV hU hR
  have hl : keptOf ere f shippedUpgrade.reverse = (if b 17 then !false else if b 16 then !false else if b 15 then !false else if b 14 then !true else if b 13 then !false else if b 12 then !true else if b 11 then !false else
      if b 10 then !false else if b 9 then !false else if b 8 then !false else if b 7 then !true else if b 6 then !true else if b 5 then !true else
      if b 4 then !false else if b 3 then !false else if b 2 then !false else if b 1 then !false else false) := rfl
  rw [hl, key]
  unfold KeptFile KeptEtc
  simp only [List.mem_cons, List.not_mem_nil, or_false]
  rw [← shE1 f, ← shE2 f, ← shE3 f, ← shE4 f, ← shE5 f, ← shE6 f, ← shE7 f, ← shE8 f, ← shE9 f, ← shE10 f, ← shE11 f, ← shE12 f, ← shE13 f, ← shE14 f, ← shE15 f, ← shE16 f, ← shE17 f]
  exact Iff.rfl

/-- **C220.** With the shipped configuration an upgrade keeps, of the files of a package, exactly those of `KeptFile`. -/
theorem C220_kept (files : List Str) (f : Str) : f ∈ keepFileList ere files shippedRules ↔ f ∈ files ∧ KeptFile f := by
  rw [C31_upgrade_decision]
  refine and_congr_right fun _ => ?_
  rw [← shipped_kept f, ← keptOf_iff, ← upgrade_rules]
  refine exists_congr fun r => and_congr_left fun _ => ?_
  exact (lastApplying_some ..).symm

theorem C220_protected (f : Str) : Protected ere shippedRules f ↔ KeptFile f := by
  have h := C220_kept [f] f
  rw [C31_upgrade_decision] at h
  simpa [Protected] using h

/-- **C220**, the effect: with the shipped file, upgrading a package leaves a regular file of `KeptFile` that the new version ships as it is on the disk, whatever the outcome. -/
theorem C220_untouched (env : Env) (hrx : env.rx = ere) (opts : Opts) (a : Archive) (s : Sys) (hw : WF s.disk) (hg : GoodArchive a) (hup : opts.upgrade = true) (f : Str)
    (hm : f ∈ a.mtree) (hdot : f.head? ≠ some '.') (hk : KeptFile f) (hne : ¬ Excluded ere shippedRules f) (hd : ¬ IsDirName f) (c : Str) (m : Nat)
    (hfile : s.fs.get (comps f) = some (.file c m)) (haway : AwayFromRejected (comps f)) (hsc : ScriptsLeave a (comps f))
    (hspell : ∀ g, Owns s.disk a.name g → comps g = comps f → g = f ∨ IsDirName g) :
    (pkgaddConf env (some shippedConf) opts a s).1.fs.get (comps f) = some (.file c m) := by
  unfold pkgaddConf
  rw [C220_read]
  exact C06_protected_untouched env shippedRules opts a s hw hg hup f ⟨hm, hdot, hrx ▸ hne⟩ (hrx ▸ (C220_protected f).mpr hk) hd c m hfile haway hsc hspell

example : KeptFile "etc/fstab".toList ∧ KeptFile "etc/rc.conf".toList ∧ KeptFile "var/spool/cron/root".toList := by
  refine ⟨Or.inl ⟨by decide, by decide, Or.inr (Or.inr ⟨?_, by decide, by decide, by decide⟩)⟩, Or.inl ⟨by decide, by decide, Or.inr (Or.inl (by decide))⟩,
    Or.inr (Or.inr (Or.inr (Or.inr (Or.inr (Or.inr ⟨[], "root".toList, by decide, by simp⟩)))))⟩
  exact fun h => absurd ((shE12 _).mpr h) (by decide +kernel)

example : "etc/fstab".toList ∈ keepFileList ere ["etc/fstab".toList, "usr/bin/x".toList, "etc/X11/xinit".toList] shippedRules ∧
    keepFileList ere ["usr/bin/x".toList, "etc/X11/xinit".toList, "etc/rc".toList] shippedRules = [] := by decide +kernel

/-- What surprises: `etc/ssl` stands without a slash, so the configuration of other programs is overwritten too, and `etc/rc` any file that begins like it. -/
theorem C220_overwritten : ¬ KeptFile "etc/sslh.cfg".toList ∧ ¬ KeptFile "etc/rcfoo.conf".toList ∧ ¬ KeptFile "etc/ssl/openssl.cnf".toList := by
  refine ⟨?_, ?_, ?_⟩ <;> rw [← shipped_kept] <;> decide +kernel

/-! ## C221: what is left out -/

/-- `dir/…/name`, with one component between and any character in place of the point: the caches of the themes and fonts. -/
def CacheOf (top name ext f : Str) : Prop := ∃ d c r, f = top ++ (d ++ ('/' :: (name ++ c :: (ext ++ r)))) ∧ '/' ∉ d

/-- The files the shipped configuration leaves out of the installation. -/
def LeftOut (f : Str) : Prop :=
  "usr/share/info/dir".toList <+: f ∨ (∃ a c, f = a ++ ("perllocal".toList ++ c :: "pod".toList)) ∨
    CacheOf "usr/share/icons/".toList "icon-theme".toList "cache".toList f ∨
    CacheOf "usr/share/fonts/".toList "fonts".toList "scale".toList f ∨ CacheOf "usr/share/fonts/".toList "fonts".toList "dir".toList f

theorem cache_iff {p top name ext : Str} (h : ereCompile p = some ⟨true, lits top ++ (.notSlash, true) :: (lits ('/' :: name) ++ (.any, false) :: lits ext), false⟩) (f : Str) :
    ere p f = true ↔ CacheOf top name ext f := by
  rw [ere_of h, here_lits]
  constructor
  · rintro ⟨_, rfl, h⟩
    obtain ⟨d, _, rfl, hd, h2⟩ := (here_star ..).mp h
    obtain ⟨_, rfl, h3⟩ := (here_lits ..).mp h2
    obtain ⟨c, _, rfl, _, h4⟩ := (here_one ..).mp h3
    rw [show lits ext = lits ext ++ [] from (List.append_nil _).symm] at h4
    obtain ⟨r, rfl, _⟩ := (here_lits ..).mp h4
    exact ⟨d, c, r, rfl, fun hc => by simpa [EreAtom.ok] using hd '/' hc⟩
  · rintro ⟨d, c, r, rfl, hd⟩
    refine ⟨_, rfl, (here_star ..).mpr ⟨d, '/' :: (name ++ c :: (ext ++ r)), rfl, ?_, (here_lits ..).mpr ⟨c :: (ext ++ r), rfl, (here_one ..).mpr ⟨c, ext ++ r, rfl, rfl, ?_⟩⟩⟩⟩
    · intro x hx
      simp only [EreAtom.ok, bne_iff_ne, ne_eq]
      rintro rfl
      exact hd hx
    · rw [show lits ext = lits ext ++ [] from (List.append_nil _).symm]
      exact (here_lits ..).mpr ⟨r, rfl, here_nil r⟩

theorem shI1 (f : Str) : ere "^usr/share/info/dir".toList f = true ↔ "usr/share/info/dir".toList <+: f := ere_begins (by decide) f
theorem shI2 (f : Str) : ere "perllocal.pod$".toList f = true ↔ ∃ a c, f = a ++ ("perllocal".toList ++ c :: "pod".toList) := by
  have h : ereCompile "perllocal.pod$".toList = some ⟨false, lits "perllocal".toList ++ (.any, false) :: lits "pod".toList, true⟩ := by decide
  have e : ere "perllocal.pod$".toList f = ereStar .any (ereHere true (lits "perllocal".toList ++ (.any, false) :: lits "pod".toList)) f := by
    unfold ere; rw [h]; rfl
  rw [e, star_iff]
  constructor
  · rintro ⟨a, _, rfl, _, h2⟩
    obtain ⟨_, rfl, h3⟩ := (here_lits ..).mp h2
    obtain ⟨c, _, rfl, _, h4⟩ := (here_one ..).mp h3
    rw [show lits "pod".toList = lits "pod".toList ++ [] from (List.append_nil _).symm] at h4
    obtain ⟨r, rfl, h5⟩ := (here_lits ..).mp h4
    rw [(here_end r).mp h5, List.append_nil]
    exact ⟨a, c, rfl⟩
  · rintro ⟨a, c, rfl⟩
    refine ⟨a, _, rfl, fun _ _ => rfl, (here_lits ..).mpr ⟨c :: "pod".toList, rfl, (here_one ..).mpr ⟨c, "pod".toList, rfl, rfl, ?_⟩⟩⟩
    rw [show lits "pod".toList = lits "pod".toList ++ [] from (List.append_nil _).symm]
    exact (here_lits ..).mpr ⟨[], by simp, (here_end _).mpr rfl⟩
theorem shI3 (f : Str) : ere "^usr/share/icons/[^/]*/icon-theme.cache".toList f = true ↔ CacheOf "usr/share/icons/".toList "icon-theme".toList "cache".toList f := cache_iff (by decide) f
theorem shI4 (f : Str) : ere "^usr/share/fonts/[^/]*/fonts.scale".toList f = true ↔ CacheOf "usr/share/fonts/".toList "fonts".toList "scale".toList f := cache_iff (by decide) f
theorem shI5 (f : Str) : ere "^usr/share/fonts/[^/]*/fonts.dir".toList f = true ↔ CacheOf "usr/share/fonts/".toList "fonts".toList "dir".toList f := cache_iff (by decide) f

theorem keptOf_no (rx : Matcher) (f : Str) (l : List Rule) (h : ∀ r ∈ l, r.action = false) : keptOf rx f l = true ↔ ∃ r ∈ l, rx r.pattern f = true := by
  induction l with
  | nil => simp [keptOf]
  | cons r l ih =>
    by_cases hr : rx r.pattern f = true
    · simp [keptOf, hr, h r (by simp)]
    · simp only [keptOf, hr]
      rw [if_neg (by simp), ih (fun x hx => h x (by simp [hx]))]
      simp [hr]

theorem install_rules : (rulesOf shippedRules .INSTALL).reverse = shippedInstall.reverse := by decide +kernel

/-- **C221, exactly.** With the shipped configuration the files left out are exactly those of `LeftOut`. -/
theorem C221_left_out (f : Str) : Excluded ere shippedRules f ↔ LeftOut f := by
  have h0 : Excluded ere shippedRules f ↔ keptOf ere f shippedInstall.reverse = true := by
    rw [← keptOf_iff, ← install_rules]
    unfold Excluded
    exact exists_congr fun r => and_congr_left fun _ => (lastApplying_some ..).symm
  rw [h0, keptOf_no _ _ _ (by decide)]
  unfold LeftOut
  rw [← shI1 f, ← shI2 f, ← shI3 f, ← shI4 f, ← shI5 f]
  simp only [List.mem_reverse, shippedInstall, List.exists_mem_cons_iff, List.not_mem_nil, false_and, exists_false, or_false]

/-- **C221**, the effect: after a success with the shipped file a package owns exactly the files of its list that are not left out. -/
theorem C221_recorded (env : Env) (hrx : env.rx = ere) (opts : Opts) (a : Archive) (s : Sys) (hw : WF s.disk)
    (hok : (pkgaddConf env (some shippedConf) opts a s).2 = none) (f : Str) :
    Owns (pkgaddConf env (some shippedConf) opts a s).1.disk a.name f ↔ f ∈ a.mtree ∧ f.head? ≠ some '.' ∧ ¬ LeftOut f := by
  unfold pkgaddConf at hok ⊢
  rw [C220_read] at hok ⊢
  have hok' : (pkgadd env shippedRules opts a s).2 = none := Option.map_eq_none_iff.mp hok
  have := C07_recorded_iff_not_excluded env shippedRules opts a s hw hok' f
  rw [← C221_left_out f]
  rw [hrx] at this
  exact this

/-- A file of a package that an index of the system is made of is left out: right for the index `dir`, the caches and `perllocal.pod`. -/
example : LeftOut "usr/share/info/dir".toList ∧ LeftOut "usr/share/icons/hicolor/icon-theme.cache".toList ∧ LeftOut "usr/lib/perl5/perllocal.pod".toList :=
  ⟨Or.inl (by decide), Or.inr (Or.inr (Or.inl ⟨"hicolor".toList, '.', [], by decide, by decide⟩)), Or.inr (Or.inl ⟨"usr/lib/perl5/".toList, '.', by decide⟩)⟩

/-- But a manual whose name only begins like the index is left out as well: `dired-x.info` of emacs. -/
theorem C221_counterexample : LeftOut "usr/share/info/dired-x.info".toList ∧ "usr/share/info/dired-x.info".toList ≠ "usr/share/info/dir".toList :=
  ⟨Or.inl (by decide), by decide⟩

/-! ## C222: the triggers -/

/-- What every text an expression matches begins with. -/
def ereHead : List (EreAtom × Bool) → Str
  | (.chr c, false) :: is => c :: ereHead is
  | _ => []

theorem here_head (e : Bool) (is : List (EreAtom × Bool)) (s : Str) (h : ereHere e is s = true) : ereHead is <+: s := by
  induction is generalizing s with
  | nil => exact List.nil_prefix
  | cons i is ih =>
    obtain ⟨a, b⟩ := i
    cases b with
    | true => cases a <;> exact List.nil_prefix
    | false =>
      obtain ⟨c, r, rfl, hc, hr⟩ := (here_one ..).mp h
      cases a with
      | chr d =>
        simp only [EreAtom.ok, decide_eq_true_eq] at hc
        subst hc
        exact List.cons_prefix_cons.mpr ⟨rfl, ih r hr⟩
      | any => exact List.nil_prefix
      | word => exact List.nil_prefix
      | notSlash => exact List.nil_prefix

/-- The expression matches one text only. -/
def ereOnly (r : Ere) : Bool := r.bol && r.eol && decide (lits (ereHead r.items) = r.items)

/-- Two expressions that match no common text, as far as it is seen from their beginnings. -/
def apartB (p q : Str) : Bool :=
  match ereCompile p, ereCompile q with
  | some r, some t => r.bol && t.bol &&
      ((!(ereHead r.items).isPrefixOf (ereHead t.items) && !(ereHead t.items).isPrefixOf (ereHead r.items)) ||
        (ereOnly r && !ere q (ereHead r.items)) || (ereOnly t && !ere p (ereHead t.items)))
  | _, _ => false

theorem only_iff {p : Str} {r : Ere} (hc : ereCompile p = some r) (h : ereOnly r = true) {f : Str} (hm : ere p f = true) : f = ereHead r.items := by
  simp only [ereOnly, Bool.and_eq_true, decide_eq_true_eq] at h
  obtain ⟨⟨h1, h2⟩, h3⟩ := h
  obtain ⟨b, is, e⟩ := r
  simp only at h1 h2 h3
  subst h1; subst h2
  exact (ere_is (l := ereHead is) (by rw [h3]; exact hc) f).mp hm

theorem head_of {p : Str} {r : Ere} (hc : ereCompile p = some r) (hb : r.bol = true) {f : Str} (hm : ere p f = true) : ereHead r.items <+: f := by
  obtain ⟨b, is, e⟩ := r
  simp only at hb
  subst hb
  rw [ere_of hc] at hm
  exact here_head _ _ _ hm

theorem eres_apart {p q f : Str} (h : apartB p q = true) (hp : ere p f = true) (hq : ere q f = true) : False := by
  unfold apartB at h
  revert h
  split
  · rename_i r t hr ht
    intro h
    simp only [Bool.and_eq_true, Bool.or_eq_true, Bool.not_eq_true'] at h
    obtain ⟨⟨h1, h2⟩, (⟨h3, h4⟩ | ⟨h3, h4⟩) | ⟨h3, h4⟩⟩ := h
    · exact clash (head_of hr h1 hp) (head_of ht h2 hq) h3 h4
    · rw [← only_iff hr h3 hp, hq] at h4; cases h4
    · rw [← only_iff ht h3 hq, hp] at h4; cases h4
  · intro h; cases h

theorem post_apart : ∀ r ∈ shippedPost, ∀ t ∈ shippedPost, r.event ≠ t.event → apartB r.pattern t.pattern = true := by decide +kernel

theorem post_rules : postRulesOf shippedRules = shippedPost := by decide +kernel

theorem post_yes : ∀ r ∈ shippedPost, r.action = true := by decide

theorem split_last (rx : Matcher) (f : Str) (l : List Rule) (h : ∃ r ∈ l, rx r.pattern f = true) :
    ∃ a r b, l = a ++ r :: b ∧ (∀ x ∈ a, rx x.pattern f = false) ∧ rx r.pattern f = true := by
  induction l with
  | nil => simp at h
  | cons x l ih =>
    by_cases hx : rx x.pattern f = true
    · exact ⟨[], x, l, rfl, by simp, hx⟩
    · obtain ⟨r, hr, hm⟩ := h
      rcases List.mem_cons.mp hr with rfl | hr
      · exact absurd hm hx
      · obtain ⟨a, r, b, rfl, h1, h2⟩ := ih ⟨r, hr, hm⟩
        refine ⟨x :: a, r, b, rfl, ?_, h2⟩
        intro y hy
        rcases List.mem_cons.mp hy with rfl | hy
        · simpa using hx
        · exact h1 y hy

theorem entry_matched (f : Str) (r : Rule) (hr : r ∈ shippedPost) (hm : ere r.pattern f = true) :
    postEntry ere shippedRules f = some (if r.event = .LDCONF then [] else f, r.event) := by
  unfold postEntry
  rw [post_rules]
  obtain ⟨a, t, b, h1, h2, h3⟩ := split_last ere f shippedPost.reverse ⟨r, List.mem_reverse.mpr hr, hm⟩
  have ht : t ∈ shippedPost := List.mem_reverse.mp (h1 ▸ by simp)
  have he : t.event = r.event := by
    apply Classical.byContradiction
    intro hne
    exact eres_apart (post_apart t ht r hr hne) h3 hm
  rw [h1, postScan_some ere f a t b _ _ h2 h3, post_yes t ht, he]
  rfl

theorem entry_unmatched (f : Str) (h : ∀ r ∈ shippedPost, ere r.pattern f = false) :
    postEntry ere shippedRules f = if installFile ere shippedRules f then some ([], .LDCONF) else none := by
  unfold postEntry
  rw [post_rules, postScan_none ere f _ _ _ (fun r hr => h r (List.mem_reverse.mp hr))]
  have : (shippedPost.reverse.getLast?.map (·.event)).getD .LDCONF = .LDCONF := by decide
  simp only [this]
  rfl

/-- **C222, the programs for files.** With the shipped configuration a program other than ldconfig is asked for, for a file, exactly when the package has the file and a line of the shipped file names its event and matches it. -/
theorem C222_exact (files : List Str) (g : Str) (ev : Event) (hev : ev ≠ .LDCONF) :
    (g, ev) ∈ postInstallList ere shippedRules files ↔ g ∈ files ∧ ∃ r ∈ shippedPost, r.event = ev ∧ ere r.pattern g = true := by
  rw [C43_list]
  constructor
  · rintro ⟨f, hf, h⟩
    by_cases hm : ∃ r ∈ shippedPost, ere r.pattern f = true
    · obtain ⟨r, hr, hm⟩ := hm
      rw [entry_matched f r hr hm] at h
      injection h with h
      injection h with h1 h2
      rw [if_neg (h2 ▸ hev)] at h1
      subst h1
      exact ⟨hf, r, hr, h2, hm⟩
    · rw [entry_unmatched f (fun r hr => by simpa using fun hc => hm ⟨r, hr, hc⟩)] at h
      split at h
      · injection h with h; injection h with _ h2; exact absurd h2.symm hev
      · cases h
  · rintro ⟨hf, r, hr, he, hm⟩
    refine ⟨g, hf, ?_⟩
    rw [entry_matched g r hr hm, he, if_neg hev]

/-- **C222, ldconfig.** It is run exactly when a file of the package is a directory of libraries or configures them, or no line for a program matches a file that is not left out: for nearly every package. -/
theorem C222_ldconfig (files : List Str) :
    ([], .LDCONF) ∈ postInstallList ere shippedRules files ↔
      ∃ f ∈ files, (∃ r ∈ shippedPost, r.event = .LDCONF ∧ ere r.pattern f = true) ∨ ((∀ r ∈ shippedPost, ere r.pattern f = false) ∧ ¬ LeftOut f) := by
  have hinst : ∀ f, installFile ere shippedRules f = true ↔ ¬ LeftOut f := by
    intro f
    rw [← C221_left_out]
    have h1 := (C31_install_decision ere [f] shippedRules f).1
    have h2 := (C31_install_decision ere [f] shippedRules f).2
    have hx : f ∈ (applyInstallRules ere [f] shippedRules).1 ↔ installFile ere shippedRules f = true := by
      simp only [applyInstallRules, List.foldl_cons, List.foldl_nil]
      cases installFile ere shippedRules f <;> simp [sinsert]
    have hy : f ∈ (applyInstallRules ere [f] shippedRules).2 ↔ ¬ installFile ere shippedRules f = true := by
      simp only [applyInstallRules, List.foldl_cons, List.foldl_nil]
      cases installFile ere shippedRules f <;> simp [sinsert]
    unfold Excluded
    rw [hy] at h2
    simp only [List.mem_singleton, true_and] at h2
    exact not_iff_comm.mp h2 |>.symm
  rw [C43_list]
  refine exists_congr fun f => and_congr_right fun _ => ?_
  by_cases hm : ∃ r ∈ shippedPost, ere r.pattern f = true
  · obtain ⟨r, hr, hm⟩ := hm
    rw [entry_matched f r hr hm]
    constructor
    · intro h
      injection h with h; injection h with _ h2
      exact Or.inl ⟨r, hr, h2, hm⟩
    · rintro (⟨t, ht, he, htm⟩ | ⟨h, _⟩)
      · have : r.event = .LDCONF := by
          apply Classical.byContradiction
          intro hne
          exact eres_apart (post_apart r hr t ht (he ▸ hne)) hm htm
        rw [this]; rfl
      · rw [h r hr] at hm; cases hm
  · have hno : ∀ r ∈ shippedPost, ere r.pattern f = false := fun r hr => by simpa using fun hc => hm ⟨r, hr, hc⟩
    rw [entry_unmatched f hno]
    constructor
    · intro h
      split at h
      · rename_i hi; exact Or.inr ⟨hno, (hinst f).mp hi⟩
      · cases h
    · rintro (⟨t, ht, _, htm⟩ | ⟨_, h⟩)
      · exact absurd ⟨t, ht, htm⟩ hm
      · rw [if_pos ((hinst f).mpr h)]

/-- Of the icons: the program is asked for exactly the directories of themes the package has. -/
theorem C222_icons (files : List Str) (g : Str) :
    (g, .ICONS) ∈ postInstallList ere shippedRules files ↔ g ∈ files ∧ ∃ d, '/' ∉ d ∧ g = "usr/share/icons/".toList ++ (d ++ ['/']) := by
  rw [C222_exact files g .ICONS (by decide)]
  refine and_congr_right fun _ => ?_
  have hp : ∀ f, ere "^usr/share/icons/[^/]*/$".toList f = true ↔ ∃ d, '/' ∉ d ∧ f = "usr/share/icons/".toList ++ (d ++ ['/']) := by
    intro f
    rw [ere_of (is := lits "usr/share/icons/".toList ++ (.notSlash, true) :: (lits ['/'] ++ [])) (e := true) (by decide), here_lits]
    constructor
    · rintro ⟨_, rfl, h⟩
      obtain ⟨d, _, rfl, hd, h2⟩ := (here_star ..).mp h
      obtain ⟨r, rfl, h3⟩ := (here_lits ..).mp h2
      rw [(here_end r).mp h3, List.append_nil]
      exact ⟨d, fun hc => by simpa [EreAtom.ok] using hd '/' hc, rfl⟩
    · rintro ⟨d, hd, rfl⟩
      refine ⟨_, rfl, (here_star ..).mpr ⟨d, ['/'], rfl, ?_, (here_lits ..).mpr ⟨[], rfl, (here_end _).mpr rfl⟩⟩⟩
      intro x hx
      simp only [EreAtom.ok, bne_iff_ne, ne_eq]
      rintro rfl
      exact hd hx
  rw [← hp g]
  constructor
  · rintro ⟨r, hr, he, hm⟩
    have : ∀ r ∈ shippedPost, r.event = .ICONS → r.pattern = "^usr/share/icons/[^/]*/$".toList := by decide +kernel
    rw [this r hr he] at hm
    exact hm
  · intro h
    exact ⟨⟨.ICONS, "^usr/share/icons/[^/]*/$".toList, true⟩, by decide +kernel, rfl, h⟩

example : ("usr/share/icons/hicolor/".toList, Event.ICONS) ∈ postInstallList ere shippedRules ["usr/bin/x".toList, "usr/share/icons/hicolor/".toList] ∧
    ([], Event.LDCONF) ∈ postInstallList ere shippedRules ["usr/bin/x".toList, "usr/share/icons/hicolor/".toList] := by
  rw [C222_icons, C222_ldconfig]
  refine ⟨⟨by decide, "hicolor".toList, by decide, by decide⟩, "usr/bin/x".toList, by decide, Or.inr ⟨by decide +kernel, ?_⟩⟩
  rw [← C221_left_out]
  intro h
  have h0 := (C31_install_decision ere ["usr/bin/x".toList] shippedRules "usr/bin/x".toList).2.mpr ⟨by decide, h⟩
  revert h0
  decide +kernel

end Cards.Props
