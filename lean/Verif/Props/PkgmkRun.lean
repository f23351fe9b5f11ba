import Mathlib.Tactic.Common
import Verif.Model.PkgmkRun
import Verif.Props.PkgmkNames
/-!
# C97, C100: the status of pkgmk; C98: when a package is built again
-/
namespace Cards.Props
open Cards

/-- The steps whose failure must be the failure of `pkgmk`, and is. -/
def Noticed (r : MkRun) (s : MkStep) : Prop :=
  s ∈ [MkStep.source, .unpack, .prepare, .build, .package, .groupFn, .groupTar, .files, .found, .deps, .install] ∨ (s = .footprint ∧ r.ignoreNew = false)

/-- No step that must be noticed has failed. -/
def AllWell (r : MkRun) (t : MkTrace) : Prop := ∀ s, Noticed r s → (s, false) ∉ t

/-- The steps that may come after such a failure: the other directories of the same group, the other packages' lists of files. -/
def MayFollow (s : MkStep) : Prop := s = .groupTar ∨ s = .footprint

/-- Nothing else is done after a failure. -/
def StopsThere (r : MkRun) (t : MkTrace) : Prop := ∀ a s ok b, t = a ++ (s, ok) :: b → ¬ MayFollow s → AllWell r a

/-- The run goes on, or ends as a success. -/
def GoesOn (c : Option Nat) : Prop := c = none ∨ c = some 0

/-- A part of the script notices the failures. -/
def Notices (r : MkRun) (p : MkProg) : Prop :=
  ∀ t, AllWell r t → StopsThere r t → StopsThere r (p t).1 ∧ (GoesOn (p t).2 → AllWell r (p t).1)

theorem notices_skip (r : MkRun) : Notices r .skip := fun _ h1 h2 => ⟨h2, fun _ => h1⟩

theorem notices_then {r : MkRun} {p q : MkProg} (hp : Notices r p) (hq : Notices r q) : Notices r (p.then q) := by
  intro t h1 h2
  obtain ⟨a1, a2⟩ := hp t h1 h2
  unfold MkProg.then
  split
  · rename_i t' e
    rw [e] at a1 a2
    exact hq t' (a2 (Or.inl rfl)) a1
  · exact ⟨a1, a2⟩

theorem notices_each {α : Type} {r : MkRun} {f : α → MkProg} (h : ∀ x, Notices r (f x)) : ∀ xs, Notices r (mkEach f xs)
  | [] => notices_skip r
  | x :: xs => notices_then (h x) (notices_each h xs)

theorem allWell_snoc {r : MkRun} {t : MkTrace} {s : MkStep} {ok : Bool} (h : AllWell r t) (hs : ok = true ∨ ¬ Noticed r s) : AllWell r (t ++ [(s, ok)]) := by
  intro s' hn hm
  rcases List.mem_append.mp hm with hm | hm
  · exact h s' hn hm
  · rw [List.mem_singleton, Prod.mk.injEq] at hm
    obtain ⟨rfl, rfl⟩ := hm
    rcases hs with hs | hs
    · cases hs
    · exact hs hn

theorem stops_snoc {r : MkRun} {t : MkTrace} {s : MkStep} {ok : Bool} (h : StopsThere r t) (hs : AllWell r t ∨ MayFollow s) : StopsThere r (t ++ [(s, ok)]) := by
  intro a s' ok' b e hm
  rcases List.eq_nil_or_concat b with rfl | ⟨b', x, rfl⟩
  · obtain ⟨rfl, e2⟩ := List.append_inj' e rfl
    cases e2
    rcases hs with hs | hs
    · exact hs
    · exact absurd hs hm
  · have e' : t ++ [(s, ok)] = (a ++ (s', ok') :: b') ++ [x] := by rw [e]; simp
    obtain ⟨rfl, _⟩ := List.append_inj' e' rfl
    exact h a s' ok' b' rfl hm

theorem notices_must {r : MkRun} {s : MkStep} {code : Nat} (hc : code ≠ 0 ∨ ¬ Noticed r s) (ok : Bool) : Notices r (mkMust s code ok) := by
  intro t h1 h2
  refine ⟨stops_snoc h2 (Or.inl h1), fun hf => allWell_snoc h1 ?_⟩
  rcases hc with hc | hc
  · left
    cases ok with
    | true => rfl
    | false =>
      rcases hf with hf | hf
      · cases hf
      · exact absurd (Option.some.inj hf) hc
  · exact Or.inr hc

theorem notices_note {r : MkRun} {s : MkStep} (hc : ¬ Noticed r s) (ok : Bool) : Notices r (mkNote s ok) :=
  fun _ h1 h2 => ⟨stops_snoc h2 (Or.inl h1), fun _ => allWell_snoc h1 (Or.inr hc)⟩

theorem eachNote_trace (s : MkStep) : ∀ (oks : List Bool) (t : MkTrace), mkEach (mkNote s) oks t = (t ++ oks.map (s, ·), none)
  | [], t => by simp [mkEach, MkProg.skip]
  | ok :: oks, t => by
    rw [mkEach, MkProg.then]
    simp only [mkNote]
    rw [eachNote_trace s oks]
    simp

/-- All of them are run; a failure is seen afterwards. -/
theorem notices_batch {r : MkRun} {s : MkStep} {code : Nat} {c : Bool} (oks : List Bool) (hs : MayFollow s) (hc : code ≠ 0) (h : Noticed r s → c = oks.any (!·)) :
    Notices r ((mkEach (mkNote s) oks).then (mkExitIf c code)) := by
  intro t h1 h2
  rw [MkProg.then, eachNote_trace]
  simp only [mkExitIf]
  have hst : ∀ (l : List Bool) (u : MkTrace), StopsThere r u → StopsThere r (u ++ l.map (s, ·)) := by
    intro l
    induction l with
    | nil => intro u hu; simpa using hu
    | cons x l ih =>
      intro u hu
      have := ih (u ++ [(s, x)]) (stops_snoc hu (Or.inr hs))
      simpa using this
  refine ⟨hst oks t h2, fun hf => ?_⟩
  intro s' hn hm
  rcases List.mem_append.mp hm with hm | hm
  · exact h1 s' hn hm
  · obtain ⟨x, hx, e⟩ := List.mem_map.mp hm
    rw [Prod.mk.injEq] at e
    obtain ⟨rfl, rfl⟩ := e
    have hc' : c = true := by
      rw [h hn, List.any_eq_true]
      exact ⟨false, hx, rfl⟩
    rw [hc', if_pos rfl] at hf
    rcases hf with hf | hf
    · cases hf
    · exact hc (Option.some.inj hf)

theorem not_noticed {r : MkRun} {s : MkStep} (h : s ∉ [MkStep.source, .unpack, .prepare, .build, .package, .groupFn, .groupTar, .files, .found, .deps, .install, .footprint]) :
    ¬ Noticed r s := by
  rintro (hn | ⟨rfl, _⟩)
  · exact h (by simp only [List.mem_cons, List.not_mem_nil, or_false] at hn ⊢; tauto)
  · exact h (by decide)

theorem notices_group (r : MkRun) (p : MkPart) : Notices r (mkGroup p) := by
  cases p with
  | fn ok => exact notices_must (Or.inl (by decide)) ok
  | tars oks => exact notices_batch oks (Or.inl rfl) (by decide) fun _ => rfl

theorem notices_locale (r : MkRun) (p : MkPart) : Notices r (mkLocale p) := by
  cases p with
  | fn ok => exact notices_note (not_noticed (by decide)) ok
  | tars oks => exact notices_each (fun ok => notices_must (Or.inr (not_noticed (by decide))) ok) oks

theorem notices_footprints (r : MkRun) : Notices r (mkFootprints r) := by
  unfold mkFootprints
  split
  · exact notices_skip r
  · refine notices_batch _ (Or.inr rfl) (by decide) ?_
    rintro (h | ⟨_, h⟩)
    · exact absurd h (by decide)
    · simp [h]

theorem notices_optional (r : MkRun) {s : MkStep} (o : Option Bool) : Notices r (mkOptional s o) := by
  cases o with
  | none => exact notices_skip r
  | some ok => exact notices_must (Or.inl (by decide)) ok

theorem notices_build (r : MkRun) : Notices r (mkBuild r) := by
  unfold mkBuild
  refine notices_then (notices_each (fun ok => notices_must (Or.inl (by decide)) ok) _) ?_
  refine notices_then ?_ ?_
  · split
    · exact notices_skip r
    · refine notices_then (notices_each (fun ok => notices_must (Or.inl (by decide)) ok) _) ?_
      refine notices_then (notices_optional r _) ?_
      exact notices_then (notices_must (Or.inl (by decide)) _) (notices_optional r _)
  · refine notices_then (notices_note (not_noticed (by decide)) _) ?_
    refine notices_then (notices_each (notices_group r) _) ?_
    refine notices_then (notices_each (notices_locale r) _) ?_
    refine notices_then (notices_must (Or.inr (not_noticed (by decide))) _) ?_
    refine notices_then (notices_must (Or.inl (by decide)) _) ?_
    refine notices_then (notices_note (not_noticed (by decide)) _) ?_
    refine notices_then (notices_footprints r) ?_
    refine notices_then (notices_must (Or.inl (by decide)) _) ?_
    exact notices_each (fun m => notices_then (notices_must (Or.inl (by decide)) _) (notices_note (not_noticed (by decide)) _)) _

theorem notices_main (r : MkRun) : Notices r (mkMain r) := by
  unfold mkMain
  refine notices_then ?_ (notices_then ?_ (notices_then ?_ ?_))
  · split
    · exact notices_build r
    · exact notices_skip r
  · split
    · exact notices_each (fun ok => notices_must (Or.inl (by decide)) ok) _
    · exact notices_skip r
  · split
    · exact notices_each (fun ok => notices_note (not_noticed (by decide)) ok) _
    · exact notices_skip r
  · split
    · exact notices_skip r
    · exact notices_note (not_noticed (by decide)) _

/-- **C97**: if a source cannot be had or unpacked, a function of the Pkgfile (but that of a language) or the packing of a group fails, nothing is left for the main
package, a dependency is not there, an installation fails, or a list of files has changed (and new files are not ignored), then `pkgmk` fails. -/
theorem C97_failure_seen (r : MkRun) (s : MkStep) (hs : Noticed r s) (h : (s, false) ∈ (pkgmkRun r).1) : (pkgmkRun r).2 ≠ 0 := by
  obtain ⟨_, h2⟩ := notices_main r [] (by intro s _ h; cases h) (by intro a s ok b e; simp at e)
  unfold pkgmkRun at h ⊢
  generalize mkMain r [] = x at h h2
  obtain ⟨t, c⟩ := x
  intro e
  refine h2 ?_ s hs h
  cases c with
  | none => exact Or.inl rfl
  | some c => exact Or.inr (congrArg some e)

/-- **C97**: after such a failure nothing else is done: no package is removed, made, installed, compressed or listed in the repository. Only the other directories of
the same group are packed, and the lists of the other packages compared. -/
theorem C97_stops (r : MkRun) (s : MkStep) (hs : Noticed r s) (a b : MkTrace) (h : (pkgmkRun r).1 = a ++ (s, false) :: b) : ∀ x ∈ b, MayFollow x.1 := by
  obtain ⟨h1, _⟩ := notices_main r [] (by intro s _ h; cases h) (by intro a s ok b e; simp at e)
  unfold pkgmkRun at h
  generalize mkMain r [] = x at h h1
  obtain ⟨t, c⟩ := x
  simp only at h h1
  intro x hx
  by_contra hm
  obtain ⟨b1, b2, rfl⟩ := List.append_of_mem hx
  refine h1 (a ++ (s, false) :: b1) x.1 x.2 b2 (by rw [h]; simp) hm s hs ?_
  simp

/-! ## Nothing is left out -/

/-- What a group is to do. -/
def planGroup : MkPart → MkTrace
  | .fn ok => [(.groupFn, ok)]
  | .tars oks => oks.map ((.groupTar, ·))

/-- What a language is to do. -/
def planLocale : MkPart → MkTrace
  | .fn ok => [(.localeFn, ok)]
  | .tars oks => oks.map ((.localeTar, ·))

/-- What a build is to do, and how it goes. -/
def planBuild (r : MkRun) : MkTrace :=
  r.sources.map ((.source, ·)) ++
  (if r.packOnly then [] else r.unpack.map ((.unpack, ·)) ++ r.prepare.toList.map ((.prepare, ·)) ++ [(.build, r.build)] ++ r.package.toList.map ((.package, ·))) ++
  [(.clear, true)] ++ r.groups.flatMap planGroup ++ r.locales.flatMap planLocale ++
  [(.noSbin, r.noSbin), (.files, r.files), (.mainTar, r.mainTar)] ++
  (if r.ignoreFootprint || !r.mainTar then [] else r.footprints.map ((.footprint, ·))) ++
  [(.found, r.found)] ++ r.metas.flatMap (fun m => [(.deps, m.1), (.repack, m.2)])

/-- What a run is to do, and how it goes. -/
def plan (r : MkRun) : MkTrace :=
  (if r.needed then planBuild r else []) ++ (if r.doInstall then r.installs.map ((.install, ·)) else []) ++
  (if r.doCompress then r.compresses.map ((.compress, ·)) else []) ++ (if r.ignoreRepo then [] else [(.repo, r.repo)])

/-- A part of the script ends the run with a failure only when one was seen. -/
def Blames (r : MkRun) (p : MkProg) : Prop := ∀ t c, (p t).2 = some (c + 1) → ∃ s, Noticed r s ∧ (s, false) ∈ (p t).1

theorem blames_skip (r : MkRun) : Blames r .skip := fun _ _ h => nomatch h

theorem blames_then {r : MkRun} {p q : MkProg} (hp : Blames r p) (hq : Blames r q) : Blames r (p.then q) := by
  intro t c h
  unfold MkProg.then at h ⊢
  split at h
  · exact hq _ c h
  · exact hp t c h

theorem blames_each {α : Type} {r : MkRun} {f : α → MkProg} (h : ∀ x, Blames r (f x)) : ∀ xs, Blames r (mkEach f xs)
  | [] => blames_skip r
  | x :: xs => blames_then (h x) (blames_each h xs)

theorem blames_note (r : MkRun) (s : MkStep) (ok : Bool) : Blames r (mkNote s ok) := fun _ _ h => nomatch h

theorem blames_must {r : MkRun} {s : MkStep} {code : Nat} (hc : code = 0 ∨ Noticed r s) (ok : Bool) : Blames r (mkMust s code ok) := by
  intro t c h
  cases ok with
  | true => cases h
  | false =>
    rcases hc with rfl | hc
    · cases h
    · exact ⟨s, hc, by simp [mkMust]⟩

theorem blames_batch {r : MkRun} {s : MkStep} {code : Nat} {c : Bool} (oks : List Bool) (h : c = true → Noticed r s ∧ false ∈ oks) :
    Blames r ((mkEach (mkNote s) oks).then (mkExitIf c code)) := by
  intro t k hk
  rw [MkProg.then, eachNote_trace] at hk ⊢
  cases c with
  | false => cases hk
  | true =>
    obtain ⟨h1, h2⟩ := h rfl
    exact ⟨s, h1, List.mem_append_right _ (List.mem_map.mpr ⟨false, h2, rfl⟩)⟩

theorem any_false {oks : List Bool} (h : oks.any (!·) = true) : false ∈ oks := by
  obtain ⟨x, hx, hn⟩ := List.any_eq_true.mp h
  cases x with
  | true => cases hn
  | false => exact hx

theorem blames_main (r : MkRun) : Blames r (mkMain r) := by
  have hn : ∀ {s : MkStep}, s ∈ [MkStep.source, .unpack, .prepare, .build, .package, .groupFn, .groupTar, .files, .found, .deps, .install] → Noticed r s := fun h => Or.inl h
  have hopt : ∀ {s : MkStep} (o : Option Bool), Noticed r s → Blames r (mkOptional s o) := by
    intro s o h
    cases o with
    | none => exact blames_skip r
    | some ok => exact blames_must (Or.inr h) ok
  have hgroup : ∀ p, Blames r (mkGroup p) := by
    intro p
    cases p with
    | fn ok => exact blames_must (Or.inr (hn (by decide))) ok
    | tars oks => exact blames_batch oks fun h => ⟨hn (by decide), any_false h⟩
  have hlocale : ∀ p, Blames r (mkLocale p) := by
    intro p
    cases p with
    | fn ok => exact blames_note r _ ok
    | tars oks => exact blames_each (fun ok => blames_must (Or.inl rfl) ok) oks
  have hfoot : Blames r (mkFootprints r) := by
    unfold mkFootprints
    split
    · exact blames_skip r
    · refine blames_batch _ fun h => ?_
      rw [Bool.and_eq_true, Bool.not_eq_true'] at h
      exact ⟨Or.inr ⟨rfl, h.1⟩, any_false h.2⟩
  have hbuild : Blames r (mkBuild r) := by
    unfold mkBuild
    refine blames_then (blames_each (fun ok => blames_must (Or.inr (hn (by decide))) ok) _) (blames_then ?_ ?_)
    · split
      · exact blames_skip r
      · exact blames_then (blames_each (fun ok => blames_must (Or.inr (hn (by decide))) ok) _) (blames_then (hopt _ (hn (by decide)))
          (blames_then (blames_must (Or.inr (hn (by decide))) _) (hopt _ (hn (by decide)))))
    · refine blames_then (blames_note r _ _) (blames_then (blames_each hgroup _) (blames_then (blames_each hlocale _) (blames_then (blames_must (Or.inl rfl) _) ?_)))
      refine blames_then (blames_must (Or.inr (hn (by decide))) _) (blames_then (blames_note r _ _) (blames_then hfoot (blames_then (blames_must (Or.inr (hn (by decide))) _) ?_)))
      exact blames_each (fun m => blames_then (blames_must (Or.inr (hn (by decide))) _) (blames_note r _ _)) _
  unfold mkMain
  refine blames_then ?_ (blames_then ?_ (blames_then ?_ ?_))
  · split
    · exact hbuild
    · exact blames_skip r
  · split
    · exact blames_each (fun ok => blames_must (Or.inr (hn (by decide))) ok) _
    · exact blames_skip r
  · split
    · exact blames_each (fun ok => blames_note r _ ok) _
    · exact blames_skip r
  · split
    · exact blames_skip r
    · exact blames_note r _ _

theorem zero_or_seen (r : MkRun) (h : ∀ s, Noticed r s → (s, false) ∉ (pkgmkRun r).1) : (pkgmkRun r).2 = 0 := by
  have hb := blames_main r []
  unfold pkgmkRun at h ⊢
  generalize mkMain r [] = x at h hb
  obtain ⟨t, c⟩ := x
  simp only at h hb ⊢
  cases c with
  | none => rfl
  | some c =>
    cases c with
    | zero => rfl
    | succ c =>
      obtain ⟨s, h1, h2⟩ := hb c rfl
      exact absurd h2 (h s h1)

/-- The steps whose failure ends the run: those that make it fail, and two that do not. -/
def Ends (r : MkRun) (s : MkStep) : Prop := Noticed r s ∨ s = .localeTar ∨ s = .noSbin

/-- Run from anywhere, the part does what is in `l`: a beginning of it, and all of it unless a step fails that ends the run. -/
def Does (r : MkRun) (p : MkProg) (l : MkTrace) : Prop :=
  ∀ t, ∃ u, (p t).1 = t ++ u ∧ u <+: l ∧ ((p t).2 = none → u = l) ∧ ((∀ x ∈ u, Ends r x.1 → x.2 = true) → (p t).2 = none) ∧
    ((p t).2 = none → ∀ x ∈ u, Ends r x.1 → x.2 = true)

theorem does_skip (r : MkRun) : Does r .skip [] := fun t => ⟨[], by simp [MkProg.skip], List.prefix_refl _, fun _ => rfl, fun _ => rfl, by simp⟩

theorem does_then {r : MkRun} {p q : MkProg} {l m : MkTrace} (hp : Does r p l) (hq : Does r q m) : Does r (p.then q) (l ++ m) := by
  intro t
  obtain ⟨u, h1, h2, h3, h4, h5⟩ := hp t
  unfold MkProg.then
  split
  · rename_i t' e
    rw [e] at h1 h3 h5
    simp only at h1 h3 h5
    have h3 := h3 trivial
    have h5 := h5 trivial
    subst h1 h3
    obtain ⟨w, k1, k2, k3, k4, k5⟩ := hq (t ++ u)
    refine ⟨u ++ w, by rw [k1, List.append_assoc], (List.prefix_append_right_inj _).mpr k2, fun h => by rw [k3 h], fun hw => ?_, fun h x hx => ?_⟩
    · exact k4 fun x hx => hw x (List.mem_append_right _ hx)
    · rcases List.mem_append.mp hx with hx | hx
      · exact h5 x hx
      · exact k5 h x hx
  · rename_i hne
    have hn : (p t).2 ≠ none := fun e1 => hne _ (Prod.ext rfl e1 : p t = ((p t).1, none))
    exact ⟨u, h1, h2.trans (List.prefix_append _ _), fun h => absurd h hn, fun hw => absurd (h4 hw) hn, fun h => absurd h hn⟩

theorem does_must {r : MkRun} {s : MkStep} (hs : Ends r s) (code : Nat) (ok : Bool) : Does r (mkMust s code ok) [(s, ok)] := by
  intro t
  refine ⟨[(s, ok)], rfl, List.prefix_refl _, fun _ => rfl, fun h => if_pos (h _ (List.mem_singleton_self _) hs), fun h x hx _ => ?_⟩
  rw [List.mem_singleton] at hx
  subst hx
  cases ok with
  | true => rfl
  | false => cases h

theorem does_note {r : MkRun} {s : MkStep} (hs : ¬ Ends r s) (ok : Bool) : Does r (mkNote s ok) [(s, ok)] := by
  intro t
  refine ⟨[(s, ok)], rfl, List.prefix_refl _, fun _ => rfl, fun _ => rfl, fun _ x hx he => ?_⟩
  rw [List.mem_singleton] at hx
  subst hx
  exact absurd he hs

theorem does_each {α : Type} {r : MkRun} {f : α → MkProg} {l : α → MkTrace} (h : ∀ x, Does r (f x) (l x)) : ∀ xs, Does r (mkEach f xs) (xs.flatMap l)
  | [] => does_skip r
  | x :: xs => by
    rw [List.flatMap_cons]
    exact does_then (h x) (does_each h xs)

theorem flatMap_one {α β : Type} (f : α → β) (xs : List α) : xs.flatMap (fun x => [f x]) = xs.map f := by
  induction xs with
  | nil => rfl
  | cons x xs ih => rw [List.flatMap_cons, ih]; rfl

theorem does_musts {r : MkRun} {s : MkStep} (hs : Ends r s) (code : Nat) (oks : List Bool) : Does r (mkEach (mkMust s code) oks) (oks.map ((s, ·))) := by
  have := does_each (f := mkMust s code) (fun ok => does_must hs code ok) oks
  rw [flatMap_one] at this
  exact this

theorem does_notes {r : MkRun} {s : MkStep} (hs : ¬ Ends r s) (oks : List Bool) : Does r (mkEach (mkNote s) oks) (oks.map ((s, ·))) := by
  have := does_each (f := mkNote s) (fun ok => does_note hs ok) oks
  rw [flatMap_one] at this
  exact this

theorem any_not {oks : List Bool} : oks.any (!·) = false ↔ ∀ x ∈ oks, x = true := by
  rw [List.any_eq_false]
  simp

theorem does_batch {r : MkRun} {s : MkStep} (oks : List Bool) (c : Bool) (code : Nat) (h : c = false ↔ (Ends r s → ∀ x ∈ oks, x = true)) :
    Does r ((mkEach (mkNote s) oks).then (mkExitIf c code)) (oks.map ((s, ·))) := by
  intro t
  rw [MkProg.then, eachNote_trace]
  refine ⟨oks.map (s, ·), rfl, List.prefix_refl _, fun _ => rfl, fun hw => ?_, fun hn x hx he => ?_⟩
  · have : c = false := h.mpr fun he x hx => hw (s, x) (List.mem_map.mpr ⟨x, hx, rfl⟩) he
    simp [mkExitIf, this]
  · obtain ⟨y, hy, rfl⟩ := List.mem_map.mp hx
    refine h.mp ?_ he y hy
    cases c with
    | false => rfl
    | true => cases hn

theorem ends_of {r : MkRun} {s : MkStep} (h : s ∈ [MkStep.source, .unpack, .prepare, .build, .package, .groupFn, .groupTar, .files, .found, .deps, .install]) : Ends r s :=
  Or.inl (Or.inl h)

theorem not_ends {r : MkRun} {s : MkStep} (h : s ∈ [MkStep.clear, .localeFn, .mainTar, .repack, .compress, .repo]) : ¬ Ends r s := by
  simp only [List.mem_cons, List.not_mem_nil, or_false] at h
  rintro (hn | rfl | rfl)
  · refine not_noticed ?_ hn
    rcases h with rfl | rfl | rfl | rfl | rfl | rfl <;> decide
  · simp at h
  · simp at h

theorem does_optional {r : MkRun} {s : MkStep} (hs : Ends r s) (o : Option Bool) : Does r (mkOptional s o) (o.toList.map ((s, ·))) := by
  cases o with
  | none => exact does_skip r
  | some ok => exact does_must hs 8 ok

theorem does_group (r : MkRun) (p : MkPart) : Does r (mkGroup p) (planGroup p) := by
  cases p with
  | fn ok => exact does_must (ends_of (by decide)) _ ok
  | tars oks =>
    refine does_batch _ _ _ ?_
    rw [any_not]
    exact ⟨fun h _ => h, fun h => h (ends_of (by decide))⟩

theorem does_locale (r : MkRun) (p : MkPart) : Does r (mkLocale p) (planLocale p) := by
  cases p with
  | fn ok => exact does_note (not_ends (by decide)) ok
  | tars oks => exact does_musts (Or.inr (Or.inl rfl)) _ oks

theorem does_footprints (r : MkRun) : Does r (mkFootprints r) (if r.ignoreFootprint || !r.mainTar then [] else r.footprints.map ((.footprint, ·))) := by
  unfold mkFootprints
  split
  · exact does_skip r
  · refine does_batch _ _ _ ?_
    cases hi : r.ignoreNew with
    | true =>
      simp only [Bool.not_true, Bool.false_and, true_iff]
      rintro ((h | ⟨_, h⟩) | h | h)
      · exact absurd h (by decide)
      · rw [hi] at h; cases h
      · cases h
      · cases h
    | false =>
      simp only [Bool.not_false, Bool.true_and]
      rw [any_not]
      exact ⟨fun h _ => h, fun h => h (Or.inl (Or.inr ⟨rfl, hi⟩))⟩

theorem does_build (r : MkRun) : Does r (mkBuild r) (planBuild r) := by
  have key := does_then (does_musts (r := r) (s := .source) (ends_of (by decide)) 4 r.sources) <|
    does_then (p := if r.packOnly then .skip else (mkEach (mkMust .unpack 5) r.unpack).then <| (mkOptional .prepare r.prepare).then <| (mkMust .build 8 r.build).then <| mkOptional .package r.package)
      (l := if r.packOnly then [] else r.unpack.map ((.unpack, ·)) ++ (r.prepare.toList.map ((.prepare, ·)) ++ ([(.build, r.build)] ++ r.package.toList.map ((.package, ·)))))
      (by
        split
        · exact does_skip r
        · exact does_then (does_musts (ends_of (by decide)) _ _) (does_then (does_optional (ends_of (by decide)) _)
            (does_then (does_must (ends_of (by decide)) _ _) (does_optional (ends_of (by decide)) _)))) <|
    does_then (does_note (s := .clear) (not_ends (by decide)) true) <|
    does_then (does_each (does_group r) r.groups) <|
    does_then (does_each (does_locale r) r.locales) <|
    does_then (does_must (s := .noSbin) (Or.inr (Or.inr rfl)) 0 r.noSbin) <|
    does_then (does_must (s := .files) (ends_of (by decide)) 8 r.files) <|
    does_then (does_note (s := .mainTar) (not_ends (by decide)) r.mainTar) <|
    does_then (does_footprints r) <|
    does_then (does_must (s := .found) (ends_of (by decide)) 8 r.found) <|
    does_each (fun m : Bool × Bool => does_then (does_must (s := .deps) (ends_of (by decide)) 10 m.1) (does_note (s := .repack) (not_ends (by decide)) m.2)) r.metas
  unfold mkBuild planBuild
  simpa only [List.append_assoc, List.cons_append, List.nil_append] using key

theorem does_main (r : MkRun) : Does r (mkMain r) (plan r) := by
  unfold mkMain plan
  rw [List.append_assoc, List.append_assoc]
  refine does_then ?_ (does_then ?_ (does_then ?_ ?_))
  · split
    · exact does_build r
    · exact does_skip r
  · split
    · exact does_musts (ends_of (by decide)) _ _
    · exact does_skip r
  · split
    · exact does_notes (not_ends (by decide)) _
    · exact does_skip r
  · split
    · exact does_skip r
    · exact does_note (not_ends (by decide)) _

/-- **C97**: what is done is a beginning of what is to be done, in that order, each step going as it goes. -/
theorem C97_in_order (r : MkRun) : (pkgmkRun r).1 <+: plan r := by
  obtain ⟨u, h1, h2, _⟩ := does_main r []
  unfold pkgmkRun
  generalize mkMain r [] = x at h1
  obtain ⟨t, c⟩ := x
  simp only [List.nil_append] at h1 ⊢
  subst h1
  exact h2

/-- **C100**, exactly: when all that is to be done is done — unless a step fails whose failure ends the run —, and what the status is: a failure exactly when
a step failed whose failure is seen. -/
theorem C100_exact (r : MkRun) : ((pkgmkRun r).2 = 0 ↔ ∀ s, Noticed r s → (s, false) ∉ (pkgmkRun r).1) ∧
    ((∀ s, Ends r s → (s, false) ∉ (pkgmkRun r).1) → (pkgmkRun r).1 = plan r ∧ (pkgmkRun r).2 = 0) := by
  have hseen := C97_failure_seen r
  obtain ⟨u, h1, h2, h3, h4, h5⟩ := does_main r []
  have hzero := zero_or_seen r
  unfold pkgmkRun at hseen hzero ⊢
  generalize mkMain r [] = x at h1 h3 h4 h5 hseen hzero
  obtain ⟨t, c⟩ := x
  simp only [List.nil_append] at h1 h3 h4 h5 hseen hzero ⊢
  subst h1
  refine ⟨⟨fun h s hs hm => hseen s hs hm h, hzero⟩, fun h => ?_⟩
  have hc := h4 fun x hx he => by
    cases hx2 : x.2 with
    | true => rfl
    | false =>
      refine absurd ?_ (h x.1 he)
      rw [← hx2]
      exact hx
  exact ⟨h3 hc, by rw [hc]; rfl⟩

/-- **C100**: `pkgmk` says that all is well only if all that was to be done was done, if there is no `sbin` and no translation that cannot be packed. -/
theorem C100_success_partial (r : MkRun) (h : (pkgmkRun r).2 = 0) (h1 : (MkStep.noSbin, false) ∉ (pkgmkRun r).1) (h2 : (MkStep.localeTar, false) ∉ (pkgmkRun r).1) :
    (pkgmkRun r).1 = plan r := by
  refine ((C100_exact r).2 fun s hs => ?_).1
  rcases hs with hs | rfl | rfl
  · exact (C100_exact r).1.mp h s hs
  · exact h2
  · exact h1

/-- The steps before packing. -/
def Early (s : MkStep) : Prop := s ∈ [MkStep.source, .unpack, .prepare, .build, .package]

/-- Two steps in the wrong order: a source unpacked, say, after the packages have been removed. -/
def TooLate (x y : MkStep × Bool) : Prop := x.1 = .clear ∧ Early y.1

theorem pairwise_of_left {l : MkTrace} (h : ∀ x ∈ l, x.1 ≠ .clear) : l.Pairwise (fun x y => ¬ TooLate x y) := by
  induction l with
  | nil => exact List.Pairwise.nil
  | cons x l ih => exact List.Pairwise.cons (fun y _ hx => h x (List.mem_cons_self ..) hx.1) (ih fun y hy => h y (List.mem_cons_of_mem _ hy))

theorem pairwise_of_right {l : MkTrace} (h : ∀ x ∈ l, ¬ Early x.1) : l.Pairwise (fun x y => ¬ TooLate x y) := by
  induction l with
  | nil => exact List.Pairwise.nil
  | cons x l ih => exact List.Pairwise.cons (fun y hy hx => h y (List.mem_cons_of_mem _ hy) hx.2) (ih fun y hy => h y (List.mem_cons_of_mem _ hy))

theorem not_early {s : MkStep} (h : s ∉ [MkStep.source, .unpack, .prepare, .build, .package]) : ¬ Early s := h

theorem plan_order (r : MkRun) : (plan r).Pairwise (fun x y => ¬ TooLate x y) := by
  have hmap : ∀ (s : MkStep) (oks : List Bool), ¬ Early s → ∀ x ∈ oks.map ((s, ·)), ¬ Early x.1 := by
    intro s oks hs x hx
    obtain ⟨ok, _, rfl⟩ := List.mem_map.mp hx
    exact hs
  have hmap' : ∀ (s : MkStep) (oks : List Bool), s ≠ .clear → ∀ x ∈ oks.map ((s, ·)), x.1 ≠ .clear := by
    intro s oks hs x hx
    obtain ⟨ok, _, rfl⟩ := List.mem_map.mp hx
    exact hs
  have htail : ∀ x ∈ (if r.doInstall then r.installs.map ((MkStep.install, ·)) else []) ++ (if r.doCompress then r.compresses.map ((MkStep.compress, ·)) else []) ++
      (if r.ignoreRepo then [] else [(MkStep.repo, r.repo)]), ¬ Early x.1 := by
    intro x hx
    rcases List.mem_append.mp hx with hx | hx
    · rcases List.mem_append.mp hx with hx | hx
      · split at hx
        · exact hmap _ _ (not_early (by decide)) x hx
        · cases hx
      · split at hx
        · exact hmap _ _ (not_early (by decide)) x hx
        · cases hx
    · split at hx
      · cases hx
      · rw [List.mem_singleton] at hx
        subst hx
        exact not_early (s := .repo) (by decide)
  unfold plan
  rw [List.append_assoc, List.append_assoc, ← List.append_assoc (if r.doInstall then _ else _)]
  generalize (if r.doInstall then r.installs.map ((MkStep.install, ·)) else []) ++ (if r.doCompress then r.compresses.map ((MkStep.compress, ·)) else []) ++
      (if r.ignoreRepo then [] else [(MkStep.repo, r.repo)]) = tl at htail
  split
  · unfold planBuild
    simp only [List.append_assoc]
    rw [← List.append_assoc (r.sources.map _)]
    have hE : ∀ x ∈ r.sources.map ((MkStep.source, ·)) ++ (if r.packOnly then [] else r.unpack.map ((MkStep.unpack, ·)) ++ (r.prepare.toList.map ((MkStep.prepare, ·)) ++
        ([(MkStep.build, r.build)] ++ r.package.toList.map ((MkStep.package, ·))))), x.1 ≠ .clear := by
      intro x hx
      rcases List.mem_append.mp hx with hx | hx
      · exact hmap' _ _ (by decide) x hx
      · split at hx
        · cases hx
        · rcases List.mem_append.mp hx with hx | hx
          · exact hmap' _ _ (by decide) x hx
          rcases List.mem_append.mp hx with hx | hx
          · exact hmap' _ _ (by decide) x hx
          rcases List.mem_append.mp hx with hx | hx
          · rw [List.mem_singleton] at hx
            subst hx
            exact (by decide : MkStep.build ≠ .clear)
          · exact hmap' _ _ (by decide) x hx
    rw [List.pairwise_append]
    refine ⟨pairwise_of_left hE, pairwise_of_right ?_, fun x hx y _ h => hE x hx h.1⟩
    intro x hx
    rcases List.mem_append.mp hx with hx | hx
    · rw [List.mem_singleton] at hx
      subst hx
      exact not_early (s := .clear) (by decide)
    rcases List.mem_append.mp hx with hx | hx
    · obtain ⟨p, _, hx⟩ := List.mem_flatMap.mp hx
      cases p with
      | fn ok =>
        rw [planGroup, List.mem_singleton] at hx
        subst hx
        exact not_early (s := .groupFn) (by decide)
      | tars oks => exact hmap _ _ (not_early (by decide)) x hx
    rcases List.mem_append.mp hx with hx | hx
    · obtain ⟨p, _, hx⟩ := List.mem_flatMap.mp hx
      cases p with
      | fn ok =>
        rw [planLocale, List.mem_singleton] at hx
        subst hx
        exact not_early (s := .localeFn) (by decide)
      | tars oks => exact hmap _ _ (not_early (by decide)) x hx
    rcases List.mem_append.mp hx with hx | hx
    · simp only [List.mem_cons, List.not_mem_nil, or_false] at hx
      rcases hx with rfl | rfl | rfl
      · exact not_early (s := .noSbin) (by decide)
      · exact not_early (s := .files) (by decide)
      · exact not_early (s := .mainTar) (by decide)
    rcases List.mem_append.mp hx with hx | hx
    · split at hx
      · cases hx
      · exact hmap _ _ (not_early (by decide)) x hx
    rcases List.mem_append.mp hx with hx | hx
    · rw [List.mem_singleton] at hx
      subst hx
      exact not_early (s := .found) (by decide)
    rcases List.mem_append.mp hx with hx | hx
    · obtain ⟨m, _, hx⟩ := List.mem_flatMap.mp hx
      simp only [List.mem_cons, List.not_mem_nil, or_false] at hx
      rcases hx with rfl | rfl
      · exact not_early (s := .deps) (by decide)
      · exact not_early (s := .repack) (by decide)
    · exact htail x hx
  · exact pairwise_of_right htail

/-- **C97**: when the sources cannot be had or unpacked, or the compilation fails, the packages made before stay. -/
theorem C97_kept (r : MkRun) (s : MkStep) (hs : Early s) (h : (s, false) ∈ (pkgmkRun r).1) : ∀ ok, (MkStep.clear, ok) ∉ (pkgmkRun r).1 := by
  have hn : Noticed r s := by
    left
    unfold Early at hs
    simp only [List.mem_cons, List.not_mem_nil, or_false] at hs ⊢
    tauto
  intro ok hc
  obtain ⟨a, b, e⟩ := List.append_of_mem h
  have hb := C97_stops r s hn a b e
  have hpre := C97_in_order r
  rw [e] at hc hpre
  rcases List.mem_append.mp hc with hc | hc
  · have hp := (plan_order r).sublist hpre.sublist
    rw [List.pairwise_append] at hp
    exact hp.2.2 _ hc (s, false) (List.mem_cons_self ..) ⟨rfl, hs⟩
  · rcases List.mem_cons.mp hc with hc | hc
    · rw [Prod.mk.injEq] at hc
      rw [← hc.1] at hs
      exact absurd hs (by unfold Early; decide)
    · rcases hb _ hc with h | h <;> cases h

/-! ## An example -/

/-- A build of a port with a development package and translations, that goes well. -/
def goodRun : MkRun where
  needed := true
  packOnly := false
  ignoreFootprint := false
  ignoreNew := true
  doInstall := true
  doCompress := true
  ignoreRepo := false
  sources := [true, true]
  unpack := [true, true]
  prepare := none
  build := true
  package := some true
  groups := [.tars [true, true], .fn true]
  locales := [.tars [true], .fn true]
  noSbin := true
  files := true
  mainTar := true
  footprints := [true, true]
  found := true
  metas := [(true, true), (true, true)]
  installs := [true, true]
  compresses := [true, true]
  repo := true

example : pkgmkRun goodRun = (plan goodRun, 0) := by decide +kernel

/-- The development package cannot be packed: the second directory still is, then `pkgmk` fails. -/
example : pkgmkRun { goodRun with groups := [.tars [false, true], .fn true] } =
    ([(.source, true), (.source, true), (.unpack, true), (.unpack, true), (.build, true), (.package, true), (.clear, true), (.groupTar, false), (.groupTar, true)], 8) := by
  decide +kernel

/-! ## Where it fails -/

/-- **C100, counterexample**: the function of a language fails, `pkgmk` goes on and says that all is well. -/
theorem C100_counterexample_locale : (MkStep.localeFn, false) ∈ (pkgmkRun { goodRun with locales := [.fn false] }).1 ∧
    (pkgmkRun { goodRun with locales := [.fn false] }).2 = 0 ∧ (MkStep.install, true) ∈ (pkgmkRun { goodRun with locales := [.fn false] }).1 := by decide +kernel

/-- **C100, counterexample**: the main package cannot be packed (a full disk): `pkgmk` goes on, installs what there is, and says that all is well. -/
theorem C100_counterexample_tar : (MkStep.mainTar, false) ∈ (pkgmkRun { goodRun with mainTar := false }).1 ∧ (pkgmkRun { goodRun with mainTar := false }).2 = 0 ∧
    (MkStep.install, true) ∈ (pkgmkRun { goodRun with mainTar := false }).1 := by decide +kernel

/-- **C100, counterexample**: with a directory `sbin`, or when a translation cannot be packed, the run ends there, with the packages removed and none made; the
status is 0. -/
theorem C100_counterexample_abort : ∀ r ∈ [{ goodRun with noSbin := false }, { goodRun with locales := [.tars [false]] }],
    (pkgmkRun r).2 = 0 ∧ (MkStep.clear, true) ∈ (pkgmkRun r).1 ∧ ∀ ok, (MkStep.mainTar, ok) ∉ (pkgmkRun r).1 := by
  intro r hr
  simp only [List.mem_cons, List.not_mem_nil, or_false] at hr
  rcases hr with rfl | rfl <;> decide +kernel

/-- **C100, counterexample**: the package cannot be packed again with its `.META`, or not compressed, or `.REPO` not be written: the status is 0. -/
theorem C100_counterexample_end : ∀ r ∈ [{ goodRun with metas := [(true, false)] }, { goodRun with compresses := [false] }, { goodRun with repo := false }],
    (pkgmkRun r).2 = 0 ∧ ∃ s, (s, false) ∈ (pkgmkRun r).1 := by
  intro r hr
  simp only [List.mem_cons, List.not_mem_nil, or_false] at hr
  rcases hr with rfl | rfl | rfl
  · exact ⟨by decide +kernel, .repack, by decide +kernel⟩
  · exact ⟨by decide +kernel, .compress, by decide +kernel⟩
  · exact ⟨by decide +kernel, .repo, by decide +kernel⟩

/-! ## C98: when a build is needed -/

theorem go_spec (force : Bool) (name : Str) : ∀ (fs : List MkFile) (found need : Bool),
    (!(mkNeeded.go force name fs (found, need)).1 || (mkNeeded.go force name fs (found, need)).2) = true ↔
      need = true ∨ (∃ f ∈ fs, f.newer = false ∨ force = true) ∨ (found = false ∧ ∀ f ∈ fs, f.name ≠ name) := by
  intro fs
  induction fs with
  | nil =>
    intro found need
    rw [mkNeeded.go]
    cases found <;> cases need <;> simp
  | cons f fs ih =>
    intro found need
    rw [mkNeeded.go]
    by_cases hc : (f.newer && !force) = true
    · rw [if_pos hc, ih]
      rw [Bool.and_eq_true, Bool.not_eq_true'] at hc
      simp only [List.mem_cons, exists_eq_or_imp, forall_eq_or_imp, hc.1, hc.2, Bool.or_eq_false_iff, decide_eq_false_iff_not]
      simp only [reduceCtorEq, or_false, false_or, and_assoc]
    · rw [if_neg hc]
      have : f.newer = false ∨ force = true := by
        cases hn : f.newer with
        | false => exact Or.inl rfl
        | true =>
          rw [hn] at hc
          right
          simpa using hc
      simp only [Bool.or_true, true_iff]
      exact Or.inr (Or.inl ⟨f, List.mem_cons_self .., this⟩)

/-- **C98**: exactly when a build is needed: it is asked for, or the main package of this version is not there, or one of the packages of the port is older than
the Pkgfile. -/
theorem C98_needed_iff (force : Bool) (name : Str) (main : Bool) (files : List MkFile) :
    mkNeeded force name main files = true ↔
      main = false ∨ (∃ f ∈ files, f.newer = false ∨ force = true) ∨ ∀ f ∈ files, f.name ≠ name := by
  unfold mkNeeded
  cases main with
  | false => simp
  | true =>
    have := go_spec force name files false false
    simp only [if_true]
    rw [this]
    simp

/-- The file is a package of the port, of some version and some group. -/
def OfPort (name f : Str) : Prop := ∃ a b, f = name ++ '.' :: (a ++ "cards-".toList ++ b)

theorem ofPort_main (name version release : Str) : OfPort name (pkgFileName name none version release) := by
  refine ⟨[], version ++ '-' :: release, ?_⟩
  unfold pkgFileName cardsExt
  simp

/-- **C98**: a port is built exactly if that is asked for, or its main package of this version and release is not there, or one of its packages is not newer than
the Pkgfile. -/
theorem C98_rebuild_iff (force : Bool) (name version release : Str) (dir : List (Str × Nat)) (pkgfile : Nat)
    (hn : ∀ c ∈ name, c ≠ '.' ∧ c ≠ '*' ∧ c ≠ '[') :
    mkRebuild force name version release dir pkgfile = true ↔
      force = true ∨ mget dir (pkgFileName name none version release) = none ∨ ∃ f t, mget dir f = some t ∧ OfPort name f ∧ t ≤ pkgfile := by
  have hdot : '.' ∉ name := fun h => (hn '.' h).1 rfl
  have hlist : ∀ f, f ∈ packagesList name (dir.map (·.1)) ↔ f ∈ dir.map (·.1) ∧ OfPort name f := by
    intro f
    rw [mem_packagesList (fun c hc => ⟨(hn c hc).2.1, (hn c hc).2.2⟩)]
    unfold OfPort
    simp
  have hkeys : ∀ f, f ∈ dir.map (·.1) ↔ (mget dir f).isSome = true := by
    intro f
    rw [mget_isSome_iff]
    rfl
  unfold mkRebuild
  rw [C98_needed_iff]
  constructor
  · rintro (h | ⟨x, hx, h⟩ | h)
    · exact Or.inr (Or.inl (by simpa using h))
    · obtain ⟨f, hf, rfl⟩ := List.mem_map.mp hx
      obtain ⟨h1, h2⟩ := (hlist f).mp hf
      rcases h with h | h
      · obtain ⟨t, ht⟩ := Option.isSome_iff_exists.mp ((hkeys f).mp h1)
        refine Or.inr (Or.inr ⟨f, t, ht, h2, ?_⟩)
        simp only [ht, Option.any_some, decide_eq_false_iff_not] at h
        omega
      · exact Or.inl h
    · refine Or.inr (Or.inl ?_)
      by_contra hm
      have hm' : (mget dir (pkgFileName name none version release)).isSome = true := by
        rw [Option.isSome_iff_ne_none]
        exact hm
      have hmem := (hlist _).mpr ⟨(hkeys _).mpr hm', ofPort_main name version release⟩
      refine h _ (List.mem_map.mpr ⟨_, hmem, rfl⟩) ?_
      exact C95_name_back name none version release hdot (by intro g hg; cases hg)
  · intro h
    by_cases hm : (mget dir (pkgFileName name none version release)).isSome = true
    · have hmem := (hlist _).mpr ⟨(hkeys _).mpr hm, ofPort_main name version release⟩
      rcases h with h | h | ⟨f, t, ht, ho, hle⟩
      · exact Or.inr (Or.inl ⟨_, List.mem_map.mpr ⟨_, hmem, rfl⟩, Or.inr h⟩)
      · rw [h] at hm
        cases hm
      · have hf : f ∈ packagesList name (dir.map (·.1)) := (hlist f).mpr ⟨(hkeys f).mpr (by rw [ht]; rfl), ho⟩
        refine Or.inr (Or.inl ⟨_, List.mem_map.mpr ⟨f, hf, rfl⟩, Or.inl ?_⟩)
        simp only [ht, Option.any_some, decide_eq_false_iff_not]
        omega
    · exact Or.inl (by simpa using hm)

example : mkRebuild false "zlib".toList "1.3".toList "1".toList [("zlib.cards-1.3-1".toList, 20), ("zlib.devel.cards-1.3-1".toList, 20), ("zlib-ng.cards-2-1".toList, 5)] 10 = false ∧
    mkRebuild false "zlib".toList "1.3".toList "1".toList [("zlib.cards-1.3-1".toList, 20), ("zlib.devel.cards-1.3-1".toList, 10)] 10 = true := by decide +kernel

/-- **C98**, so a compressed package is never up to date: it is built again every time. -/
theorem C98_example_compressed (name version release : Str) (t pkgfile : Nat) :
    mkRebuild false name version release [(pkgFileName name none version release ++ ".xz".toList, t)] pkgfile = true := by
  unfold mkRebuild
  rw [C98_needed_iff]
  left
  rw [mget, if_neg]
  · rfl
  · intro e
    have := congrArg List.length e
    simp at this

/-- **C98**, and that the package of a group is not there is not noticed. -/
theorem C98_example_group : mkRebuild false "zlib".toList "1.3".toList "1".toList [("zlib.cards-1.3-1".toList, 20)] 10 = false := by decide +kernel

end Cards.Props
