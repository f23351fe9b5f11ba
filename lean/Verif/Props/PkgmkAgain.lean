import Verif.Model.PkgmkAgain
import Verif.Props.SplitAll
/-!
# C157: packing again what was built before (`pkgmk --pack-only`)
-/
namespace Cards.Props
open Cards Cards.Spec

theorem left_gone {groups locales : List Str} {keepLa : Bool} {t t' : List PEnt} (hl' : leftTree groups locales keepLa t = some t') (e : PEnt) (hone : t.count e = 1)
    (hd : e.dir = false) (halone : Alone e t) (o : Option Str) (hdest : Dest groups locales keepLa e.path o) (ho : o ≠ some []) (hh : (e.path.head?.bind List.head?) ≠ some '.') :
    e ∉ t' := by
  have h0 : Here e ⟨t, []⟩ := ⟨hone, fun a => rfl, halone⟩
  unfold leftTree at hl'
  generalize hg : groups.foldl packGroup ⟨t, []⟩ = s1 at hl'
  generalize hl : locales.foldl packLocale s1 = s2 at hl'
  cases hc : checkBuild keepLa (dropLocales s2) with
  | none => rw [hc] at hl'; cases hl'
  | some s3 =>
    rw [hc] at hl'
    cases hl'
    have hs3 := checkBuild_some hc
    have gone3 : Gone e o (dropLocales s2) → e ∉ s3.tree := by
      intro h
      rw [hs3]
      split
      · exact h.no
      · exact (filter_gone h _).no
    have gone1 : Gone e o s1 → e ∉ s3.tree := by
      intro h
      refine gone3 (dropLocales_gone ?_)
      rw [← hl]
      exact foldl_gone packLocale (fun s x h => packLocale_gone h x) _ _ h
    have here1 : (∀ g ∈ groups, ¬ InGroup g e.path) → Here e s1 := fun hn => hg ▸ groups_none hd groups _ h0 hn
    cases hdest with
    | group g hf hlib => exact gone1 (hg ▸ (groups_first hd h0 hf).1 hlib)
    | lost hf hlib => exact gone1 (hg ▸ (groups_first hd h0 hf).2 rfl hlib)
    | «locale» l hn hf => exact gone3 (dropLocales_gone (hl ▸ locales_first hd (here1 hn) hf))
    | noLocale hn hin hno => exact gone3 ((dropLocales_here hd (hl ▸ locales_none hd locales s1 (here1 hn) hno)).1 hin)
    | la hn hin hk hla =>
      rw [hs3, hk]
      intro hm
      have := (List.mem_filter.mp hm).2
      rw [(isLa_iff hd).mpr hla] at this
      cases this
    | hidden x r hp hx => rw [hp] at hh; exact absurd hx hh
    | main x r hn hin hk hp hx => exact absurd rfl ho

theorem left_here {groups locales : List Str} {keepLa : Bool} {t t' : List PEnt} (hl' : leftTree groups locales keepLa t = some t') (e : PEnt) (hone : t.count e = 1)
    (hd : e.dir = false) (halone : Alone e t) (hdest : Dest groups locales keepLa e.path (some [])) (hgr : ([] : Str) ∉ groups) (hlo : ([] : Str) ∉ locales) :
    t'.count e = 1 ∧ Alone e t' := by
  have h0 : Here e ⟨t, []⟩ := ⟨hone, fun a => rfl, halone⟩
  unfold leftTree at hl'
  generalize hg : groups.foldl packGroup ⟨t, []⟩ = s1 at hl'
  generalize hl : locales.foldl packLocale s1 = s2 at hl'
  cases hc : checkBuild keepLa (dropLocales s2) with
  | none => rw [hc] at hl'; cases hl'
  | some s3 =>
    rw [hc] at hl'
    cases hl'
    have hs3 := checkBuild_some hc
    have here1 : (∀ g ∈ groups, ¬ InGroup g e.path) → Here e s1 := fun hn => hg ▸ groups_none hd groups _ h0 hn
    cases hdest with
    | group _ hf hlib =>
      obtain ⟨a, b, h1, -⟩ := hf
      exact absurd (by rw [h1]; simp) hgr
    | «locale» _ hn hf =>
      obtain ⟨a, b, h1, -⟩ := hf
      exact absurd (by rw [h1]; simp) hlo
    | main x r hn hin hk hp hx =>
      have h3 := (dropLocales_here hd (hl ▸ locales_none hd locales s1 (here1 hn) (fun l _ ⟨x, _, hx⟩ => hin (translation_inLocale hx)))).2 hin
      have h4 : Here e s3 := by
        rw [hs3]
        split
        · exact h3
        · rename_i hkl
          refine filter_here h3 _ ?_
          cases hi : isLa e with
          | false => rfl
          | true =>
            rcases hk with hk | hk
            · exact absurd hk hkl
            · exact absurd ((isLa_iff hd).mp hi) hk
      exact ⟨h4.one, h4.alone⟩

theorem packTwice_some {groups locales : List Str} {keepLa : Bool} {t : List PEnt} {a b : List (Str × List PEnt)} (h : packTwice groups locales keepLa t = some (a, b)) :
    splitPackages groups locales keepLa t = some a ∧ ∃ t', leftTree groups locales keepLa t = some t' ∧ splitPackages groups locales keepLa t' = some b := by
  unfold packTwice at h
  split at h
  · next a' t' h1 h2 =>
    cases h3 : splitPackages groups locales keepLa t' with
    | none => rw [h3] at h; cases h
    | some b' =>
      rw [h3] at h
      cases h
      exact ⟨h1, t', h2, h3⟩
  · cases h

/-- **C157**: the files of the main package are packed again, into the main package and nowhere else. -/
theorem C157_main_partial (groups locales : List Str) (hg : ([] : Str) ∉ groups) (hl : ([] : Str) ∉ locales) (keepLa : Bool) (t : List PEnt)
    (a b : List (Str × List PEnt)) (h : packTwice groups locales keepLa t = some (a, b)) (e : PEnt) (hone : t.count e = 1) (hd : e.dir = false) (hp : e.path ≠ [])
    (halone : Alone e t) (hm : e ∈ (mget a []).getD []) : ∀ p, ((mget b p).getD []).count e = ((mget a p).getD []).count e := by
  obtain ⟨h1, t', h2, h3⟩ := packTwice_some h
  obtain ⟨o, ho⟩ := C93_dest_total groups locales keepLa e.path hp
  have hx := C93_split_exact_partial groups locales keepLa t a h1 e hone hd halone o ho
  have hoe : o = some [] := by
    have := hx []
    by_contra hne
    rw [if_neg hne] at this
    exact absurd hm (List.count_eq_zero.mp this)
  subst hoe
  obtain ⟨h4, h5⟩ := left_here h2 e hone hd halone ho hg hl
  intro p
  rw [hx p, C93_split_exact_partial groups locales keepLa t' b h3 e h4 hd h5 _ ho p]

/-- **C157, false otherwise**: a file of a sub-package is in no package any more after the second run. -/
theorem C157_lost (groups locales : List Str) (keepLa : Bool) (t : List PEnt) (a b : List (Str × List PEnt)) (h : packTwice groups locales keepLa t = some (a, b)) (e : PEnt)
    (hone : t.count e = 1) (hd : e.dir = false) (hp : e.path ≠ []) (hh : (e.path.head?.bind List.head?) ≠ some '.') (halone : Alone e t) (p : Str) (hpp : p ≠ [])
    (hm : e ∈ (mget a p).getD []) : ∀ q, e ∉ (mget b q).getD [] := by
  obtain ⟨h1, t', h2, h3⟩ := packTwice_some h
  obtain ⟨o, ho⟩ := C93_dest_total groups locales keepLa e.path hp
  have hx := C93_split_exact_partial groups locales keepLa t a h1 e hone hd halone o ho
  have hoe : o = some p := by
    have := hx p
    by_contra hne
    rw [if_neg hne] at this
    exact absurd hm (List.count_eq_zero.mp this)
  subst hoe
  have hno := left_gone h2 e hone hd halone _ ho (fun he => hpp (Option.some.inj he)) hh
  intro q hq
  rcases C93_nothing_else groups locales keepLa t' b h3 q e hq with h | ⟨h, -⟩
  · exact hno h
  · rw [hd] at h; cases h

/-- **C157, without sub-packages**: when the first run made the main package only, the second one packs the same files. -/
theorem C157_same_partial (groups locales : List Str) (hg : ([] : Str) ∉ groups) (hl : ([] : Str) ∉ locales) (keepLa : Bool) (t : List PEnt)
    (a b : List (Str × List PEnt)) (h : packTwice groups locales keepLa t = some (a, b)) (honly : ∀ p, p ≠ [] → (mget a p).getD [] = []) (e : PEnt) (hone : t.count e = 1)
    (hd : e.dir = false) (hp : e.path ≠ []) (hh : (e.path.head?.bind List.head?) ≠ some '.') (halone : Alone e t) :
    ∀ p, ((mget b p).getD []).count e = ((mget a p).getD []).count e := by
  by_cases hm : e ∈ (mget a []).getD []
  · exact C157_main_partial groups locales hg hl keepLa t a b h e hone hd hp halone hm
  · obtain ⟨h1, t', h2, h3⟩ := packTwice_some h
    have hna : ∀ p, e ∉ (mget a p).getD [] := by
      intro p
      by_cases hpn : p = []
      · rw [hpn]; exact hm
      · rw [honly p hpn]; simp
    obtain ⟨o, ho⟩ := C93_dest_total groups locales keepLa e.path hp
    have hx := C93_split_exact_partial groups locales keepLa t a h1 e hone hd halone o ho
    have hon : o ≠ some [] := by
      intro he
      have := hx []
      rw [if_pos he] at this
      exact hm (List.count_pos_iff.mp (by omega))
    have hno := left_gone h2 e hone hd halone _ ho hon hh
    intro p
    rw [List.count_eq_zero.mpr (hna p), List.count_eq_zero.mpr]
    intro hq
    rcases C93_nothing_else groups locales keepLa t' b h3 p e hq with h | ⟨h, -⟩
    · exact hno h
    · rw [hd] at h; cases h

/-- **C157, counterexample**: a port with a program, a header and a manual page: after `--pack-only` there is one package, with the program. -/
theorem C157_counterexample :
    (packTwice ["devel".toList, "man".toList] [] false xBuild).map (fun r => (r.1.map (·.1), r.2.map (·.1))) = some ([[], "devel".toList, "man".toList], [[]]) := by
  decide +kernel

/-- The hypotheses are met: a port without sub-packages. -/
example : (packTwice ["devel".toList] [] false [⟨["usr".toList], true⟩, ⟨["usr".toList, "bin".toList], true⟩, ⟨["usr".toList, "bin".toList, "x".toList], false⟩]).map
    (fun r => (decide (r.1 = r.2), r.1.map (·.1))) = some (true, [[]]) := by decide +kernel

end Cards.Props
