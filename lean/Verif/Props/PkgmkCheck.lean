import Verif.Model.PkgmkCheck
import Verif.Lemmas.Base
import Mathlib.Tactic.Common
/-!
# C123, C124: the aliases of a port and the footprint of its packages
-/
namespace Cards.Props
open Cards

/-! ## C123 -/

/-- The word stands for the port: it is its name or one of its aliases. -/
def StandsFor (aliasOf : Str → List Str) (w p : Str) : Prop := w = p ∨ w ∈ aliasOf p

theorem aliasClash_some {name : Str} {aliasOf : Str → List Str} {a p : Str} {c : Clash} (h : aliasClash name aliasOf a p = some c) :
    p ≠ name ∧ ((c = .port a ∧ a = p) ∨ (c = .other a p ∧ a ∈ aliasOf p)) := by
  unfold aliasClash at h
  split at h
  · exact absurd h (by simp)
  · next hp =>
    refine ⟨hp, ?_⟩
    split at h
    · next he => exact Or.inl ⟨(Option.some.inj h).symm, he⟩
    · split at h
      · next hm =>
        refine Or.inr ⟨(Option.some.inj h).symm, ?_⟩
        unfold testedAliases at hm
        split at hm
        · next e => rw [e]; exact hm
        · exact absurd hm (by simp)
      · exact absurd h (by simp)

theorem aliasClash_none {name : Str} {aliasOf : Str → List Str} {a p : Str} (hp : p ≠ name) (h : aliasClash name aliasOf a p = none) :
    a ≠ p ∧ ((aliasOf p).length ≤ 1 → a ∉ aliasOf p) := by
  unfold aliasClash at h
  rw [if_neg hp] at h
  split at h
  · exact absurd h (by simp)
  · next he =>
    refine ⟨he, fun hl hm => ?_⟩
    split at h
    · exact absurd h (by simp)
    · next hn =>
      apply hn
      cases e : aliasOf p with
      | nil => rw [e] at hm; exact absurd hm (by simp)
      | cons w ws =>
        cases ws with
        | nil => rw [e] at hm; exact hm
        | cons v vs => rw [e] at hl; exact absurd hl (by simp)

/-- **C123, refused.** A port is refused only for a word that stands for another port of the collection, and the message says which. -/
theorem C123_refused (name : Str) (mine coll : List Str) (aliasOf : Str → List Str) (c : Clash) (h : checkAliases name mine coll aliasOf = some c) :
    ∃ a ∈ mine, ∃ p ∈ coll, p ≠ name ∧ StandsFor aliasOf a p ∧ (c = .port a ∧ a = p ∨ c = .other a p ∧ a ∈ aliasOf p) := by
  unfold checkAliases at h
  obtain ⟨a, ha, h⟩ := List.exists_of_findSome?_eq_some h
  obtain ⟨p, hp, h⟩ := List.exists_of_findSome?_eq_some h
  obtain ⟨h1, h2⟩ := aliasClash_some h
  refine ⟨a, ha, p, hp, h1, ?_, h2⟩
  rcases h2 with ⟨_, h2⟩ | ⟨_, h2⟩
  · exact Or.inl h2
  · exact Or.inr h2

/-- **C123, accepted.** No alias of an accepted port is the name of another port of the collection, or the alias of one that has no other. Partial: a port with several aliases is not
looked at. -/
theorem C123_accepted_partial (name : Str) (mine coll : List Str) (aliasOf : Str → List Str) (h : checkAliases name mine coll aliasOf = none)
    (a p : Str) (ha : a ∈ mine) (hp : p ∈ coll) (hne : p ≠ name) : a ≠ p ∧ ((aliasOf p).length ≤ 1 → ¬ StandsFor aliasOf a p) := by
  unfold checkAliases at h
  rw [List.findSome?_eq_none_iff] at h
  have h := h a ha
  rw [List.findSome?_eq_none_iff] at h
  obtain ⟨h1, h2⟩ := aliasClash_none hne (h p hp)
  exact ⟨h1, fun hl hs => hs.elim h1 (h2 hl)⟩

/-- **C123, the collection.** When every port of a collection is accepted, no word stands for two of them, unless both have more than one alias. Partial: see `C123_counterexample`. -/
theorem C123_unambiguous_partial (coll : List Str) (aliasOf : Str → List Str) (h : ∀ n ∈ coll, checkAliases n (aliasOf n) coll aliasOf = none)
    (w p q : Str) (hp : p ∈ coll) (hq : q ∈ coll) (hpq : (aliasOf p).length ≤ 1 ∨ (aliasOf q).length ≤ 1) (h1 : StandsFor aliasOf w p) (h2 : StandsFor aliasOf w q) : p = q := by
  by_contra hne
  rcases h1 with rfl | h1
  · rcases h2 with rfl | h2
    · exact hne rfl
    · exact (C123_accepted_partial q (aliasOf q) coll aliasOf (h q hq) w w h2 hp hne).1 rfl
  · rcases h2 with rfl | h2
    · exact (C123_accepted_partial p (aliasOf p) coll aliasOf (h p hp) w w h1 hq (fun e => hne e.symm)).1 rfl
    · rcases hpq with hl | hl
      · exact (C123_accepted_partial q (aliasOf q) coll aliasOf (h q hq) w p h2 hp hne).2 hl (Or.inr h1)
      · exact (C123_accepted_partial p (aliasOf p) coll aliasOf (h p hp) w q h1 hq (fun e => hne e.symm)).2 hl (Or.inr h2)

/-- The aliases of the examples. -/
def alA (p : Str) : List Str := if p = "python3".toList then ["python".toList] else if p = "zlib".toList then ["libz".toList, "z".toList] else []

/-- The aliases of the counterexample. -/
def alB (p : Str) : List Str := if p = "vim".toList then ["vi".toList, "editor".toList] else if p = "nano".toList then ["pico".toList, "editor".toList] else []

-- A collection whose ports are all accepted …
example : ∀ n ∈ ["bash".toList, "python3".toList, "zlib".toList], checkAliases n (alA n) ["bash".toList, "python3".toList, "zlib".toList] alA = none := by decide +kernel
-- … and ports that are refused.
example : checkAliases "ash".toList ["bash".toList] ["ash".toList, "bash".toList, "python3".toList] alA = some (.port "bash".toList) := by decide +kernel
example : checkAliases "python2".toList ["py".toList, "python".toList] ["python2".toList, "python3".toList] alA = some (.other "python".toList "python3".toList) := by decide +kernel

/-- Two ports with two aliases each are both accepted with an alias in common. -/
theorem C123_counterexample :
    (∀ n ∈ ["nano".toList, "vim".toList], checkAliases n (alB n) ["nano".toList, "vim".toList] alB = none) ∧
      StandsFor alB "editor".toList "nano".toList ∧ StandsFor alB "editor".toList "vim".toList := by
  refine ⟨by decide +kernel, Or.inr (by decide), Or.inr (by decide)⟩

/-! ## C124 -/

/-- The line without its white space. -/
def unspaced (l : Str) : Str := l.filter (fun c => !(c = ' ' || c = '\t'))

/-- What is expected of `diff -w`: the lines it gives are lines of the files, a line that only one of them has is given, and files with the same lines differ in nothing. -/
structure DiffOk (diff : List Str → List Str → List DiffLine) : Prop where
  old : ∀ a b l, (false, l) ∈ diff a b → l ∈ a
  new : ∀ a b l, (true, l) ∈ diff a b → l ∈ b
  missing : ∀ a b l, l ∈ a → (∀ m ∈ b, unspaced m ≠ unspaced l) → (false, l) ∈ diff a b
  added : ∀ a b l, l ∈ b → (∀ m ∈ a, unspaced m ≠ unspaced l) → (true, l) ∈ diff a b
  same : ∀ a b, a.map unspaced = b.map unspaced → diff a b = []

/-- A line of a footprint is that of a file, a directory or a link of the system: it begins with the letters of the kind and of the permissions, which are not all missing. -/
def PlainLine (l : Str) : Prop := ∃ k r, l = k :: r ∧ k ∈ "-dlcbps".toList ∧ ¬ "--".toList.isPrefixOf l = true

theorem plain_kept (b : Bool) {l : Str} (h : PlainLine l) : fpDropped (b, l) = false := by
  obtain ⟨k, r, rfl, hk, hd⟩ := h
  have hk' : k ≠ 'M' ∧ k ≠ 'R' ∧ k ≠ 'P' ∧ k ≠ 'F' ∧ k ≠ '+' := by
    have : ∀ k ∈ "-dlcbps".toList, k ≠ 'M' ∧ k ≠ 'R' ∧ k ≠ 'P' ∧ k ≠ 'F' ∧ k ≠ '+' := by decide
    exact this k hk
  obtain ⟨h1, h2, h3, h4, h5⟩ := hk'
  unfold fpDropped diffText
  cases b
  · simp [List.isPrefixOf, h1.symm, h2.symm, h3.symm, h4.symm] at hd ⊢
    intro e
    exact Bool.eq_false_iff.mpr (fun h => hd e (List.isPrefixOf_iff_prefix.mp h))
  · simp [List.isPrefixOf, h1.symm, h2.symm, h3.symm, h4.symm, h5.symm]

theorem fpStep_ok_of (diff : List Str → List Str → List DiffLine) (srt : List Str → List Str) (ign : Bool) (st : FpState) (t : Str × Option (List Str)) (h : st.ok = false) :
    (fpStep diff srt ign st t).ok = false := by
  unfold fpStep
  split
  · rfl
  · simp only
    split
    · exact h
    · split
      · exact h
      · split
        · exact h
        · rfl

theorem fpFold_ok_of (diff : List Str → List Str → List DiffLine) (srt : List Str → List Str) (ign : Bool) (ts : List (Str × Option (List Str))) (st : FpState) (h : st.ok = false) :
    (ts.foldl (fpStep diff srt ign) st).ok = false := by
  induction ts generalizing st with
  | nil => exact h
  | cons t ts ih => exact ih _ (fpStep_ok_of diff srt ign st t h)

/-- The footprints of the packages in hand are the only ones that change, and without `--ignore-new` only those that were not there. -/
theorem fpFold_prints (diff : List Str → List Str → List DiffLine) (srt : List Str → List Str) (ts : List (Str × Option (List Str))) (st : FpState) (n : Str) (old : List Str)
    (h : mget st.prints n = some old) : mget (ts.foldl (fpStep diff srt false) st).prints n = some old := by
  induction ts generalizing st with
  | nil => exact h
  | cons t ts ih =>
    refine ih _ ?_
    unfold fpStep
    split
    · exact h
    · simp only
      split
      · next he =>
        rw [mget_mset]
        split
        · next e => rw [e, h] at he; exact absurd he (by simp)
        · exact h
      · split
        · exact h
        · simp only [Bool.false_eq_true, if_false]
          exact h

/-- **C124, caught.** Without `--ignore-new`, a build does not count as successful when a package has a file its footprint does not have, or does not have one of its footprint, or is not there;
and no footprint that was there is changed. -/
theorem C124_caught_partial (diff : List Str → List Str → List DiffLine) (hd : DiffOk diff) (srt : List Str → List Str) (hs : ∀ l x, x ∈ srt l ↔ x ∈ l)
    (prints : List (Str × List Str)) (targets : List (Str × Option (List Str))) (t : Str) (lines old : List Str) (ht : (t, some lines) ∈ targets)
    (ho : mget prints (getPackageName t) = some old) (l : Str) (hp : PlainLine l)
    (h : (l ∈ lines ∧ ∀ m ∈ old, unspaced m ≠ unspaced l) ∨ (l ∈ old ∧ ∀ m ∈ lines, unspaced m ≠ unspaced l)) :
    (checkFootprint diff srt false prints targets).ok = false := by
  unfold checkFootprint
  obtain ⟨pre, post, rfl⟩ := List.append_of_mem ht
  rw [List.foldl_append, List.foldl_cons]
  apply fpFold_ok_of
  have hk := fpFold_prints diff srt pre ⟨prints, true, []⟩ _ old ho
  generalize pre.foldl (fpStep diff srt false) ⟨prints, true, []⟩ = st at hk
  have hne : ((diff (srt old) lines).filter (fun x => !fpDropped x)) ≠ [] := by
    intro e
    have hmem : ∃ b, (b, l) ∈ diff (srt old) lines := by
      rcases h with ⟨h1, h2⟩ | ⟨h1, h2⟩
      · exact ⟨true, hd.added _ _ l h1 (fun m hm => h2 m ((hs old m).mp hm))⟩
      · exact ⟨false, hd.missing _ _ l ((hs old l).mpr h1) h2⟩
    obtain ⟨b, hb⟩ := hmem
    have : (b, l) ∈ (diff (srt old) lines).filter (fun x => !fpDropped x) := List.mem_filter.mpr ⟨hb, by rw [plain_kept b hp]; rfl⟩
    rw [e] at this
    exact absurd this (by simp)
  unfold fpStep
  simp only [hk]
  rw [if_neg hne]
  rfl

/-- **C124, no file.** A package that is not there is caught. -/
theorem C124_absent (diff : List Str → List Str → List DiffLine) (srt : List Str → List Str) (ign : Bool) (prints : List (Str × List Str)) (targets : List (Str × Option (List Str))) (t : Str)
    (ht : (t, none) ∈ targets) : (checkFootprint diff srt ign prints targets).ok = false := by
  unfold checkFootprint
  obtain ⟨pre, post, rfl⟩ := List.append_of_mem ht
  rw [List.foldl_append, List.foldl_cons]
  apply fpFold_ok_of
  rfl

/-- **C124, kept.** Without `--ignore-new` a footprint that is there is not changed. -/
theorem C124_kept (diff : List Str → List Str → List DiffLine) (srt : List Str → List Str) (prints : List (Str × List Str)) (targets : List (Str × Option (List Str))) (n : Str) (old : List Str)
    (h : mget prints n = some old) : mget (checkFootprint diff srt false prints targets).prints n = some old :=
  fpFold_prints diff srt targets _ n old h

/-- The package has no footprint yet, or the lines of its footprint, sorted, but for white space. -/
def Agrees (srt : List Str → List Str) (prints : List (Str × List Str)) (t : Str × Option (List Str)) : Prop :=
  ∃ lines, t.2 = some lines ∧ ∀ old, mget prints (getPackageName t.1) = some old → (srt old).map unspaced = lines.map unspaced

/-- **C124, passed.** When the packages have their footprints, the build counts as successful and nothing is shown or changed but for the footprints that were missing: those are made. -/
theorem C124_passed (diff : List Str → List Str → List DiffLine) (hd : DiffOk diff) (srt : List Str → List Str) (ign : Bool) (prints : List (Str × List Str)) (targets : List (Str × Option (List Str)))
    (hn : (targets.map (fun t => getPackageName t.1)).Nodup) (h : ∀ t ∈ targets, Agrees srt prints t) :
    let r := checkFootprint diff srt ign prints targets
    r.ok = true ∧ r.shown = [] ∧ (∀ n old, mget prints n = some old → mget r.prints n = some old) ∧
      (∀ t lines, (t, some lines) ∈ targets → mget prints (getPackageName t) = none → mget r.prints (getPackageName t) = some lines) ∧
      (∀ n, n ∉ targets.map (fun t => getPackageName t.1) → mget r.prints n = mget prints n) := by
  suffices H : ∀ (ts : List (Str × Option (List Str))) (st : FpState), st.ok = true → st.shown = [] → (ts.map (fun t => getPackageName t.1)).Nodup → (∀ t ∈ ts, Agrees srt st.prints t) →
      let r := ts.foldl (fpStep diff srt ign) st
      r.ok = true ∧ r.shown = [] ∧ (∀ n old, mget st.prints n = some old → mget r.prints n = some old) ∧
        (∀ t lines, (t, some lines) ∈ ts → mget st.prints (getPackageName t) = none → mget r.prints (getPackageName t) = some lines) ∧
        (∀ n, n ∉ ts.map (fun t => getPackageName t.1) → mget r.prints n = mget st.prints n) from
    H targets ⟨prints, true, []⟩ rfl rfl hn h
  intro ts
  induction ts with
  | nil => intro st h1 h2 _ _; exact ⟨h1, h2, fun _ _ h => h, by simp, fun _ _ => rfl⟩
  | cons t ts ih =>
    intro st h1 h2 hn h
    rw [List.map_cons, List.nodup_cons] at hn
    obtain ⟨lines, e, ha⟩ := h t (by simp)
    simp only [List.foldl_cons]
    have hstep : fpStep diff srt ign st t = { st with prints := if mget st.prints (getPackageName t.1) = none then mset (getPackageName t.1) lines st.prints else st.prints } := by
      unfold fpStep
      rw [e]
      simp only
      cases hm : mget st.prints (getPackageName t.1) with
      | none => simp
      | some old =>
        simp only [hd.same _ _ (ha old hm), List.filter_nil, if_true, reduceCtorEq, if_false]
    rw [hstep]
    have hget : ∀ n, mget (if mget st.prints (getPackageName t.1) = none then mset (getPackageName t.1) lines st.prints else st.prints) n =
        if n = getPackageName t.1 ∧ mget st.prints n = none then some lines else mget st.prints n := by
      intro n
      by_cases hm : mget st.prints (getPackageName t.1) = none
      · rw [if_pos hm, mget_mset]
        by_cases hk : n = getPackageName t.1
        · rw [if_pos hk.symm, if_pos ⟨hk, by rw [hk]; exact hm⟩]
        · rw [if_neg (fun e => hk e.symm), if_neg (fun hc => hk hc.1)]
      · rw [if_neg hm, if_neg]
        rintro ⟨hk, hx⟩
        rw [hk] at hx
        exact hm hx
    obtain ⟨a1, a2, a3, a4, a5⟩ := ih { st with prints := if mget st.prints (getPackageName t.1) = none then mset (getPackageName t.1) lines st.prints else st.prints } h1 h2 hn.2 (by
      intro u hu
      obtain ⟨l2, e2, ha2⟩ := h u (by simp [hu])
      refine ⟨l2, e2, fun old ho => ?_⟩
      simp only [hget] at ho
      rw [if_neg] at ho
      · exact ha2 old ho
      · rintro ⟨hk, _⟩
        exact hn.1 (List.mem_map.mpr ⟨u, hu, hk⟩))
    refine ⟨a1, a2, ?_, ?_, ?_⟩
    · intro n old ho
      refine a3 n old ?_
      simp only [hget]
      rw [if_neg]
      · exact ho
      · rintro ⟨_, hx⟩; rw [ho] at hx; exact absurd hx (by simp)
    · intro u l2 hu ho
      rcases List.mem_cons.mp hu with hu | hu
      · subst hu
        cases e
        refine a3 _ _ ?_
        simp only [hget]
        rw [if_pos ⟨trivial, ho⟩]
      · refine a4 u l2 hu ?_
        simp only [hget]
        rw [if_neg]
        · exact ho
        · rintro ⟨hk, _⟩
          exact hn.1 (List.mem_map.mpr ⟨_, hu, hk⟩)
    · intro n hnn
      rw [List.map_cons, List.mem_cons, not_or] at hnn
      rw [a5 n hnn.2]
      simp only [hget]
      rw [if_neg (fun hc => hnn.1 hc.1)]

/-- A `diff` of the examples: the lines of one file that are not in the other. -/
def setDiff (a b : List Str) : List DiffLine :=
  (a.filter (fun l => !(b.map unspaced).contains (unspaced l))).map (fun l => (false, l)) ++ (b.filter (fun l => !(a.map unspaced).contains (unspaced l))).map (fun l => (true, l))

/-- The contract can be met. -/
theorem setDiff_ok : DiffOk setDiff := by
  have hf : ∀ (a b : List Str) (l : Str), (false, l) ∈ setDiff a b ↔ l ∈ a ∧ ∀ m ∈ b, unspaced m ≠ unspaced l := by
    intro a b l
    simp [setDiff]
  have ht : ∀ (a b : List Str) (l : Str), (true, l) ∈ setDiff a b ↔ l ∈ b ∧ ∀ m ∈ a, unspaced m ≠ unspaced l := by
    intro a b l
    simp [setDiff]
  refine ⟨fun a b l h => ((hf a b l).mp h).1, fun a b l h => ((ht a b l).mp h).1, fun a b l h1 h2 => (hf a b l).mpr ⟨h1, h2⟩, fun a b l h1 h2 => (ht a b l).mpr ⟨h1, h2⟩, ?_⟩
  intro a b h
  unfold setDiff
  rw [List.append_eq_nil_iff, List.map_eq_nil_iff, List.map_eq_nil_iff, List.filter_eq_nil_iff, List.filter_eq_nil_iff]
  constructor
  · intro l hl
    rw [← h]
    simpa using ⟨l, hl, rfl⟩
  · intro l hl
    rw [h]
    simpa using ⟨l, hl, rfl⟩

/-- The lines of a package of the examples. -/
def fpLines : List Str := ["drwxr-xr-x\troot/root\tusr/".toList, "-rwxr-xr-x\troot/root\tusr/ls".toList]
/-- The file of the package. -/
def fpFile : Str := "ls.cards-1.0-1".toList

-- A new file is caught, the same files pass, and a first footprint is made.
example : (checkFootprint setDiff id false [("ls".toList, fpLines)] [(fpFile, some (fpLines ++ ["-rwxr-xr-x\troot/root\tusr/dir".toList]))]).ok = false := by decide +kernel
example : (checkFootprint setDiff id false [("ls".toList, fpLines)] [(fpFile, some fpLines)]).ok = true := by decide +kernel
example : (checkFootprint setDiff id false [] [(fpFile, some fpLines)]).prints = [("ls".toList, fpLines)] := by decide +kernel
example : PlainLine "-rwxr-xr-x\troot/root\tusr/dir".toList := ⟨_, _, rfl, by decide, by decide⟩

/-- With `--ignore-new`, which is the default (/repo/scripts/pkgmk.in:1637), a file that is missing is ignored too, and the footprint forgets it. -/
theorem C124_counterexample_missing :
    let r := checkFootprint setDiff id true [("ls".toList, fpLines)] [(fpFile, some (fpLines.take 1))]
    r.ok = true ∧ r.prints = [("ls".toList, fpLines.take 1)] := by decide +kernel

/-- A file without any permission can be missing: its line in the difference looks like a line of `diff` itself. -/
theorem C124_counterexample_shadow :
    (checkFootprint setDiff id false [("ls".toList, fpLines ++ ["----------\troot/root\tetc/shadow".toList])] [(fpFile, some fpLines)]).ok = true := by decide +kernel

end Cards.Props
