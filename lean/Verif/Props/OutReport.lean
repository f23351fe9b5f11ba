import Verif.Model.OutReport
import Verif.Lemmas.Base
import Verif.Props.Outdated
import Mathlib.Tactic.Common
/-!
# C203, C204: the report of `outdated` and its table
-/
namespace Cards.Props
open Cards

/-! ## C203 -/

theorem outStep_grows (names : Str → ArchName) (arch : List (Str × Str)) (st : OutState) (p : Str × Option Str) :
    ∃ out, (outStep names arch st p).outdated = st.outdated ++ out ∧ out.length ≤ 1 := by
  have key : ∀ an : Str, ∃ out, (if an = [] then { st with archname := an } else
      if (mget arch an).getD st.pkgver = [] then
        ({ st with archname := an, version := p.2.getD st.version, pkgver := (mget arch an).getD st.pkgver, notFound := st.notFound ++ [p.1] } : OutState)
      else ⟨an, [], [], st.outdated ++ (if ((mget arch an).getD st.pkgver).takeWhile (· ≠ '+') ≠ p.2.getD st.version ∧ olderVersion (p.2.getD st.version) ((mget arch an).getD st.pkgver)
        then [(p.1, (mget arch an).getD st.pkgver, p.2.getD st.version)] else []), st.notFound⟩).outdated = st.outdated ++ out ∧ out.length ≤ 1 := by
    intro an
    split
    · exact ⟨[], by simp, by simp⟩
    · split
      · exact ⟨[], by simp, by simp⟩
      · refine ⟨_, rfl, ?_⟩
        split <;> simp
  unfold outStep
  cases names p.1 with
  | skip => exact key []
  | name n => exact key n
  | same => exact key st.archname

/-- What is shown as the number of a list: nothing for an empty one. -/
def shownNumber (l : List OutRow) : Option Nat := if l = [] then none else some l.length

/-- What the loop over the ports of a collection does. -/
theorem repPorts (names : Str → ArchName) (arch : List (Str × Str)) (key : Str) (ports : List (Str × Option Str)) (r : RepSt) (l : List OutRow)
    (hl : mget r.lists key = some l) (hc : mget r.counts key = shownNumber l) :
    ∃ new, (ports.foldl (repPort names arch key) r).st.outdated = r.st.outdated ++ new ∧ (ports.foldl (repPort names arch key) r).st = ports.foldl (outStep names arch) r.st ∧
      mget (ports.foldl (repPort names arch key) r).lists key = some (l ++ new) ∧ mget (ports.foldl (repPort names arch key) r).counts key = shownNumber (l ++ new) ∧
      ∀ k, k ≠ key → mget (ports.foldl (repPort names arch key) r).lists k = mget r.lists k ∧ mget (ports.foldl (repPort names arch key) r).counts k = mget r.counts k := by
  induction ports generalizing r l with
  | nil => exact ⟨[], by simp, rfl, by simpa using hl, by simpa using hc, fun _ _ => ⟨rfl, rfl⟩⟩
  | cons p ports ih =>
    obtain ⟨out, ho, hlen⟩ := outStep_grows names arch r.st p
    have hnew : (outStep names arch r.st p).outdated.drop r.st.outdated.length = out := by rw [ho]; simp
    have hst : (repPort names arch key r p).st = outStep names arch r.st p := by
      unfold repPort
      dsimp only
      split <;> rfl
    have hstep : mget (repPort names arch key r p).lists key = some (l ++ out) ∧ mget (repPort names arch key r p).counts key = shownNumber (l ++ out) ∧
        ∀ k, k ≠ key → mget (repPort names arch key r p).lists k = mget r.lists k ∧ mget (repPort names arch key r p).counts k = mget r.counts k := by
      unfold repPort
      dsimp only
      rw [hnew]
      by_cases h0 : out = []
      · rw [if_pos h0, h0]
        exact ⟨by simpa using hl, by simpa using hc, fun _ _ => ⟨rfl, rfl⟩⟩
      · rw [if_neg h0]
        have h1 : out.length = 1 := by
          have : out.length ≠ 0 := fun e => h0 (List.eq_nil_of_length_eq_zero e)
          omega
        dsimp only
        refine ⟨?_, ?_, ?_⟩
        · rw [mget_mset, if_pos rfl, hl]
          rfl
        · rw [mget_mset, if_pos rfl, hc]
          unfold shownNumber
          have hne : l ++ out ≠ [] := fun e => h0 (List.append_eq_nil_iff.mp e).2
          rw [if_neg hne]
          by_cases hl0 : l = []
          · rw [if_pos hl0, hl0]
            simp [h1]
          · rw [if_neg hl0]
            simp [h1]
        · intro k hk
          rw [mget_mset, mget_mset, if_neg (Ne.symm hk), if_neg (Ne.symm hk)]
          exact ⟨rfl, rfl⟩
    obtain ⟨a1, a2, a3⟩ := hstep
    obtain ⟨new, b1, b2, b3, b4, b5⟩ := ih (repPort names arch key r p) (l ++ out) a1 a2
    simp only [List.foldl_cons]
    refine ⟨out ++ new, ?_, ?_, ?_, ?_, ?_⟩
    · rw [b1, hst, ho, List.append_assoc]
    · rw [b2, hst]
    · rw [b3, List.append_assoc]
    · rw [b4, List.append_assoc]
    · intro k hk
      obtain ⟨c1, c2⟩ := b5 k hk
      obtain ⟨d1, d2⟩ := a3 k hk
      exact ⟨c1.trans d1, c2.trans d2⟩

/-- The rows found in the collections in `pre`, one after the other. -/
def FoundIn (names : Str → ArchName) (arch : List (Str × Str)) (folder : Str → List (Str × Option Str)) (pre : List Str) : List OutRow :=
  (outdated names arch (pre.flatMap folder)).outdated

theorem repLoop_spec (names : Str → ArchName) (arch : List (Str × Str)) (folder : Str → List (Str × Option Str)) (cs : List Str) (hd : (cs.map lettersOf).Nodup) :
    ∃ rows : Str → List OutRow,
      (∀ pre c post, cs = pre ++ c :: post → FoundIn names arch folder (pre ++ [c]) = FoundIn names arch folder pre ++ rows c) ∧
      (repLoop names arch folder cs).st = outdated names arch (cs.flatMap folder) ∧
      (∀ c ∈ cs, mget (repLoop names arch folder cs).lists (lettersOf c) = some (rows c) ∧ mget (repLoop names arch folder cs).counts (lettersOf c) = shownNumber (rows c)) ∧
      (∀ k, k ∉ cs.map lettersOf → mget (repLoop names arch folder cs).counts k = none) ∧
      (repLoop names arch folder cs).st.outdated.length = (cs.map (fun c => (rows c).length)).sum := by
  induction cs using List.reverseRecOn with
  | nil => exact ⟨fun _ => [], by simp, rfl, by simp, fun _ _ => rfl, rfl⟩
  | append_singleton cs c ih =>
    rw [List.map_append, List.nodup_append] at hd
    obtain ⟨hd1, _, hd2⟩ := hd
    have hnot : lettersOf c ∉ cs.map lettersOf := fun h => hd2 _ h _ (by simp) rfl
    obtain ⟨rows, h1, h2, h3, h4, h5⟩ := ih hd1
    have e : repLoop names arch folder (cs ++ [c]) = repColl names arch folder (repLoop names arch folder cs) c := by
      unfold repLoop
      rw [List.foldl_append]
      rfl
    generalize hr : repLoop names arch folder cs = r at *
    obtain ⟨new, b1, b2, b3, b4, b5⟩ := repPorts names arch (lettersOf c) (folder c) { r with lists := mset (lettersOf c) [] r.lists } []
      (by rw [mget_mset, if_pos rfl]) (by rw [h4 _ hnot]; rfl)
    have hcol : repColl names arch folder r c = (folder c).foldl (repPort names arch (lettersOf c)) { r with lists := mset (lettersOf c) [] r.lists } := rfl
    rw [e]
    rw [← hcol] at b1 b2 b3 b4 b5
    have hne : ∀ d ∈ cs, lettersOf d ≠ lettersOf c := fun d hm he => hnot (he ▸ List.mem_map_of_mem hm)
    have hne' : ∀ d ∈ cs, d ≠ c := fun d hm he => hne d hm (by rw [he])
    have hst : (repColl names arch folder r c).st = outdated names arch ((cs ++ [c]).flatMap folder) := by
      rw [b2]
      unfold outdated
      rw [List.flatMap_append, List.foldl_append, List.flatMap_cons, List.flatMap_nil, List.append_nil]
      show (folder c).foldl (outStep names arch) r.st = _
      rw [h2]
      rfl
    refine ⟨fun d => if d = c then new else rows d, ?_, hst, ?_, ?_, ?_⟩
    · intro pre d post he
      rcases List.eq_nil_or_concat post with rfl | ⟨post', z, rfl⟩
      · obtain ⟨rfl, hcd⟩ := List.append_inj' he rfl
        injection hcd with hcd
        subst hcd
        dsimp only
        rw [if_pos rfl]
        show (outdated names arch ((cs ++ [c]).flatMap folder)).outdated = (outdated names arch (cs.flatMap folder)).outdated ++ new
        rw [← hst, b1, ← h2]
      · have he' : cs ++ [c] = (pre ++ d :: post') ++ [z] := by rw [he]; simp
        obtain ⟨rfl, _⟩ := List.append_inj' he' rfl
        dsimp only
        rw [if_neg (hne' d (by simp))]
        exact h1 pre d post' rfl
    · intro d hm
      rcases List.mem_append.mp hm with hm | hm
      · dsimp only
        rw [if_neg (hne' d hm)]
        obtain ⟨c1, c2⟩ := b5 (lettersOf d) (hne d hm)
        obtain ⟨d1, d2⟩ := h3 d hm
        refine ⟨?_, c2.trans d2⟩
        rw [c1]
        dsimp only
        rw [mget_mset, if_neg (Ne.symm (hne d hm)), d1]
      · rw [List.mem_singleton.mp hm]
        dsimp only
        rw [if_pos rfl]
        exact ⟨by simpa using b3, by simpa using b4⟩
    · intro k hk
      rw [List.map_append, List.mem_append, not_or] at hk
      obtain ⟨c1, c2⟩ := b5 k (by simpa using hk.2)
      rw [c2]
      exact h4 k hk.1
    · rw [b1, List.length_append, List.map_append, List.sum_append]
      show r.st.outdated.length + new.length = _
      rw [h5]
      have : cs.map (fun d => (if d = c then new else rows d).length) = cs.map (fun d => (rows d).length) :=
        List.map_congr_left (fun d hm => by rw [if_neg (hne' d hm)])
      rw [this]
      simp

/-- **C203.** For collections that differ in their letters: there are lists of rows — those found in each collection, one collection after the other — such that the report shows each collection
with its rows and their number (with `-s` only the number; nothing instead of 0), and a total that is the sum of the numbers. -/
theorem C203_numbers (names : Str → ArchName) (arch : List (Str × Str)) (folder : Str → List (Str × Option Str)) (cs : List Str) (hd : (cs.map lettersOf).Nodup) :
    ∃ rows : Str → List OutRow,
      (∀ pre c post, cs = pre ++ c :: post → FoundIn names arch folder (pre ++ [c]) = FoundIn names arch folder pre ++ rows c) ∧
      (∀ nf, ∃ compared tail, outReport false nf names arch folder cs =
        cs.flatMap (fun c => .collection c (shownNumber (rows c)) :: (rows c).map .row) ++ .total (cs.map (fun c => (rows c).length)).sum compared :: tail ∧
        ∀ x ∈ tail, (∃ n, x = .missing n) ∨ ∃ n, x = .missingName n) ∧
      (∀ nf, ∃ compared tail, outReport true nf names arch folder cs =
        cs.map (fun c => .collection c (shownNumber (rows c))) ++ .total (cs.map (fun c => (rows c).length)).sum compared :: tail ∧
        ∀ x ∈ tail, (∃ n, x = .missing n) ∨ ∃ n, x = .missingName n) := by
  obtain ⟨rows, h1, h2, h3, _, h5⟩ := repLoop_spec names arch folder cs hd
  have ht : ∀ nf : Bool, ∀ l : List Str, ∀ x ∈ (if l.length > 0 then [RepLine.missing l.length] else []) ++ (if nf then l.map RepLine.missingName else []),
      (∃ n, x = .missing n) ∨ ∃ n, x = .missingName n := by
    intro nf l x hx
    rcases List.mem_append.mp hx with hx | hx
    · split at hx
      · exact Or.inl ⟨_, List.mem_singleton.mp hx⟩
      · cases hx
    · split at hx
      · obtain ⟨n, _, rfl⟩ := List.mem_map.mp hx
        exact Or.inr ⟨n, rfl⟩
      · cases hx
  refine ⟨rows, h1, ?_, ?_⟩
  · intro nf
    refine ⟨(repLoop names arch folder cs).compared, _, ?_, ht nf (repLoop names arch folder cs).st.notFound⟩
    unfold outReport
    dsimp only
    rw [if_neg (by decide), h5, List.append_assoc, List.append_assoc]
    congr 1
    rw [List.flatMap_def, List.flatMap_def]
    congr 1
    apply List.map_congr_left
    intro c hc
    rw [(h3 c hc).1, (h3 c hc).2]
    rfl
  · intro nf
    refine ⟨(repLoop names arch folder cs).compared, _, ?_, ht nf (repLoop names arch folder cs).st.notFound⟩
    unfold outReport
    dsimp only
    rw [if_pos rfl, h5, List.append_assoc, List.append_assoc]
    congr 1
    apply List.map_congr_left
    intro c hc
    rw [(h3 c hc).2]

/-- **C203, the ports without a package**: the report gives their number exactly when there are some, and their names exactly with `-nf`. -/
theorem C203_missing (summary nf : Bool) (names : Str → ArchName) (arch : List (Str × Str)) (folder : Str → List (Str × Option Str)) (cs : List Str) (hd : (cs.map lettersOf).Nodup) :
    (∀ n, RepLine.missing n ∈ outReport summary nf names arch folder cs ↔ n = (outdated names arch (cs.flatMap folder)).notFound.length ∧ n ≠ 0) ∧
    (∀ p, RepLine.missingName p ∈ outReport summary nf names arch folder cs ↔ nf = true ∧ p ∈ (outdated names arch (cs.flatMap folder)).notFound) := by
  obtain ⟨_, _, h2, _⟩ := repLoop_spec names arch folder cs hd
  unfold outReport
  dsimp only
  rw [h2]
  generalize (outdated names arch (cs.flatMap folder)).notFound = l
  constructor
  · intro n
    cases summary <;> cases nf <;> simp <;> omega
  · intro p
    cases summary <;> cases nf <;> simp

/-- A port is compared if it has a name in the other distribution. -/
def Compared (names : Str → ArchName) (p : Str × Option Str) : Prop := ∃ n, n ≠ [] ∧ names p.1 = .name n

open Classical in
/-- **C203, how many were compared**: when no port takes over the name of the port before it. -/
theorem C203_compared (summary nf : Bool) (names : Str → ArchName) (arch : List (Str × Str)) (folder : Str → List (Str × Option Str)) (cs : List Str)
    (hs : ∀ c ∈ cs, ∀ p ∈ folder c, names p.1 ≠ .same) (a b : Nat) (h : RepLine.total a b ∈ outReport summary nf names arch folder cs) :
    b = ((cs.flatMap folder).filter (fun p => decide (Compared names p))).length := by
  have hport : ∀ key (ports : List (Str × Option Str)) (r : RepSt), (∀ p ∈ ports, names p.1 ≠ .same) →
      (ports.foldl (repPort names arch key) r).compared = r.compared + (ports.filter (fun p => decide (Compared names p))).length := by
    intro key ports
    induction ports with
    | nil => intro r _; rfl
    | cons p ports ih =>
      intro r hp
      rw [List.foldl_cons, ih _ (fun q hq => hp q (by simp [hq]))]
      have hc : (repPort names arch key r p).compared = r.compared + if Compared names p then 1 else 0 := by
        have hn : (outStep names arch r.st p).archname = [] ↔ ¬ Compared names p := by
          have hp' := hp p (by simp)
          unfold outStep Compared
          cases hnm : names p.1 with
          | skip => simp
          | same => exact absurd hnm hp'
          | name n =>
            dsimp only
            by_cases h0 : n = []
            · simp [h0]
            · rw [if_neg h0]
              split <;> simp [h0]
        unfold repPort
        dsimp only
        split
        · dsimp only
          split
          · rename_i hx; rw [if_neg (hn.mp hx)]; rfl
          · rename_i hx; rw [if_pos (not_not.mp (fun hy => hx (hn.mpr hy)))]
        · dsimp only
          split
          · rename_i hx; rw [if_neg (hn.mp hx)]; rfl
          · rename_i hx; rw [if_pos (not_not.mp (fun hy => hx (hn.mpr hy)))]
      rw [hc, List.filter_cons]
      by_cases hx : Compared names p
      · simp [hx]; omega
      · simp [hx]
  have hcs : ∀ (cs : List Str) (r : RepSt), (∀ c ∈ cs, ∀ p ∈ folder c, names p.1 ≠ .same) →
      (cs.foldl (repColl names arch folder) r).compared = r.compared + ((cs.flatMap folder).filter (fun p => decide (Compared names p))).length := by
    intro cs
    induction cs with
    | nil => intro r _; rfl
    | cons c cs ih =>
      intro r hh
      rw [List.foldl_cons, ih _ (fun d hd => hh d (by simp [hd])), List.flatMap_cons, List.filter_append, List.length_append]
      unfold repColl
      rw [hport _ _ _ (hh c (by simp))]
      dsimp only
      omega
  have e := hcs cs ⟨⟨[], [], [], [], []⟩, [], [], 0⟩ hs
  rw [Nat.zero_add] at e
  rw [← e]
  unfold outReport at h
  dsimp only at h
  have : b = (repLoop names arch folder cs).compared := by
    revert h
    generalize repLoop names arch folder cs = r
    cases summary <;> cases nf <;> simp
  exact this

/-- A collection named twice is counted twice but listed once: the numbers do not agree with the list. -/
theorem C203_twice_counterexample :
    outReport false false (fun p => .name p) [("bash".toList, "5.2".toList)] (fun _ => [("bash".toList, some "5.1".toList)]) ["base".toList, "base".toList] =
      [.collection "base".toList (some 2), .row ("bash".toList, "5.2".toList, "5.1".toList),
       .collection "base".toList (some 2), .row ("bash".toList, "5.2".toList, "5.1".toList), .total 2 2] := by decide +kernel

example : (["base".toList, "cli".toList, "cli-extra".toList, "gui".toList, "gui-extra".toList].map lettersOf).Nodup ∧
    outReport false true (fun p => .name p) [("bash".toList, "5.2".toList)] (fun c => if c = "base".toList then [("bash".toList, some "5.1".toList)] else [("vim".toList, some "9".toList)])
      ["base".toList, "cli-extra".toList] =
      [.collection "base".toList (some 1), .row ("bash".toList, "5.2".toList, "5.1".toList), .collection "cli-extra".toList none, .total 1 2, .missing 1, .missingName "vim".toList] :=
  ⟨by decide, by decide +kernel⟩

/-! ## C204 -/

theorem dropWhile_stop {p : Char → Bool} (l : Str) (c : Char) (r : Str) (hl : ∀ x ∈ l, p x = true) (hc : p c = false) :
    (l ++ c :: r).dropWhile p = c :: r := by
  induction l with
  | nil => simp [hc]
  | cons x l ih =>
    have hx := hl x (by simp)
    simp [hx, ih (fun y hy => hl y (by simp [hy]))]

theorem takeWhile_stop {p : Char → Bool} (l : Str) (c : Char) (r : Str) (hl : ∀ x ∈ l, p x = true) (hc : p c = false) :
    (l ++ c :: r).takeWhile p = l := by
  induction l with
  | nil => simp [hc]
  | cons x l ih =>
    have hx := hl x (by simp)
    simp [hx, ih (fun y hy => hl y (by simp [hy]))]

theorem not_dash {l : Str} (h : '-' ∉ l) : ∀ x ∈ l.reverse, (decide (x ≠ '-')) = true := by
  intro x hx
  have : x ≠ '-' := fun e => h (e ▸ List.mem_reverse.mp hx)
  simp [this]

theorem cutDash_app (a b : Str) (h : '-' ∉ b) : cutDash (a ++ '-' :: b) = a := by
  unfold cutDash
  have : (a ++ '-' :: b).reverse = b.reverse ++ '-' :: a.reverse := by simp
  rw [this, dropWhile_stop (p := fun x => decide (x ≠ '-')) _ _ _ (not_dash h) (by decide)]
  simp

theorem cutDash2_app (a b c : Str) (hb : '-' ∉ b) (hc : '-' ∉ c) : cutDash2 (a ++ '-' :: (b ++ '-' :: c)) = a := by
  unfold cutDash2
  have : (a ++ '-' :: (b ++ '-' :: c)).reverse = c.reverse ++ '-' :: (b.reverse ++ '-' :: a.reverse) := by simp
  rw [this, dropWhile_stop (p := fun x => decide (x ≠ '-')) _ _ _ (not_dash hc) (by decide)]
  dsimp only
  rw [dropWhile_stop (p := fun x => decide (x ≠ '-')) _ _ _ (not_dash hb) (by decide)]
  simp

theorem cutFirst_front (w s : Str) : cutFirst w (w ++ s) = some ([], s) := by
  cases h : w ++ s with
  | nil =>
    have := List.append_eq_nil_iff.mp h
    rw [this.1, this.2]
    rfl
  | cons x t =>
    have hp : w.isPrefixOf (x :: t) = true := by
      rw [← h, List.isPrefixOf_iff_prefix]
      exact List.prefix_append _ _
    have hd : (x :: t).drop w.length = s := by rw [← h]; simp
    unfold cutFirst
    simp only [hp, if_true, hd]

/-- A package of the other distribution: its name, its version behind the epoch, and its entry in the database. -/
structure ArchPkg where
  name : Str
  epoch : Option Str
  version : Str
  release : Str

/-- How its entry is written: `name-epoch:version-release/`. -/
def ArchPkg.entry (p : ArchPkg) : Str :=
  p.name ++ '-' :: ((match p.epoch with | none => [] | some e => e ++ [':']) ++ p.version ++ '-' :: (p.release ++ ['/']))

/-- No dash in the version and release, no colon in the version, and a name. -/
def ArchPkg.Ok (p : ArchPkg) : Prop :=
  p.name ≠ [] ∧ p.name.getLast? ≠ some '/' ∧ '-' ∉ p.version ∧ ':' ∉ p.version ∧ '-' ∉ p.release ∧ ∀ e, p.epoch = some e → '-' ∉ e

theorem afterColon_app (a b : Str) (hb : ':' ∉ b) : afterColon (a ++ ':' :: b) = b := by
  unfold afterColon
  have : (a ++ ':' :: b).reverse = b.reverse ++ ':' :: a.reverse := by simp
  rw [this, takeWhile_stop (p := fun x => decide (x ≠ ':'))]
  · simp
  · intro x hx
    have : x ≠ ':' := fun e => hb (e ▸ List.mem_reverse.mp hx)
    simp [this]
  · decide

theorem afterColon_none (b : Str) (hb : ':' ∉ b) : afterColon b = b := by
  unfold afterColon
  have : b.reverse.takeWhile (fun x => decide (x ≠ ':')) = b.reverse := by
    have hb' : ':' ∉ b.reverse := fun h => hb (List.mem_reverse.mp h)
    generalize b.reverse = l at hb'
    induction l with
    | nil => rfl
    | cons x l ih =>
      simp only [List.mem_cons, not_or] at hb'
      rw [List.takeWhile_cons, if_pos (by simp [Ne.symm hb'.1]), ih hb'.2]
  rw [this, List.reverse_reverse]

/-- **C204, an entry**: name and version are taken from it as they were written, whatever dashes the name has. -/
theorem C204_entry (p : ArchPkg) (h : p.Ok) : archEntry p.entry = (p.name, p.version) := by
  obtain ⟨name, epoch, version, release⟩ := p
  obtain ⟨_, _, hv, hvc, hr, he⟩ := h
  dsimp only at *
  have hrel : '-' ∉ release ++ ['/'] := by simp [hr]
  cases epoch with
  | none =>
    show archEntry (name ++ '-' :: (([] : Str) ++ version ++ '-' :: (release ++ ['/']))) = _
    rw [List.nil_append]
    unfold archEntry
    dsimp only
    rw [cutDash2_app _ _ _ hv hrel]
    unfold dropFirst
    have : name ++ '-' :: (version ++ '-' :: (release ++ ['/'])) = (name ++ ['-']) ++ (version ++ '-' :: (release ++ ['/'])) := by simp
    rw [this, cutFirst_front]
    dsimp only
    rw [List.nil_append, cutDash_app _ _ hrel, afterColon_none _ hvc]
  | some e =>
    have hev : '-' ∉ e ++ ':' :: version := by simp [hv, he e rfl]
    have hform : name ++ '-' :: (e ++ [':'] ++ version ++ '-' :: (release ++ ['/'])) = name ++ '-' :: ((e ++ ':' :: version) ++ '-' :: (release ++ ['/'])) := by simp
    show archEntry (name ++ '-' :: (e ++ [':'] ++ version ++ '-' :: (release ++ ['/']))) = _
    rw [hform]
    unfold archEntry
    dsimp only
    rw [cutDash2_app _ _ _ hev hrel]
    unfold dropFirst
    have : name ++ '-' :: ((e ++ ':' :: version) ++ '-' :: (release ++ ['/'])) = (name ++ ['-']) ++ ((e ++ ':' :: version) ++ '-' :: (release ++ ['/'])) := by simp
    rw [this, cutFirst_front]
    dsimp only
    rw [List.nil_append, cutDash_app _ _ hrel, afterColon_app _ _ hvc]

/-- **C204, the table**: after an update in which both parts came, the table gives for each name the version of the last package of that name, and has no other names. -/
theorem C204_table_partial (old : List (Str × Str)) (core extra : List ArchPkg) (h : ∀ p ∈ core ++ extra, p.Ok) (n v : Str) :
    (updateRepo old (some (core.map ArchPkg.entry)) (some (extra.map ArchPkg.entry))).2 = true ∧
    (mget (updateRepo old (some (core.map ArchPkg.entry)) (some (extra.map ArchPkg.entry))).1 n = some v ↔
      ∃ pre p post, core ++ extra = pre ++ p :: post ∧ p.name = n ∧ p.version = v ∧ ∀ q ∈ post, q.name ≠ n) := by
  refine ⟨rfl, ?_⟩
  unfold updateRepo
  dsimp only [Option.getD_some]
  rw [← List.map_append]
  generalize core ++ extra = ps at h
  induction ps using List.reverseRecOn with
  | nil => simp [archTable, mget]
  | append_singleton ps p ih =>
    have ih := ih (fun q hq => h q (by simp [hq]))
    have hp := h p (by simp)
    have e : archTable ((ps ++ [p]).map ArchPkg.entry) = mset p.name p.version (archTable (ps.map ArchPkg.entry)) := by
      unfold archTable
      rw [List.map_append, List.foldl_append]
      simp only [List.map_cons, List.map_nil, List.foldl_cons, List.foldl_nil]
      rw [C204_entry p hp]
      dsimp only
      rw [if_neg (by rintro (h0 | h0); exacts [hp.1 h0, hp.2.1 h0])]
    rw [e, mget_mset]
    by_cases hn : p.name = n
    · rw [if_pos hn]
      constructor
      · intro hv
        injection hv with hv
        exact ⟨ps, p, [], rfl, hn, hv, by simp⟩
      · rintro ⟨pre, q, post, he, hq, rfl, hpost⟩
        rcases List.eq_nil_or_concat post with rfl | ⟨post', z, rfl⟩
        · obtain ⟨_, hx⟩ := List.append_inj' he rfl
          injection hx with hx
          rw [hx]
        · have he' : ps ++ [p] = (pre ++ q :: post') ++ [z] := by rw [he]; simp
          obtain ⟨_, hx⟩ := List.append_inj' he' rfl
          injection hx with hx
          exact absurd (hx ▸ hn) (hpost z (by simp))
    · rw [if_neg hn, ih]
      constructor
      · rintro ⟨pre, q, post, rfl, hq, hv, hpost⟩
        refine ⟨pre, q, post ++ [p], by simp, hq, hv, ?_⟩
        intro x hx
        rcases List.mem_append.mp hx with hx | hx
        · exact hpost x hx
        · rw [List.mem_singleton.mp hx]
          exact hn
      · rintro ⟨pre, q, post, he, hq, hv, hpost⟩
        rcases List.eq_nil_or_concat post with rfl | ⟨post', z, rfl⟩
        · obtain ⟨_, hx⟩ := List.append_inj' he rfl
          injection hx with hx
          exact absurd (hx ▸ hq) hn
        · have he' : ps ++ [p] = (pre ++ q :: post') ++ [z] := by rw [he]; simp
          obtain ⟨rfl, _⟩ := List.append_inj' he' rfl
          exact ⟨pre, q, post', rfl, hq, hv, fun x hx => hpost x (by simp [hx])⟩

/-- **C204, when it is called updated**: exactly when one of the two parts came. -/
theorem C204_message (old : List (Str × Str)) (core extra : Option (List Str)) : (updateRepo old core extra).2 = true ↔ core ≠ none ∨ extra ≠ none := by
  cases core <;> cases extra <;> simp [updateRepo]

/-- A failed update leaves nothing of the old table, so that every port is then without a package. -/
theorem C204_lost_counterexample (old : List (Str × Str)) : updateRepo old none none = ([], false) := rfl

/-- When only one of the two parts comes, the table is called updated all the same, and the packages of the other part are missing. -/
theorem C204_half_counterexample : ∃ p : ArchPkg, p.Ok ∧ (updateRepo [(p.name, p.version)] (some []) none).2 = true ∧ mget (updateRepo [(p.name, p.version)] (some []) none).1 p.name = none :=
  ⟨⟨"bash".toList, none, "5.2".toList, "1".toList⟩, ⟨by decide, by decide, by decide, by decide, by decide, nofun⟩, rfl, rfl⟩

example : ArchPkg.Ok ⟨"gtk-doc-x".toList, some "1".toList, "5.2.026".toList, "2".toList⟩ ∧
    ArchPkg.entry ⟨"gtk-doc-x".toList, some "1".toList, "5.2.026".toList, "2".toList⟩ = "gtk-doc-x-1:5.2.026-2/".toList := by
  refine ⟨⟨by decide, by decide, by decide, by decide, by decide, ?_⟩, by decide⟩
  intro e he
  cases he
  decide

end Cards.Props
