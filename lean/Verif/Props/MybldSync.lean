import Verif.Model.MybldSync
import Mathlib.Tactic.Common
import Verif.Lemmas.Base
/-!
# C230, C231: fetching the binaries
-/
namespace Cards.Props
open Cards

/-- `f` is a file of the port `n`: its name is `n`, a dot, and whatever. -/
def PortFile (n f : Str) : Prop := ∃ r, f = n ++ '.' :: r

theorem ofPort_iff {n f : Str} : ofPort n f = true ↔ PortFile n f := by
  unfold ofPort PortFile
  rw [List.isPrefixOf_iff_prefix]
  constructor
  · rintro ⟨r, rfl⟩; exact ⟨r, by simp⟩
  · rintro ⟨r, rfl⟩; exact ⟨r, by simp⟩

theorem mget_keep {P : Str → Bool} (m : List (Str × Str)) (f : Str) : mget (m.filter (fun e => P e.1)) f = if P f then mget m f else none := by
  induction m with
  | nil => simp [mget]
  | cons p m ih =>
    obtain ⟨k, v⟩ := p
    rw [List.filter_cons]
    by_cases hk : k = f
    · subst hk
      by_cases hp : P k = true
      · simp [hp, mget]
      · rw [if_neg hp, ih, if_neg hp]
        simp [hp]
    · by_cases hp : P k = true
      · simp only [hp, if_true, mget, if_neg hk, ih]
      · rw [if_neg hp, ih]
        simp [mget, hk]

theorem put_get (l dir : List (Str × Str)) (hl : (keys l).Nodup) (f : Str) :
    mget (putFiles l dir) f = match mget l f with | some c => some c | none => mget dir f := by
  unfold putFiles
  induction l generalizing dir with
  | nil => rfl
  | cons p l ih =>
    obtain ⟨k, v⟩ := p
    have hn : k ∉ keys l ∧ (keys l).Nodup := by simpa [keys] using hl
    rw [List.foldl_cons, ih _ hn.2]
    by_cases hk : k = f
    · subst hk
      rw [mget_none_iff.mpr hn.1]
      simp [mget, mget_mset]
    · simp only [mget, if_neg hk, mget_mset]

theorem keys_take {l : List (Str × Str)} (h : (keys l).Nodup) (w : NetLink) : (keys (w.arrive l)).Nodup := by
  unfold NetLink.arrive
  split
  · exact h
  · unfold keys at h ⊢
    exact List.Sublist.nodup (List.Sublist.map _ (List.take_sublist _ _)) h

theorem get_mem {l : List (Str × Str)} {f c : Str} (h : mget l f = some c) : (f, c) ∈ l := by
  induction l with
  | nil => cases h
  | cons p l ih =>
    obtain ⟨k, v⟩ := p
    unfold mget at h
    split at h
    · next hk => subst hk; cases h; exact List.mem_cons_self ..
    · exact List.mem_cons_of_mem _ (ih h)

theorem mem_get {l : List (Str × Str)} (hl : (keys l).Nodup) {f c : Str} (h : (f, c) ∈ l) : mget l f = some c := by
  induction l with
  | nil => cases h
  | cons p l ih =>
    obtain ⟨k, v⟩ := p
    have hn : k ∉ keys l ∧ (keys l).Nodup := by simpa [keys] using hl
    unfold mget
    rcases List.mem_cons.mp h with h | h
    · cases h; simp
    · have : k ≠ f := fun he => hn.1 (he ▸ List.mem_map.mpr ⟨_, h, rfl⟩)
      rw [if_neg this]; exact ih hn.2 h

theorem arrive_get {l : List (Str × Str)} (hl : (keys l).Nodup) (w : NetLink) {f c : Str} (h : mget (w.arrive l) f = some c) : mget l f = some c := by
  have := get_mem h
  refine mem_get hl ?_
  unfold NetLink.arrive at this
  split at this
  · exact this
  · exact List.mem_of_mem_take this

theorem keys_filter {l : List (Str × Str)} (h : (keys l).Nodup) (P : Str × Str → Bool) : (keys (l.filter P)).Nodup := by
  unfold keys at h ⊢
  exact List.Sublist.nodup (List.Sublist.map _ List.filter_sublist) h

/-- Nothing is changed without a yes, and the status says so. -/
theorem C230_asked_first (version answer : Str) (name : Option Str) (w : NetLink) (server dir : List (Str × Str))
    (h : answer ≠ "y".toList ∧ answer ≠ "Y".toList ∧ answer ≠ "yes".toList) : rsyncBinaries version answer name w server dir = (1, dir) := by
  have : answer ∉ yesAnswers := by simpa [yesAnswers] using h
  unfold rsyncBinaries
  split
  · rfl
  · first
    | rw [if_pos this]
    | rfl

/-- Whatever becomes of the connection: files of other ports are not touched when one port is asked for, and no file is there with a content that is neither the one it
had nor the server's. -/
theorem C230_only_asked (version answer : Str) (name : Option Str) (w : NetLink) (server dir : List (Str × Str)) (hs : (keys server).Nodup) (f : Str) :
    (∀ n, name = some n → ¬ PortFile n f → mget (rsyncBinaries version answer name w server dir).2 f = mget dir f) ∧
    ∀ c, mget (rsyncBinaries version answer name w server dir).2 f = some c → mget dir f = some c ∨ mget server f = some c := by
  unfold rsyncBinaries
  split
  · exact ⟨fun _ _ _ => rfl, fun c h => Or.inl h⟩
  split
  · exact ⟨fun _ _ _ => rfl, fun c h => Or.inl h⟩
  cases name with
  | some n =>
    have hd : mget (dir.filter (fun e => !ofPort n e.1)) f = if !ofPort n f then mget dir f else none := mget_keep (P := fun k => !ofPort n k) dir f
    have hf := keys_filter hs (fun e => ofPort n e.1)
    have hsv : mget (server.filter (fun e => ofPort n e.1)) f = if ofPort n f then mget server f else none := mget_keep (P := fun k => ofPort n k) server f
    simp only
    unfold rsyncPort
    constructor
    · rintro _ ⟨rfl⟩ hp
      have hof : ofPort n f = false := by rw [Bool.eq_false_iff]; exact fun h => hp (ofPort_iff.mp h)
      rw [hof] at hd hsv
      split
      · rw [put_get _ _ (keys_take hf w)]
        have : mget (w.arrive (server.filter (fun e => ofPort n e.1))) f = none := by
          cases hc : mget (w.arrive (server.filter (fun e => ofPort n e.1))) f with
          | none => rfl
          | some c => have := arrive_get hf w hc; rw [hsv] at this; cases this
        rw [this]; simpa using hd
      · simpa using hd
    · intro c h
      split at h
      · rw [put_get _ _ (keys_take hf w)] at h
        split at h
        · next c' hc =>
          cases h
          have := arrive_get hf w hc
          rw [hsv] at this
          split at this
          · exact Or.inr this
          · cases this
        · rw [hd] at h
          split at h
          · exact Or.inl h
          · cases h
      · rw [hd] at h
        split at h
        · exact Or.inl h
        · cases h
  | none =>
    have hd : mget (dir.filter (fun e => (keys server).contains e.1)) f = if (keys server).contains f then mget dir f else none :=
      mget_keep (P := fun k => (keys server).contains k) dir f
    refine ⟨fun n h => (by cases h), ?_⟩
    intro c h
    simp only at h
    unfold rsyncAll at h
    split at h
    · rw [put_get _ _ (keys_take hs w)] at h
      split at h
      · next c' hc => cases h; exact Or.inr (arrive_get hs w hc)
      · rw [hd] at h
        split at h
        · exact Or.inl h
        · cases h
    · exact Or.inl h

/-- When the connection holds, what was asked for is what the server has: the files of the port, or all files. -/
theorem C230_as_on_the_server (version answer : Str) (name : Option Str) (server dir : List (Str × Str)) (hs : (keys server).Nodup)
    (hv : version ≠ []) (ha : answer = "y".toList ∨ answer = "Y".toList ∨ answer = "yes".toList) (f : Str) (hf : ∀ n, name = some n → PortFile n f) :
    mget (rsyncBinaries version answer name ⟨true, none⟩ server dir).2 f = mget server f := by
  have : ¬ answer ∉ yesAnswers := by rw [Classical.not_not]; simpa [yesAnswers] using ha
  unfold rsyncBinaries
  rw [if_neg hv, if_neg this]
  cases name with
  | some n =>
    have hof : ofPort n f = true := ofPort_iff.mpr (hf n rfl)
    have hd : mget (dir.filter (fun e => !ofPort n e.1)) f = if !ofPort n f then mget dir f else none := mget_keep (P := fun k => !ofPort n k) dir f
    have hsv : mget (server.filter (fun e => ofPort n e.1)) f = if ofPort n f then mget server f else none := mget_keep (P := fun k => ofPort n k) server f
    rw [hof] at hd hsv
    simp only [rsyncPort, NetLink.arrive, if_true]
    rw [put_get _ _ (keys_filter hs _), hsv, hd]
    simp only [if_true]
    cases mget server f <;> simp
  | none =>
    have hd : mget (dir.filter (fun e => (keys server).contains e.1)) f = if (keys server).contains f then mget dir f else none :=
      mget_keep (P := fun k => (keys server).contains k) dir f
    simp only [rsyncAll, NetLink.arrive, if_true]
    rw [put_get _ _ hs, hd]
    cases hm : mget server f with
    | some c => rfl
    | none =>
      have := mget_none_iff.mp hm
      simp [this]

/-- When a collection is fetched, no file the server has is lost, wherever the connection breaks; and if the server is not reached at all nothing is changed. -/
theorem C231_nothing_lost_partial (version answer : Str) (w : NetLink) (server dir : List (Str × Str)) (hs : (keys server).Nodup) :
    (∀ f, (mget server f).isSome → (mget dir f).isSome → (mget (rsyncBinaries version answer none w server dir).2 f).isSome) ∧
    (w.listed = false → (rsyncBinaries version answer none w server dir).2 = dir) := by
  unfold rsyncBinaries
  constructor
  · intro f h1 h2
    split
    · exact h2
    split
    · exact h2
    simp only
    unfold rsyncAll
    split
    · have hd : mget (dir.filter (fun e => (keys server).contains e.1)) f = if (keys server).contains f then mget dir f else none :=
        mget_keep (P := fun k => (keys server).contains k) dir f
      have hin : (keys server).contains f = true := by
        rw [List.contains_iff_mem]
        by_contra hc
        rw [mget_none_iff.mpr hc] at h1
        cases h1
      rw [put_get _ _ (keys_take hs w), hd, hin]
      split
      · rfl
      · simpa using h2
    · exact h2
  · intro h
    split
    · rfl
    split
    · rfl
    simp [rsyncAll, h]

/-! ### Cases -/

/-- A server with two ports, one of them newer than here. -/
def xServer : List (Str × Str) := [("a.cards-2".toList, "2".toList), ("b.cards-1".toList, "b".toList), ("b.devel.cards-1".toList, "d".toList)]
/-- The directory here. -/
def xLocal : List (Str × Str) := [("a.cards-1".toList, "1".toList), ("b.cards-1".toList, "b".toList)]

example : (keys xServer).Nodup := by decide +kernel
example : PortFile "b".toList "b.devel.cards-1".toList ∧ ¬ PortFile "b".toList "a.cards-1".toList := by
  refine ⟨⟨"devel.cards-1".toList, by decide +kernel⟩, ?_⟩
  rintro ⟨r, h⟩
  have := congrArg List.head? h
  revert this
  simp
example : rsyncBinaries "23".toList "y".toList (some "a".toList) ⟨true, none⟩ xServer xLocal = (0, [("a.cards-2".toList, "2".toList), ("b.cards-1".toList, "b".toList)]) := by
  decide +kernel
example : rsyncBinaries "23".toList "yes".toList none ⟨true, some 1⟩ xServer xLocal = (0, [("a.cards-2".toList, "2".toList), ("b.cards-1".toList, "b".toList)]) := by
  decide +kernel
example : rsyncBinaries "23".toList "n".toList none ⟨true, none⟩ xServer xLocal = (1, xLocal) := by decide +kernel

/-- **C231** is false for one port: its binaries are deleted before the server is asked; when the server is not reached they are lost — also those the server has — and
`mybld` says that all went well. -/
theorem C231_binaries_lost_counterexample :
    mget xServer "b.cards-1".toList = mget xLocal "b.cards-1".toList ∧ (mget xLocal "b.cards-1".toList).isSome ∧
    (rsyncBinaries "23".toList "y".toList (some "b".toList) ⟨false, none⟩ xServer xLocal).1 = 0 ∧
    mget (rsyncBinaries "23".toList "y".toList (some "b".toList) ⟨false, none⟩ xServer xLocal).2 "b.cards-1".toList = none := by
  decide +kernel

end Cards.Props
