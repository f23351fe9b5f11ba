import Verif.Model.ElfMem
import Verif.Props.Elf
/-!
# C127: looking at a file for its libraries leaves nothing open
-/
namespace Cards.Props
open Cards Cards.Spec

/-- Nothing is open and no global buffer is allocated, as at the start of the program. -/
def Clean (h : ElfHeap) : Prop := h.file = false ∧ h.ptrs = []

theorem elfDynamicH_fst (f : Bytes) (six4 : Bool) (off : Nat) (d : Nat × Nat) (h : ElfHeap) : (elfDynamicH f six4 off d h).map Prod.fst = elfDynamic f off d := by
  unfold elfDynamicH elfDynamic
  cases getDatas f d.1 1 d.2 with
  | none => rfl
  | some dyn =>
    dsimp only
    split
    · rfl
    · cases dynLoop dyn (if off < f.length - off then getDatas f off 1 (f.length - off) else none) 0 d.2 <;> rfl

theorem elfProgramH_fst (f : Bytes) (six4 : Bool) (a b c off : Nat) (h : ElfHeap) : (elfProgramH f six4 a b c off h).map Prod.fst = elfProgram f a b c off := by
  unfold elfProgramH elfProgram
  cases getDatas f a b c with
  | none => rfl
  | some ph =>
    dsimp only
    cases findDynamic ph 0 c (0, 0) with
    | none => rfl
    | some d => exact elfDynamicH_fst ..

theorem elfSectionsH_fst (f : Bytes) (six4 : Bool) (a b c : Nat) (h : ElfHeap) : (elfSectionsH f six4 a b c h).map Prod.fst = elfSections f six4 a b c := by
  unfold elfSectionsH elfSections
  dsimp only
  split
  · rfl
  · cases getDatas f b (f.num (c + 10) 2) (f.num (c + 12) 2) with
    | none => rfl
    | some sh =>
      dsimp only
      cases findStrTab sh 0 (f.num (c + 12) 2) with
      | outside => rfl
      | absent => dsimp only; split <;> [rfl; exact elfProgramH_fst ..]
      | found i off => dsimp only; split <;> [rfl; (split <;> [rfl; exact elfProgramH_fst ..])]

/-- The names found are those of C58: this is the same function, with its buffers. -/
theorem elfRun_fst (f : Bytes) (h : ElfHeap) : (elfRun (some f) h).map Prod.fst = elfLibs f := by
  unfold elfRun elfLibs
  dsimp only
  repeat' (split <;> try rfl)
  all_goals exact elfSectionsH_fst ..

/-- What every path that ends keeps: the streams lost so far, and at most one more buffer is lost. -/
def HeapKept (h h' : ElfHeap) : Prop := Clean h' ∧ h'.lostFiles = h.lostFiles ∧ h.lostBufs ≤ h'.lostBufs ∧ h'.lostBufs ≤ h.lostBufs + 1

theorem mem_ptrs_assign {h : ElfHeap} {p q : ElfPtr} {b : Bool} (hq : q ∈ (h.assign p b).ptrs) : q = p ∨ q ∈ h.ptrs := by
  unfold ElfHeap.assign at hq
  cases b <;> simp at hq <;> tauto

theorem datas_cases (h : ElfHeap) (f : Bytes) (off size n : Nat) (p : ElfPtr) (hp : p ∉ h.ptrs) :
    (h.datas f off size n p).lostFiles = h.lostFiles ∧ (∀ q ∈ (h.datas f off size n p).ptrs, q = p ∨ q ∈ h.ptrs)
    ∧ (((getDatas f off size n).isSome = true ∧ (h.datas f off size n p).lostBufs = h.lostBufs)
      ∨ (getDatas f off size n = none ∧ h.lostBufs ≤ (h.datas f off size n p).lostBufs ∧ (h.datas f off size n p).lostBufs ≤ h.lostBufs + 1
        ∧ ((off + size * n ≤ f.length ∨ 2 ^ 63 ≤ off) → (h.datas f off size n p).lostBufs = h.lostBufs))) := by
  have ha : (h.assign p (getDatas f off size n).isSome).lostBufs = h.lostBufs := by simp [ElfHeap.assign, hp]
  have hf : (h.assign p (getDatas f off size n).isSome).lostFiles = h.lostFiles := rfl
  have hm : ∀ q ∈ (h.assign p (getDatas f off size n).isSome).ptrs, q = p ∨ q ∈ h.ptrs := fun q => mem_ptrs_assign
  unfold ElfHeap.datas
  dsimp only
  generalize h.assign p (getDatas f off size n).isSome = g at ha hf hm
  by_cases h1 : size = 0 ∨ n = 0 ∨ 2 ^ 63 ≤ off
  · rw [if_pos h1]
    refine ⟨hf, hm, Or.inr ⟨?_, by omega, by omega, fun _ => ha⟩⟩
    unfold getDatas
    rw [if_pos (by tauto)]
  · rw [if_neg h1]
    by_cases h2 : f.length < off + size * n
    · rw [if_pos h2]
      refine ⟨hf, hm, Or.inr ⟨?_, ?_, ?_, fun h => absurd h2 (by omega)⟩⟩
      · unfold getDatas
        rw [if_pos (by tauto)]
      · show h.lostBufs ≤ g.lostBufs + 1; omega
      · show g.lostBufs + 1 ≤ _; omega
    · rw [if_neg h2]
      refine ⟨hf, hm, Or.inl ⟨?_, ha⟩⟩
      unfold getDatas
      rw [if_neg (by tauto)]
      rfl

theorem kept_finish {h g : ElfHeap} (hf : g.lostFiles = h.lostFiles) (hp : .strings ∉ g.ptrs) (h1 : h.lostBufs ≤ g.lostBufs) (h2 : g.lostBufs ≤ h.lostBufs + 1) : HeapKept h g.finish := by
  refine ⟨⟨rfl, rfl⟩, hf, ?_, ?_⟩ <;> simp [ElfHeap.finish, hp] <;> omega

theorem finish_lost {g : ElfHeap} (hp : .strings ∉ g.ptrs) : g.finish.lostBufs = g.lostBufs := by simp [ElfHeap.finish, hp]

theorem elfDynamicH_kept (f : Bytes) (six4 : Bool) (off : Nat) (d : Nat × Nat) (h : ElfHeap) (hp : ∀ p ∈ h.ptrs, p ≠ .dynamic six4 ∧ p ≠ .strings) (l : List Str) (h' : ElfHeap)
    (he : elfDynamicH f six4 off d h = some (l, h')) : HeapKept h h' ∧ ((d.1 + d.2 ≤ f.length) → h'.lostBufs = h.lostBufs) := by
  unfold elfDynamicH at he
  obtain ⟨c1, c2, c3⟩ := datas_cases h f d.1 1 d.2 (.dynamic six4) fun hq => (hp _ hq).1 rfl
  dsimp only at he
  generalize h.datas f d.1 1 d.2 (.dynamic six4) = g at he c1 c2 c3
  have hs : ElfPtr.strings ∉ g.ptrs := fun hq => by
    rcases c2 _ hq with h | h
    · cases h
    · exact (hp _ h).2 rfl
  rw [Nat.one_mul] at c3
  cases hd : getDatas f d.1 1 d.2 with
  | none =>
    rw [hd] at he c3
    cases he
    rcases c3 with ⟨h, _⟩ | ⟨_, h1, h2, h3⟩
    · cases h
    · exact ⟨kept_finish c1 hs h1 h2, fun hh => by rw [finish_lost hs]; exact h3 (Or.inl hh)⟩
  | some dyn =>
    rw [hd] at he c3
    have c3 : g.lostBufs = h.lostBufs := by
      rcases c3 with ⟨_, h⟩ | ⟨h, _⟩
      · exact h
      · cases h
    dsimp only at he
    by_cases ho : off < 2 ^ 63 ∧ f.length ≤ off
    · rw [if_pos ho] at he
      cases he
      exact ⟨kept_finish c1 hs (by omega) (by omega), fun _ => by rw [finish_lost hs, c3]⟩
    · rw [if_neg ho] at he
      obtain ⟨e1, e2, e3⟩ := datas_cases g f off 1 (f.length - off) .strings hs
      generalize g.datas f off 1 (f.length - off) .strings = k at he e1 e2 e3
      have hk : k.lostBufs = g.lostBufs := by
        rcases e3 with ⟨_, h⟩ | ⟨hn, h1, h2, h3⟩
        · exact h
        · by_cases hl : off ≤ f.length
          · exact h3 (by omega)
          · exact h3 (by omega)
      cases hl : dynLoop dyn (if off < f.length - off then getDatas f off 1 (f.length - off) else none) 0 d.2 with
      | none => rw [hl] at he; cases he
      | some l' =>
        rw [hl] at he
        cases he
        have hns : ElfPtr.strings ∉ ((k.free (.dynamic six4)).free .strings).ptrs := by simp [ElfHeap.free]
        have hb : ((k.free (.dynamic six4)).free .strings).lostBufs = h.lostBufs := by show k.lostBufs = _; omega
        exact ⟨kept_finish (by show k.lostFiles = _; omega) hns (by omega) (by omega), fun _ => by rw [finish_lost hns, hb]⟩

theorem elfProgramH_kept (f : Bytes) (six4 : Bool) (phoff phentsize phnum off : Nat) (h : ElfHeap)
    (hp : ∀ p ∈ h.ptrs, p ≠ .program six4 ∧ p ≠ .dynamic six4 ∧ p ≠ .strings) (l : List Str) (h' : ElfHeap)
    (he : elfProgramH f six4 phoff phentsize phnum off h = some (l, h')) : HeapKept h h'
    ∧ (phoff + phentsize * phnum ≤ f.length → (∀ ph d, getDatas f phoff phentsize phnum = some ph → findDynamic ph 0 phnum (0, 0) = some d → d.1 + d.2 ≤ f.length) → h'.lostBufs = h.lostBufs) := by
  unfold elfProgramH at he
  obtain ⟨c1, c2, c3⟩ := datas_cases h f phoff phentsize phnum (.program six4) fun hq => (hp _ hq).1 rfl
  dsimp only at he
  generalize h.datas f phoff phentsize phnum (.program six4) = g at he c1 c2 c3
  have hs : ElfPtr.strings ∉ g.ptrs := fun hq => by
    rcases c2 _ hq with h | h
    · cases h
    · exact (hp _ h).2.2 rfl
  cases hd : getDatas f phoff phentsize phnum with
  | none =>
    rw [hd] at he c3
    cases he
    rcases c3 with ⟨h, _⟩ | ⟨_, h1, h2, h3⟩
    · cases h
    · exact ⟨kept_finish c1 hs h1 h2, fun hh _ => by rw [finish_lost hs]; exact h3 (Or.inl hh)⟩
  | some ph =>
    rw [hd] at he c3
    have c3 : g.lostBufs = h.lostBufs := by
      rcases c3 with ⟨_, h⟩ | ⟨h, _⟩
      · exact h
      · cases h
    dsimp only at he
    cases hfd : findDynamic ph 0 phnum (0, 0) with
    | none => rw [hfd] at he; cases he
    | some d =>
      rw [hfd] at he
      obtain ⟨⟨k1, k2, k3, k4⟩, k5⟩ := elfDynamicH_kept f six4 off d g (fun p hq => by
        rcases c2 _ hq with h | h
        · subst h; exact ⟨nofun, nofun⟩
        · exact (hp _ h).2) l h' he
      exact ⟨⟨k1, by omega, by omega, by omega⟩, fun _ hh => by rw [k5 (hh ph d rfl hfd), c3]⟩

theorem elfSectionsH_kept (f : Bytes) (six4 : Bool) (phoff shoff c : Nat) (h : ElfHeap)
    (hp : ∀ p ∈ h.ptrs, p ≠ .sections six4 ∧ p ≠ .program six4 ∧ p ≠ .dynamic six4 ∧ p ≠ .strings) (l : List Str) (h' : ElfHeap)
    (he : elfSectionsH f six4 phoff shoff c h = some (l, h')) : HeapKept h h'
    ∧ (shoff + f.num (c + 10) 2 * f.num (c + 12) 2 ≤ f.length → phoff + f.num (c + 6) 2 * f.num (c + 8) 2 ≤ f.length →
      (∀ ph d, getDatas f phoff (f.num (c + 6) 2) (f.num (c + 8) 2) = some ph → findDynamic ph 0 (f.num (c + 8) 2) (0, 0) = some d → d.1 + d.2 ≤ f.length) → h'.lostBufs = h.lostBufs) := by
  have hs0 : ElfPtr.strings ∉ h.ptrs := fun hq => (hp _ hq).2.2.2 rfl
  unfold elfSectionsH at he
  dsimp only at he
  by_cases hz : f.num (c + 12) 2 = 0
  · rw [if_pos hz] at he
    cases he
    exact ⟨kept_finish rfl hs0 (by omega) (by omega), fun _ _ _ => finish_lost hs0⟩
  rw [if_neg hz] at he
  obtain ⟨c1, c2, c3⟩ := datas_cases h f shoff (f.num (c + 10) 2) (f.num (c + 12) 2) (.sections six4) fun hq => (hp _ hq).1 rfl
  generalize h.datas f shoff (f.num (c + 10) 2) (f.num (c + 12) 2) (.sections six4) = g at he c1 c2 c3
  have hp' : ∀ p ∈ g.ptrs, p ≠ .program six4 ∧ p ≠ .dynamic six4 ∧ p ≠ .strings := fun p hq => by
    rcases c2 _ hq with h | h
    · subst h; exact ⟨nofun, nofun, nofun⟩
    · exact (hp _ h).2
  have hs : ElfPtr.strings ∉ g.ptrs := fun hq => (hp' _ hq).2.2 rfl
  cases hd : getDatas f shoff (f.num (c + 10) 2) (f.num (c + 12) 2) with
  | none =>
    rw [hd] at he c3
    cases he
    rcases c3 with ⟨h, _⟩ | ⟨_, h1, h2, h3⟩
    · cases h
    · exact ⟨kept_finish c1 hs h1 h2, fun hh _ _ => by rw [finish_lost hs]; exact h3 (Or.inl hh)⟩
  | some sh =>
    rw [hd] at he c3
    have c3 : g.lostBufs = h.lostBufs := by
      rcases c3 with ⟨_, h⟩ | ⟨h, _⟩
      · exact h
      · cases h
    have hfin : HeapKept h g.finish ∧ g.finish.lostBufs = h.lostBufs := ⟨kept_finish c1 hs (by omega) (by omega), by rw [finish_lost hs, c3]⟩
    have hprog : ∀ off, elfProgramH f six4 phoff (f.num (c + 6) 2) (f.num (c + 8) 2) off g = some (l, h') → HeapKept h h'
        ∧ (phoff + f.num (c + 6) 2 * f.num (c + 8) 2 ≤ f.length →
          (∀ ph d, getDatas f phoff (f.num (c + 6) 2) (f.num (c + 8) 2) = some ph → findDynamic ph 0 (f.num (c + 8) 2) (0, 0) = some d → d.1 + d.2 ≤ f.length) → h'.lostBufs = h.lostBufs) := by
      intro off he
      obtain ⟨⟨k1, k2, k3, k4⟩, k5⟩ := elfProgramH_kept f six4 phoff _ _ off g hp' l h' he
      exact ⟨⟨k1, by omega, by omega, by omega⟩, fun a b => by rw [k5 a b, c3]⟩
    dsimp only at he
    cases hf : findStrTab sh 0 (f.num (c + 12) 2) with
    | outside => rw [hf] at he; cases he
    | absent =>
      rw [hf] at he
      dsimp only at he
      by_cases h1 : six4 = true ∧ f.num (c + 12) 2 = 1
      · rw [if_pos h1] at he; cases he; exact ⟨hfin.1, fun _ _ _ => hfin.2⟩
      · rw [if_neg h1] at he; exact ⟨(hprog _ he).1, fun _ => (hprog _ he).2⟩
    | found i off =>
      rw [hf] at he
      dsimp only at he
      by_cases h1 : i = f.num (c + 12) 2 - 1
      · rw [if_pos h1] at he; cases he; exact ⟨hfin.1, fun _ _ _ => hfin.2⟩
      rw [if_neg h1] at he
      by_cases h2 : six4 = true ∧ off = f.num (c + 12) 2 - 1
      · rw [if_pos h2] at he; cases he; exact ⟨hfin.1, fun _ _ _ => hfin.2⟩
      · rw [if_neg h2] at he; exact ⟨(hprog _ he).1, fun _ => (hprog _ he).2⟩

/-- The headers of a 64 bit file lie in the file: the table of the sections, that of the segments, and the dynamic segments. -/
def TablesInside (f : Bytes) : Prop :=
  shoff f + f.num 58 2 * shnum f ≤ f.length ∧ phoff f + f.num 54 2 * phnum f ≤ f.length
  ∧ ∀ i < phnum f, segType f i = 2 → segOffset f i + segSize f i ≤ f.length

theorem findDynamic_inside (f : Bytes) (o len : Nat) (hl : o + len ≤ f.length) (n : Nat) (hseg : ∀ i < n, f.num (o + 56 * i) 4 = 2 → f.num (o + 56 * i + 8) 8 + f.num (o + 56 * i + 32) 8 ≤ f.length) :
    ∀ (k i : Nat) (acc d : Nat × Nat), i + k = n → acc.1 + acc.2 ≤ f.length → findDynamic ((f.drop o).take len) i k acc = some d → d.1 + d.2 ≤ f.length := by
  intro k
  induction k with
  | zero => intro i acc d _ ha h; cases h; exact ha
  | succ k ih =>
    intro i acc d hi ha h
    have hlen : ((f.drop o).take len).length = len := by simp; omega
    have pk : ∀ a w x, peek ((f.drop o).take len) a w = some x → x = f.num (o + a) w := by
      intro a w x hx
      unfold peek at hx
      split at hx
      · rw [num_sub f o len a w (by omega)] at hx; exact (Option.some.inj hx).symm
      · cases hx
    rw [findDynamic] at h
    cases h0 : peek ((f.drop o).take len) (56 * i) 4 with
    | none => rw [h0] at h; cases h
    | some t =>
      rw [h0] at h
      dsimp only at h
      by_cases ht : t = 2
      · rw [if_pos ht] at h
        cases h1 : peek ((f.drop o).take len) (56 * i + 8) 8 with
        | none => rw [h1] at h; cases h
        | some a =>
          cases h2 : peek ((f.drop o).take len) (56 * i + 32) 8 with
          | none => rw [h1, h2] at h; cases h
          | some z =>
            rw [h1, h2] at h
            refine ih (i + 1) (a, z) d (by omega) ?_ h
            have := hseg i (by omega) (by rw [← pk _ _ _ h0, ht])
            rw [pk _ _ _ h1, pk _ _ _ h2]
            exact this
      · rw [if_neg ht] at h
        exact ih (i + 1) acc d (by omega) ha h

/-- **C127.** Whatever the file holds: when the search for its libraries comes to an end, the file is closed and no global buffer is left; at most one buffer is lost. -/
theorem C127_closed (file : Option Bytes) (h h' : ElfHeap) (hc : Clean h) (l : List Str) (he : elfRun file h = some (l, h')) :
    Clean h' ∧ h'.lostFiles = h.lostFiles ∧ h.lostBufs ≤ h'.lostBufs ∧ h'.lostBufs ≤ h.lostBufs + 1 := by
  obtain ⟨hc1, hc2⟩ := hc
  obtain ⟨hfile, hptrs, lb, lf⟩ := h
  simp only at hc1 hc2
  subst hc1 hc2
  cases file with
  | none => cases he; exact ⟨⟨rfl, rfl⟩, rfl, by simp [ElfHeap.finish], by simp [ElfHeap.finish]⟩
  | some f =>
    unfold elfRun at he
    simp only [ElfHeap.fopen, ElfHeap.assign] at he
    have kk : ∀ (six4 : Bool) (a b c : Nat) (g : ElfHeap), g.lostBufs = lb → g.lostFiles = lf → (∀ p ∈ g.ptrs, p ≠ .sections six4 ∧ p ≠ .program six4 ∧ p ≠ .dynamic six4 ∧ p ≠ .strings) →
        elfSectionsH f six4 a b c g = some (l, h') → Clean h' ∧ h'.lostFiles = lf ∧ lb ≤ h'.lostBufs ∧ h'.lostBufs ≤ lb + 1 := by
      intro six4 a b c g e1 e2 hp he
      obtain ⟨k1, k2, k3, k4⟩ := (elfSectionsH_kept f six4 a b c g hp l h' he).1
      exact ⟨k1, by omega, by omega, by omega⟩
    have kf : ∀ (g : ElfHeap), g.lostBufs = lb → g.lostFiles = lf → ElfPtr.strings ∉ g.ptrs → some (([] : List Str), g.finish) = some (l, h') →
        Clean h' ∧ h'.lostFiles = lf ∧ lb ≤ h'.lostBufs ∧ h'.lostBufs ≤ lb + 1 := by
      intro g e1 e2 hp he
      cases he
      exact ⟨⟨rfl, rfl⟩, e2, by rw [finish_lost hp]; omega, by rw [finish_lost hp]; omega⟩
    split at he
    · exact kf _ (by simp) (by simp) (by simp) he
    split at he
    · exact kf _ (by simp) (by simp) (by simp) he
    split at he
    · split at he
      · cases he
      split at he
      · exact kf _ (by simp) (by simp) (by simp) he
      · exact kk _ _ _ _ _ (by simp) (by simp) (by simp) he
    · split at he
      · cases he
      split at he
      · exact kf _ (by simp) (by simp) (by simp) he
      · exact kk _ _ _ _ _ (by simp) (by simp) (by simp) he

/-- **C127.** A 64 bit file whose tables lie in it, as those of every complete file do, loses no memory either. -/
theorem C127_no_memory_partial (f : Bytes) (h64 : f.num 4 1 ≠ 1) (ht : TablesInside f) (h h' : ElfHeap) (hc : Clean h) (l : List Str) (he : elfRun (some f) h = some (l, h')) :
    h'.lostBufs = h.lostBufs := by
  obtain ⟨hc1, hc2⟩ := hc
  obtain ⟨hfile, hptrs, lb, lf⟩ := h
  simp only at hc1 hc2
  subst hc1 hc2
  unfold elfRun at he
  simp only [ElfHeap.fopen, ElfHeap.assign, h64, if_false] at he
  have kf : ∀ (g : ElfHeap), g.lostBufs = lb → ElfPtr.strings ∉ g.ptrs → some (([] : List Str), g.finish) = some (l, h') → h'.lostBufs = lb := by
    intro g e1 hp he
    cases he
    rw [finish_lost hp, e1]
  split at he
  · exact kf _ (by simp) (by simp) he
  split at he
  · exact kf _ (by simp) (by simp) he
  split at he
  · cases he
  split at he
  · exact kf _ (by simp) (by simp) he
  · refine ((elfSectionsH_kept f true _ _ 48 _ (by simp) l h' he).2 ht.1 ht.2.1 ?_).trans (by simp)
    intro ph d hph hd
    have hph' : phoff f + f.num 54 2 * phnum f ≤ f.length := ht.2.1
    unfold getDatas at hph
    split at hph
    · cases hph
    · cases hph
      exact findDynamic_inside f (phoff f) _ hph' (phnum f) ht.2.2 (phnum f) 0 (0, 0) d (by omega) (by simp) hd

/-- **C127.** A file that is not ELF loses no memory. -/
theorem C127_other_files (f : Bytes) (hn : NotElf f) (h : ElfHeap) (hc : Clean h) :
    elfRun (some f) h = some ([], { file := false, ptrs := [], lostBufs := h.lostBufs, lostFiles := h.lostFiles }) := by
  obtain ⟨hc1, hc2⟩ := hc
  obtain ⟨hfile, hptrs, lb, lf⟩ := h
  simp only at hc1 hc2
  subst hc1 hc2
  unfold elfRun NotElf at *
  simp only [ElfHeap.fopen, ElfHeap.assign]
  split
  · simp [ElfHeap.finish]
  · simp [ElfHeap.finish]

/-- **C127.** After any number of files, of any content, none is open, and at most one buffer for each is lost. -/
theorem C127_all_files : ∀ (files : List (Option Bytes)) (h h' : ElfHeap) (l : List Str), Clean h → elfRunAll files h = some (l, h') →
    Clean h' ∧ h'.lostFiles = h.lostFiles ∧ h'.lostBufs ≤ h.lostBufs + files.length ∧ librariesList files = some l := by
  intro files
  induction files with
  | nil => intro h h' l hc he; cases he; exact ⟨hc, rfl, by simp, rfl⟩
  | cons f files ih =>
    intro h h' l hc he
    rw [elfRunAll] at he
    cases h1 : elfRun f h with
    | none => rw [h1] at he; cases he
    | some r =>
      obtain ⟨a, g⟩ := r
      rw [h1] at he
      dsimp only at he
      obtain ⟨c1, c2, c3, c4⟩ := C127_closed f h g hc a h1
      cases h2 : elfRunAll files g with
      | none => rw [h2] at he; cases he
      | some r =>
        obtain ⟨b, g'⟩ := r
        rw [h2] at he
        cases he
        obtain ⟨d1, d2, d3, d4⟩ := ih g h' b c1 h2
        refine ⟨d1, by omega, by simp only [List.length_cons]; omega, ?_⟩
        cases f with
        | none => cases h1; rw [librariesList, d4]; rfl
        | some f =>
          have hf := elfRun_fst f h
          rw [h1] at hf
          rw [librariesList, ← hf, d4]
          rfl

/-- The start of the program. -/
def heap0 : ElfHeap := ⟨false, [], 0, 0⟩

example : Clean heap0 := ⟨rfl, rfl⟩
example : TablesInside goodElf ∧ goodElf.num 4 1 ≠ 1 := by unfold TablesInside; decide +kernel
example : elfRun (some goodElf) heap0 = some (["libc.so.6".toList, "liba.so".toList], heap0) := by decide +kernel
example : elfRunAll [some goodElf, none, some (bytesOf "#!/bin/sh"), some goodElf] heap0
    = some (["libc.so.6".toList, "liba.so".toList, "libc.so.6".toList, "liba.so".toList], heap0) := by decide +kernel
example : NotElf (bytesOf "#!/bin/sh") := by unfold NotElf; decide +kernel

/-- **C127, false for the memory.** Each file that was cut off before the end of its section table (which is usually at its end), as a failed download or a full disk leaves it, loses a buffer. -/
theorem C127_counterexample_cut (f : Bytes) (h64 : f.take 5 = [127, 69, 76, 70, 2]) (hl : 64 ≤ f.length) (h1 : 0 < shnum f) (h2 : 0 < f.num 58 2) (h3 : shoff f < 2 ^ 63)
    (hcut : f.length < shoff f + f.num 58 2 * shnum f) (h : ElfHeap) (hc : Clean h) : elfRun (some f) h = some ([], { h with lostBufs := h.lostBufs + 1 }) := by
  obtain ⟨hc1, hc2⟩ := hc
  obtain ⟨hfile, hptrs, lb, lf⟩ := h
  simp only at hc1 hc2
  subst hc1 hc2
  have e4 : f.take 4 = [127, 69, 76, 70] := by
    have := congrArg (List.take 4) h64
    rwa [List.take_take] at this
  have e1 : f.num 4 1 ≠ 1 := by
    have hd : (f.drop 4).take 1 = [2] := by
      have := congrArg (List.drop 4) h64
      rw [List.drop_take] at this
      exact this
    rw [Bytes.num, hd]
    decide
  have hg : getDatas f (f.num 40 8) (f.num 58 2) (f.num 60 2) = none := by
    unfold getDatas
    rw [if_pos]
    exact Or.inr (Or.inr (Or.inr hcut))
  have hz : ¬ f.num 60 2 = 0 := by have : 0 < f.num 60 2 := h1; omega
  have hd : ∀ g : ElfHeap, ElfPtr.sections true ∉ g.ptrs → ElfPtr.strings ∉ g.ptrs → elfSectionsH f true (f.num 32 8) (f.num 40 8) 48 g = some ([], { file := false, ptrs := [], lostBufs := g.lostBufs + 1, lostFiles := g.lostFiles }) := by
    intro g hp hs
    unfold elfSectionsH
    dsimp only
    rw [if_neg hz, hg]
    dsimp only
    unfold ElfHeap.datas
    rw [hg]
    have hcond : ¬ (f.num 58 2 = 0 ∨ f.num 60 2 = 0 ∨ 2 ^ 63 ≤ f.num 40 8) := by
      have : f.num 40 8 < 2 ^ 63 := h3
      omega
    dsimp only
    have hcut' : f.length < f.num 40 8 + f.num 58 2 * f.num 60 2 := hcut
    rw [if_neg hcond, if_pos hcut']
    simp [ElfHeap.finish, ElfHeap.assign, hp, hs]
  unfold elfRun
  dsimp only
  rw [if_neg (by omega), if_neg (by simp [e4]), if_neg e1, if_neg (by omega), if_neg (by omega), hd]
  · simp [ElfHeap.fopen, ElfHeap.assign]
  · simp [ElfHeap.fopen, ElfHeap.assign]
  · simp [ElfHeap.fopen, ElfHeap.assign]

/-- A file cut off. -/
def cutElf : Bytes := goodElf.take 300
example : cutElf.take 5 = [127, 69, 76, 70, 2] ∧ 64 ≤ cutElf.length ∧ 0 < shnum cutElf ∧ 0 < cutElf.num 58 2 ∧ shoff cutElf < 2 ^ 63
    ∧ cutElf.length < shoff cutElf + cutElf.num 58 2 * shnum cutElf := by decide +kernel

end Cards.Props
