import Verif.Model.FileHash
/-!
# C126: the hash of a file
-/
namespace Cards.Props
open Cards

/-- The contract of a digest: bytes given in pieces count as the bytes given at once. -/
def Streams {σ : Type} (D : Digest σ) : Prop := ∀ c a b, D.update c (a ++ b) = (D.update c a).bind (D.update · b)

theorem hashLoop_end {σ : Type} (D : Digest σ) (hD : Streams D) (hnil : ∀ c, D.update c [] = some c) (f : HashFile) (size : Nat) (hs : 0 < size) :
    ∀ (fuel pos : Nat) (c : σ), f.bytes.length - pos < fuel →
      hashLoop D f size fuel pos c = some (match D.update c (f.readable.drop pos) with
        | none => .error .update
        | some c' => .ok (c', f.broken.isSome)) := by
  intro fuel
  induction fuel with
  | zero => intro pos c h; omega
  | succ fuel ih =>
    intro pos c h
    rw [hashLoop]
    have hl : f.readable.length ≤ f.bytes.length := by
      unfold HashFile.readable
      split
      · exact Nat.le_refl _
      · rw [List.length_take]; exact Nat.min_le_right _ _
    have hp : readPiece f size pos = (f.readable.drop pos).take size := rfl
    have hone : (if (readPiece f size pos).length > 0 then D.update c (readPiece f size pos) else some c) = D.update c (readPiece f size pos) := by
      generalize readPiece f size pos = p
      cases p with
      | nil => rw [hnil]; rfl
      | cons x p => rfl
    simp only [hone]
    by_cases hfull : (readPiece f size pos).length = size
    · have hsplit : f.readable.drop pos = readPiece f size pos ++ f.readable.drop (pos + (readPiece f size pos).length) := by
        rw [hfull, ← List.drop_drop, hp, List.take_append_drop]
      conv => rhs; rw [hsplit, hD]
      cases hup : D.update c (readPiece f size pos) with
      | none => rfl
      | some c' =>
        simp only [hfull, beq_self_eq_true, if_true, Option.bind_some]
        apply ih
        rw [hp, List.length_take, List.length_drop] at hfull
        omega
    · have hall : readPiece f size pos = f.readable.drop pos := by
        rw [hp]
        apply List.take_of_length_le
        rw [hp, List.length_take] at hfull
        omega
      rw [hall] at hfull
      simp only [hall]
      cases hup : D.update c (f.readable.drop pos) with
      | none => rfl
      | some c' => simp only [beq_iff_eq, hfull, if_false]

/-- **C126.** Whatever the size of the file and of the buffer: the hash is the text of the digest of all bytes of the file, and there is none when one byte could not be read. -/
theorem C126_whole_file {σ : Type} (D : Digest σ) (hD : Streams D) (hnil : ∀ c, D.update c [] = some c) (size : Nat) (hs : 0 < size) (f : HashFile) (fuel : Nat)
    (hf : f.bytes.length < fuel) (t : Str) :
    generateHash D size fuel (some f) = some (.ok t) ↔ f.broken = none ∧ ∃ c c' bs, D.init = some c ∧ D.update c f.bytes = some c' ∧ D.final c' = some bs ∧ t = hexEncode bs := by
  rw [generateHash]
  cases hi : D.init with
  | none => simp
  | some c =>
    simp only [hashLoop_end D hD hnil f size hs fuel 0 c (by omega), List.drop_zero]
    obtain ⟨bytes, broken⟩ := f
    cases broken with
    | some b =>
      simp only [Option.isSome_some, HashFile.readable]
      cases D.update c (bytes.take b) <;> simp
    | none =>
      simp only [Option.isSome_none, HashFile.readable]
      cases hu : D.update c bytes with
      | none => simp [hu]
      | some c' =>
        cases hfi : D.final c' with
        | none => simp [hu, hfi]
        | some bs => simp [hu, hfi, eq_comm]

/-- **C126.** It ends, and the number of bytes taken at once changes nothing. -/
theorem C126_any_buffer {σ : Type} (D : Digest σ) (hD : Streams D) (hnil : ∀ c, D.update c [] = some c) (size size' fuel fuel' : Nat) (hs : 0 < size) (hs' : 0 < size') (f : Option HashFile)
    (hf : ∀ x ∈ f, x.bytes.length < fuel ∧ x.bytes.length < fuel') :
    generateHash D size fuel f = generateHash D size' fuel' f ∧ generateHash D size fuel f ≠ none := by
  rw [generateHash, generateHash]
  cases hi : D.init with
  | none => simp
  | some c => cases f with
    | none => simp
    | some f =>
      have h := hf f rfl
      simp only [hashLoop_end D hD hnil f size hs fuel 0 c (by omega), hashLoop_end D hD hnil f size' hs' fuel' 0 c (by omega)]
      refine ⟨trivial, ?_⟩
      split
      · rename_i h; simp at h
      · simp
      · simp
      · split <;> simp

/-- **C126.** A file that is not there, or that cannot be read to its end, has no hash: the command stops. -/
theorem C126_unreadable {σ : Type} (D : Digest σ) (hD : Streams D) (hnil : ∀ c, D.update c [] = some c) (size fuel : Nat) (hs : 0 < size) (f : Option HashFile)
    (hf : ∀ x ∈ f, x.bytes.length < fuel ∧ x.broken ≠ none) : ∃ e, generateHash D size fuel f = some (.error e) := by
  cases f with
  | none => rw [generateHash]; cases D.init <;> exact ⟨_, rfl⟩
  | some f =>
    have h := hf f rfl
    cases hg : generateHash D size fuel (some f) with
    | none => exact absurd hg (C126_any_buffer D hD hnil size size fuel fuel hs hs (some f) (fun x hx => by cases hx; exact ⟨h.1, h.1⟩)).2
    | some r => cases r with
      | error e => exact ⟨e, rfl⟩
      | ok t => exact absurd ((C126_whole_file D hD hnil size hs f fuel h.1 t).mp hg).1 h.2

/-- A digest that keeps all bytes. -/
def xDigest : Digest (List Nat) := ⟨some [], fun c a => some (c ++ a), fun c => some c⟩
example : Streams xDigest ∧ (∀ c, xDigest.update c [] = some c) := by
  refine ⟨fun c a b => ?_, fun c => ?_⟩
  · simp [xDigest]
  · simp [xDigest]
/-- Eight bytes, read four at a time: the last piece is empty. -/
example : generateHash xDigest 4 9 (some ⟨[1, 2, 3, 4, 5, 6, 7, 255], none⟩) = some (.ok "01020304050607ff".toList) := by rfl
example : generateHash xDigest 4 9 (some ⟨[1, 2, 3, 4, 5, 6, 7, 255], some 6⟩) = some (.error .read) := by rfl

end Cards.Props
