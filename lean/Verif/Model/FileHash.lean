import Verif.Model.Numbers
/-!
# The hash of a package file (`pkgrepo::generateHash`, /repo/src/pkgrepo.cxx:782-836)

The digest of OpenSSL is a parameter: a state that takes bytes piece by piece. A file is its bytes and, possibly, the place from which on the disk cannot be read. `std::ifstream::read`
gives as many bytes as asked for unless the file ends or cannot be read before. Not modelled: that the context is not freed on an error.
-/
namespace Cards

/-- The digest: `EVP_DigestInit_ex`, `EVP_DigestUpdate` and `EVP_DigestFinal_ex`; `none` is a failure. -/
structure Digest (σ : Type) where
  init : Option σ
  update : σ → List Nat → Option σ
  final : σ → Option (List Nat)

/-- A file to hash: its bytes, and the offset at which reading fails. -/
structure HashFile where
  bytes : List Nat
  broken : Option Nat

/-- The errors of `generateHash`, all thrown: `std::runtime_error`. -/
inductive HashErr
  | init | noFile | update | read | final
deriving DecidableEq, Repr

/-- The bytes that can be read. -/
def HashFile.readable (f : HashFile) : List Nat := match f.broken with
  | none => f.bytes
  | some b => f.bytes.take b

/-- What one `file.read(buffer, BUFSIZ)` at the offset `pos` gives: the bytes (`gcount`), /repo/src/pkgrepo.cxx:806-807. -/
def readPiece (f : HashFile) (size pos : Nat) : List Nat := (f.readable.drop pos).take size

/-- The loop, /repo/src/pkgrepo.cxx:805-814; `fuel` bounds the number of turns. The stream stays good as long as the pieces are full; the result tells
also whether it is bad. -/
def hashLoop {σ : Type} (D : Digest σ) (f : HashFile) (size : Nat) : Nat → Nat → σ → Option (Except HashErr (σ × Bool))
  | 0, _, _ => none
  | fuel + 1, pos, c =>
    let piece := readPiece f size pos
    match (if piece.length > 0 then D.update c piece else some c) with
    | none => some (.error .update)
    | some c' => if piece.length == size then hashLoop D f size fuel (pos + piece.length) c' else some (.ok (c', f.broken.isSome))

/-- `generateHash`, /repo/src/pkgrepo.cxx:782-836; `none`: the loop does not end. `file = none`: it cannot be opened. -/
def generateHash {σ : Type} (D : Digest σ) (size fuel : Nat) (file : Option HashFile) : Option (Except HashErr Str) :=
  match D.init with
  | none => some (.error .init)
  | some c => match file with
    | none => some (.error .noFile)
    | some f => match hashLoop D f size fuel 0 c with
      | none => none
      | some (.error e) => some (.error e)
      | some (.ok (_, true)) => some (.error .read)
      | some (.ok (c', false)) => match D.final c' with
        | none => some (.error .final)
        | some bs => some (.ok (hexEncode bs))

end Cards
