import Verif.Spec.Strings
/-!
# What a configuration file says
-/
namespace Cards.Spec
open Cards

/-- The line sets `key` to `val`: after cutting off the comment, the key ends at the first space (or the first tab, when there is no space at all), and the
value is the rest without surrounding white space. -/
def Setting (line key val : Str) : Prop :=
  ∃ body rest, ((line = body ∧ '#' ∉ body) ∨ (∃ comment, line = body ++ '#' :: comment ∧ '#' ∉ body)) ∧
    ((' ' ∉ key ∧ body = key ++ ' ' :: rest) ∨ (' ' ∉ body ∧ '\t' ∉ key ∧ body = key ++ '\t' :: rest)) ∧ Stripped rest val

/-- The settings of the lines, in order. -/
inductive Settings : List Str → List (Str × Str) → Prop
  | nil : Settings [] []
  | set {l ls k v S} (h : Setting l k v) (r : Settings ls S) : Settings (l :: ls) ((k, v) :: S)
  | skip {l ls S} (h : ∀ k v, ¬ Setting l k v) (r : Settings ls S) : Settings (l :: ls) S

/-- `v` is the first value for the key that is not empty (empty when there is none). -/
def FirstWins (key : Str) (S : List (Str × Str)) (v : Str) : Prop :=
  (v = [] ∧ ∀ w, (key, w) ∈ S → w = []) ∨ (v ≠ [] ∧ ∃ A B, S = A ++ (key, v) :: B ∧ ∀ w, (key, w) ∈ A → w = [])

/-- `v` is the last value for the key (empty when there is none). -/
def LastWins (key : Str) (S : List (Str × Str)) (v : Str) : Prop :=
  (v = [] ∧ ∀ w, (key, w) ∉ S) ∨ ∃ A B, S = A ++ (key, v) :: B ∧ ∀ w, (key, w) ∉ B

/-- The values for the keys, in order. -/
def valuesOf (keys : List Str) (S : List (Str × Str)) : List Str := (S.filter (fun p => keys.contains p.1)).map (·.2)

end Cards.Spec
