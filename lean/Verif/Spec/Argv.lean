import Verif.Model.Argv
/-!
# What a command line means
-/
namespace Cards.Spec
open Cards

/-- One thing said on the command line. -/
inductive Item
  | opt (id : Nat) (value : Str)
  | arg (word : Str)

/-- The word begins with `-`. -/
def Dashed (w : Str) : Prop := ∃ r, w = '-' :: r

/-- The words, from left to right, say the items: a plain word is an argument; `--name` is a known option without value (a
value `=...` is dropped); `--name=value` an option that requires a value, which is not empty; `-x` a known option; `-x value` one
that requires a value. -/
inductive Says (T : Tables) : List Str → List Item → Prop
  | nil : Says T [] []
  | arg {w ws is} (h : ¬ Dashed w) (r : Says T ws is) : Says T (w :: ws) (.arg w :: is)
  | flag {name o ws is} (hn : '=' ∉ name) (ho : find T.long name = some o) (hv : o.needsValue = false) (r : Says T ws is) :
      Says T (("--".toList ++ name) :: ws) (.opt o.id [] :: is)
  | flagDropped {name o v ws is} (hn : '=' ∉ name) (ho : find T.long name = some o) (hv : o.needsValue = false) (r : Says T ws is) :
      Says T (("--".toList ++ name ++ '=' :: v) :: ws) (.opt o.id [] :: is)
  | valued {name o v ws is} (hn : '=' ∉ name) (ho : find T.long name = some o) (hv : o.needsValue = true) (hne : v ≠ []) (r : Says T ws is) :
      Says T (("--".toList ++ name ++ '=' :: v) :: ws) (.opt o.id v :: is)
  | short {x o ws is} (hx : x ≠ '-') (ho : find T.short x = some o) (hv : o.needsValue = false) (r : Says T ws is) :
      Says T (['-', x] :: ws) (.opt o.id [] :: is)
  | shortValued {x o v ws is} (hx : x ≠ '-') (ho : find T.short x = some o) (hv : o.needsValue = true) (r : Says T ws is) :
      Says T (['-', x] :: v :: ws) (.opt o.id v :: is)

/-- The arguments said, in order. -/
def argsOf : List Item → List Str
  | [] => []
  | .arg w :: is => w :: argsOf is
  | .opt _ _ :: is => argsOf is

/-- The value said last for an option. -/
def lastValue (id : Nat) : List Item → Option Str
  | [] => none
  | .arg _ :: is => lastValue id is
  | .opt i v :: is => match lastValue id is with
    | some w => some w
    | none => if i = id then some v else none

/-- The number of arguments the command takes. -/
def ArgCountOk (c : ACmd) (n : Nat) : Prop :=
  match c.check with
  | .eq => n = c.num
  | .min => c.num ≤ n
  | .max => n ≤ c.num
  | .none => True

end Cards.Spec
