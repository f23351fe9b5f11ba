import Verif.Model.Pkgfile
/-!
# mybld: a new version or release for a port (/repo/scripts/mybld.in)

`mybld NAME VERSION` and `mybld -i NAME` edit the Pkgfile with sed before they build. A Pkgfile is its list of lines. Not modelled: the lines `packager=` and `contributors=`, which
are changed when the user is not the packager; versions that hold one of the characters sed gives a meaning other than `.` (`* [ ] ^ $ \ @ &`).
-/
namespace Cards

/-- A text as a pattern of sed: the point stands for any character. The rest of the line after the match. -/
def sedHere : Str → Str → Option Str
  | [], s => some s
  | _ :: _, [] => none
  | p :: ps, c :: cs => if p = '.' ∨ p = c then sedHere ps cs else none

/-- `s@pat@new@`: the first place where the pattern matches, /repo/scripts/mybld.in:806, 826. -/
def sedFirst (pat new : Str) : Str → Str
  | [] => match sedHere pat [] with
    | some r => new ++ r
    | none => []
  | c :: cs => match sedHere pat (c :: cs) with
    | some r => new ++ r
    | none => c :: sedFirst pat new cs

/-- `/release=/`: the text occurs in the line. -/
def hasRelease (l : Str) : Bool := (cutFirst "release=".toList l).isSome

/-- `mybld NAME VERSION` on the Pkgfile, /repo/scripts/mybld.in:804-808: `version` is the value `. Pkgfile` gave. -/
def mybldVersion (version new : Str) (lines : List Str) : List Str :=
  (lines.map (sedFirst ("version=".toList ++ version) ("version=".toList ++ new))).filter (fun l => !hasRelease l)

/-- `/^version=/ a release=N`, /repo/scripts/mybld.in:840, 842, 865. -/
def sedAppend (n : Nat) (lines : List Str) : List Str :=
  lines.flatMap (fun l => if "version=".toList.isPrefixOf l then [l, "release=".toList ++ dec n] else [l])

/-- `mybld -i NAME` on the Pkgfile, /repo/scripts/mybld.in:862-865: `release` is the value `. Pkgfile` gave, 1 without one. -/
def mybldIncrement (release : Nat) (lines : List Str) : List Str := sedAppend (release + 1) (lines.filter (fun l => !hasRelease l))

/-- `mybld` for a set of ports, on the Pkgfile of each, /repo/scripts/mybld.in:824-843: with `-i`, and with a version. -/
def mybldSet (increment : Bool) (version new : Str) (release : Nat) (lines : List Str) : List Str :=
  if increment then mybldIncrement release lines else sedAppend 1 (mybldVersion version new lines)

end Cards
