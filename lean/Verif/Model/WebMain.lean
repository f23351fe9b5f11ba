import Verif.Model.Web
/-!
# `main` of `webcards` (/repo/src/webcards.cxx:385-566)
-/
namespace Cards

/-- The parts of the answer, in the order in which they are printed: `HEADERTEXT`, `MENUFR` or `MENUEN`, the cell that is opened (/repo/src/webcards.cxx:448-453), the content and the end of the page. The
fixed texts (/repo/src/www/config_webcards.h) are not spelled out. -/
inductive WebPart where
  | header
  | menu (french : Bool)
  | cell
  | content (lines : List Str)
  | footer
deriving DecidableEq, Repr

/-- The characters `find_last_of("/\\")` looks for. -/
def isSlashish (c : Char) : Bool := c = '/' || c = '\\'

/-- `s.substr(0, pos)` and `s.substr(pos + 1)` for `pos = s.find_last_of("/\\")`; `none` for `npos`, /repo/src/webcards.cxx:409, 421-426. -/
def splitLastSlash (s : Str) : Option (Str × Str) :=
  match s.reverse.dropWhile (fun c => !isSlashish c) with
  | [] => none
  | _ :: b => some (b.reverse, (s.reverse.takeWhile (fun c => !isSlashish c)).reverse)

/-- `main`, /repo/src/webcards.cxx:385-566: what is printed for the environment variables `QUERY_STRING` and `SCRIPT_NAME`. The time the page took, which is printed in the footer, is left out; so is the
log of the visits (`visitRun`). -/
def webMain (site : Site) (query script : Option Str) : List WebPart :=
  match query, script with
  | some q, some p =>
    match splitLastSlash p with
    | none => []
    | some (path, _) =>
      match splitLastSlash path with
      | none => [.header]
      | some (_, lang) =>
        let fr := decide (lang = "fr".toList)
        [.header, .menu fr, .cell, .content (webBody { site with french := fr } q), .footer]
  | _, _ => []

end Cards
