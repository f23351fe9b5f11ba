import Verif.Model.Strings
/-!
# Firmware ports from the WHENCE of linux-firmware (/repo/scripts/generate_fw_pkgs.sh)

The file is its list of lines, after the three repairs of lines 33-35. Not modelled: those repairs; names of drivers with characters sed gives a meaning (only `/` is escaped); the texts of the Pkgfiles; `rm -r $ROOT/*-firmware`.
-/
namespace Cards

/-- `/pat/`: the text is somewhere in the line. -/
def lineHas (pat l : Str) : Bool := (cutFirst pat l).isSome

/-- The line begins with five dashes. -/
def endsSection (l : Str) : Bool := "-----".toList.isPrefixOf l

/-- The address of sed from a line with the text to one that begins with five dashes, /repo/scripts/generate_fw_pkgs.sh:54-55: which lines are in a range. The flag says that a range is open. The end is looked for from the line after the first. -/
def sedRange (pat : Str) : Bool → List Str → List (Bool × Str)
  | _, [] => []
  | true, l :: ls => (true, l) :: sedRange pat (!endsSection l) ls
  | false, l :: ls => if lineHas pat l then (true, l) :: sedRange pat true ls else (false, l) :: sedRange pat false ls

/-- `sed -n ... p`, /repo/scripts/generate_fw_pkgs.sh:54. -/
def sedPrint (pat : Str) (ls : List Str) : List Str := ((sedRange pat false ls).filter (·.1)).map (·.2)

/-- `sed -i ... d`, /repo/scripts/generate_fw_pkgs.sh:55. -/
def fwSedDelete (pat : Str) (ls : List Str) : List Str := ((sedRange pat false ls).filter (fun p => !p.1)).map (·.2)

/-- `Driver: NAME`, a line of List.uniq, /repo/scripts/generate_fw_pkgs.sh:40-44. -/
def driverText (n : Str) : Str := "Driver: ".toList ++ n

/-- The name of the port, /repo/scripts/generate_fw_pkgs.sh:46-50: small letters, `/` becomes `-`. -/
def fwDir (n : Str) : Str := (n.map Char.toLower).map (fun c => if c = '/' then '-' else c)

/-- The loop over the drivers, /repo/scripts/generate_fw_pkgs.sh:44-115: the files WHENCE written, in order, and what is left of WHENCE.in. -/
def fwLoop : List Str → List Str → List (Str × List Str) × List Str
  | [], ls => ([], ls)
  | n :: ns, ls =>
    let r := fwLoop ns (fwSedDelete (driverText n) ls)
    ((fwDir n, sedPrint (driverText n) ls) :: r.1, r.2)

/-- The file WHENCE of a port in the end: a later `>` replaces it. -/
def fwFile (ns ls : List Str) (dir : Str) : Option (List Str) := ((fwLoop ns ls).1.reverse.find? (fun p => p.1 = dir)).map (·.2)

end Cards
