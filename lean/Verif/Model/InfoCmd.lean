import Verif.Model.Repo
import Verif.Model.Report
/-!
# cards info --binaries and cards info --sets
-/
namespace Cards

/-- The labels and values of `pkgrepo::getBinaryPackageInfo` /repo/src/pkgrepo.cxx:279-380 for the entry `p` of the package `name`. `date`: what
`getDateFromEpoch` makes of a date (it depends on the time zone and the language). `cats`: the categories of the package, which the model of the repository
leaves out. -/
def infoPairs (date : Nat → Str) (cats : List Str) (name : Str) (p : RepoPkg) : List (String × Str) :=
  [("Name           : ", name)] ++
  (if p.aliases.length > 0 then [("Alias          :", p.aliases.flatMap (fun i => ' ' :: i))] else []) ++
  [("Description    : ", p.description), ("Archive name   : ", p.fileName)] ++
  (if p.group.length > 0 then [("Group          : ", p.group)] else []) ++
  (if cats.length > 0 then [("Categories     :", cats.flatMap (fun i => ' ' :: i))] else []) ++
  [("Collection     : ", p.collection)] ++
  (if p.sets.length > 0 then [("Sets           :", p.sets.flatMap (fun i => ' ' :: i))] else []) ++
  [("URL            : ", p.url), ("License        : ", p.license), ("Version        : ", p.version), ("Release        : ", itos p.release),
   ("Build date     : ", date p.build), ("Hashsum        : ", p.hash), ("Signature      : ", p.signature),
   ("Archive Size   : ", sizeHumanRead p.size ++ "bytes".toList), ("Installed Size : ", sizeHumanRead p.space ++ "bytes".toList),
   ("Maintainer(s)  : ", p.maintainer), ("Packager       : ", p.packager), ("Contributor(s) : ", p.contributors), ("Arch           : ", p.arch),
   ("Binary URL     : ", p.origin), ("Local folder   : ", p.dirName)] ++
  (if p.deps.length > 0 then [("Dependencies   : ", p.deps.flatMap (fun d => d.1 ++ [' ']))] else [])

/-- `cards info --binaries NAME`, /repo/src/info.cxx:24-27 and pkgrepo.cxx:273-383, as the list of the lines printed: nothing for a name the repository does
not have. -/
def infoBinaries (date : Nat → Str) (cats : Str → List Str) (m : List (Str × RepoPkg)) (name : Str) : List Str :=
  match mget m name with
  | none => []
  | some p => (infoPairs date (cats name) name p).map (fun x => x.1.toList ++ x.2)

/-- `cards info --sets NAME`, /repo/src/info.cxx:12-23: the members of the set, or if it has none those of the collection. -/
def infoSets (m : List (Str × RepoPkg)) (arg : Str) : List Str :=
  (if (packagesOfSet m arg).length = 0 then packagesOfCollection m arg else packagesOfSet m arg).map (fun i => '(' :: arg ++ ')' :: ' ' :: i)

end Cards
