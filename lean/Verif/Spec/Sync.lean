import Verif.Model.Sync
import Verif.Spec.Repo
/-!
# What the depot commands should do

Independent of the loops: where a collection is kept, which files `cards sync` is allowed to touch, which files `cards purge` deletes.
-/
namespace Cards

/-- The directory of a collection, as the kernel resolves it. -/
def DirUrl.place (d : DirUrl) : List Str := comps (d.depot ++ "/".toList ++ d.collection)

/-- The lists of a collection. -/
def listNames : List Str := [".REPO".toList, ".FILES".toList]

/-- A file that belongs to `cards sync`: the key, the two lists and their compressed forms, of a collection with an address. -/
def SyncPath (dirs : List DirUrl) (k : List Str) : Prop :=
  ∃ d ∈ dirs, d.url ≠ [] ∧
    ∃ n ∈ [".PKEY".toList, ".REPO".toList, ".REPO.zst".toList, ".FILES".toList, ".FILES.zst".toList], k = d.place ++ [n]

/-- No other collection is kept in the directory of `d`. -/
def OwnPlace (dirs : List DirUrl) (d : DirUrl) : Prop := ∀ e ∈ dirs, e.url ≠ [] → e.place = d.place → e = d

/-- The address of a file of the collection. -/
def DirUrl.address (arch version : Str) (d : DirUrl) (n : Str) : Str :=
  d.url ++ "/".toList ++ arch ++ "/".toList ++ version ++ "/".toList ++ d.collection ++ "/".toList ++ n

/-- The file has the content. -/
def HasContent (fs : Fs) (k : List Str) (c : Str) : Prop := ∃ m, fs.get k = some (.file c m)

/-- What the owner of a collection published with `cards repo`: the package files, the private key (`sign`) and its public key. `sign` gives the signature of a
hash in hexadecimal. -/
structure Publication where
  pkgs : List PkgFile
  sign : Str → Str
  key : Str

/-- The descriptions of the published package files. -/
def Publication.recs (hash : Str → Str) (p : Publication) : List Rec := p.pkgs.map (PkgFile.asRec hash p.sign)

/-- The descriptions are as pkgmk writes them, and the lines have the length the readers cope with (see C26, C34). -/
structure Publication.Ok (hash : Str → Str) (p : Publication) : Prop where
  recs : ∀ r ∈ p.recs hash, RecOk r
  lines : ∀ l ∈ writeRepo (p.recs hash), '\n' ∉ l ∧ '\x00' ∉ l ∧ l.length ≤ 8190
  files : ∀ l ∈ writeFiles (p.pkgs.map PkgFile.asFRec), '\n' ∉ l ∧ '\x00' ∉ l ∧ l.length ≤ 8190

/-- The server has the publication under the address of the collection. -/
structure Served (serve : Str → Str) (unz : Str → Option Str) (hash : Str → Str) (arch version : Str) (d : DirUrl) (p : Publication) : Prop where
  key : serve (d.address arch version "/.PKEY".toList) = p.key ∧ p.key ≠ []
  repo : serve (d.address arch version ".REPO.zst".toList) ≠ [] ∧ unz (serve (d.address arch version ".REPO.zst".toList)) = some (repoText hash p.sign p.pkgs)
  files : serve (d.address arch version ".FILES.zst".toList) ≠ [] ∧ unz (serve (d.address arch version ".FILES.zst".toList)) = some (filesText p.pkgs)

/-- The publication is in the depot. -/
structure InDepot (fs : Fs) (hash : Str → Str) (d : DirUrl) (p : Publication) : Prop where
  key : HasContent fs (d.place ++ [".PKEY".toList]) p.key
  repo : HasContent fs (d.place ++ [".REPO".toList]) (repoText hash p.sign p.pkgs)
  files : HasContent fs (d.place ++ [".FILES".toList]) (filesText p.pkgs)

/-- Parents are directories. -/
def ParentsDirs (fs : Fs) : Prop := ∀ k n, (fs.get (k ++ [n])).isSome → k ≠ [] → ∃ m, fs.get k = some (.dir m)

/-- The file lies below the directory and no name on the way, nor its own, begins with a point. -/
def VisibleBelow (base k : List Str) : Prop := ∃ rel, rel ≠ [] ∧ k = base ++ rel ∧ ∀ n ∈ rel, n.head? ≠ some '.'

/-- `cards purge` is to delete the file: it is a visible file below the directory of a collection that has an address. -/
def Purged (dirs : List DirUrl) (fs : Fs) (k : List Str) : Prop :=
  (∃ c m, fs.get k = some (.file c m)) ∧ ∃ d ∈ dirs, d.url ≠ [] ∧ VisibleBelow d.place k

end Cards
