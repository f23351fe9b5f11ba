import Verif.Model.Base
/-!
# `pkgmk`: the manual pages are compressed (/repo/scripts/pkgmk.in:394-436)

One directory of manual (or info) pages: what the script does to a page or a link depends on nothing but the directory it is in. `find` lists the files in an order
nobody knows, and while it does the loop already changes the directory: the lists of names are given, and may have new names in them. Simplification: hard links,
which `gzip` leaves as they are, and names with line ends or white space at their ends are not covered.
-/
namespace Cards

/-- A page with what is written on it, or a symbolic link. -/
inductive ManNode
  | page (content : Str)
  | link (target : Str)
  deriving DecidableEq, Repr

/-- A directory. -/
abbrev ManDir := List (Str × ManNode)

/-- `.gz`. -/
def gzExt : Str := ".gz".toList

/-- `${FILE%%.gz}`, /repo/scripts/pkgmk.in:402, 410-412. -/
def unGz (s : Str) : Str := if gzExt.isSuffixOf s then s.take (s.length - 3) else s

/-- `${TARGET##*/}`, /repo/scripts/pkgmk.in:409. -/
def lastName (s : Str) : Str := (s.reverse.takeWhile (· ≠ '/')).reverse

/-- `gzip -9` of a page that is not compressed yet, /repo/scripts/pkgmk.in:401-405: a file of that name that is there already is not replaced. -/
def gzPage (d : ManDir) (n : Str) : ManDir :=
  match mget d n with
  | some (.page c) => if n = unGz n then (if (mget d (n ++ gzExt)).isSome then d else mset (n ++ gzExt) (.page c) (merase n d)) else d
  | _ => d

/-- `[ -e "$DIR/$TARGET" ]`: links are followed (at most as many as there are names); `far`: what there is in other directories. -/
def manThere (far : Str → Bool) (d : ManDir) : Nat → Str → Bool
  | 0, _ => false
  | k + 1, n =>
    match mget d n with
    | none => false
    | some (.page _) => true
    | some (.link t) => if '/' ∈ t then far t else manThere far d k t

/-- A link, /repo/scripts/pkgmk.in:407-418: it is removed, and made again if there is a compressed page of the name in this directory. `ln -sf` replaces what
has the name. -/
def gzLink (far : Str → Bool) (d : ManDir) (n : Str) : ManDir :=
  match mget d n with
  | some (.link t) =>
    let t' := unGz (lastName t) ++ gzExt
    let d' := merase n d
    if manThere far d' (d'.length + 1) t' then mset (unGz n ++ gzExt) (.link t') d' else d'
  | _ => d

/-- `compress_manpages`, /repo/scripts/pkgmk.in:394-436. -/
def compressMan (far : Str → Bool) (pages links : List Str) (d : ManDir) : ManDir := links.foldl (gzLink far) (pages.foldl gzPage d)

end Cards
