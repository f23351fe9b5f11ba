import Verif.Model.Fs
/-!
# `removeFile`: delete a file and its empty parents
-/
namespace Cards

/-- The text without its trailing slashes. -/
def dropSlashes (p : Str) : Str := (p.reverse.dropWhile (fun c => c = '/')).reverse

/-- The text without its last run of characters that are not slashes. -/
def dropName (p : Str) : Str := (p.reverse.dropWhile (fun c => c ≠ '/')).reverse

/-- `dirname(3)` of the C library, used in /repo/src/file_utils.cxx:218 (and `basedir`/`filename` helpers): trailing slashes do not
count, the last component goes, then the slashes before it. Simplification: glibc keeps a leading `//`; here it is `/`. -/
def dirname (p : Str) : Str :=
  let q := dropSlashes p
  if q = [] then (if p = [] then ".".toList else "/".toList)
  else
    let r := dropName q
    if r = [] then ".".toList
    else if dropSlashes r = [] then "/".toList else dropSlashes r

/-- `removeFile(basedir, filename)` /repo/src/file_utils.cxx:214-221, on the text of the two paths: while the path is not
textually `basedir` and `remove` succeeds, go on with its `dirname`. The guard on the length stands for: `dirname` shortens
every path but `/`, `.` and one-letter names, and `remove` of `/` (EBUSY) and `.` (EINVAL) fails. -/
def removeFile (base : Str) (fs : Fs) (p : Str) : Fs :=
  if p = base then fs
  else if (fs.remove p).2 then
    if (dirname p).length < p.length then removeFile base (fs.remove p).1 (dirname p) else (fs.remove p).1
  else fs
termination_by p.length

end Cards
