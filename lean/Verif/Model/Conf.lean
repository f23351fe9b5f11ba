import Verif.Model.LineFile
import Verif.Model.Strings
/-!
# `cards.conf` (/repo/src/conf.cxx)

`getMachineType` is assumed to give a name (`parseConfig` gives up at the first setting otherwise); it is not modelled further.
-/
namespace Cards

/-- `DirUrl` /repo/src/conf.h:9-16, without the two sizes. -/
structure DirUrl where
  collection : Str := []
  depot : Str := []
  url : Str := []
deriving DecidableEq, Repr

/-- The members of `conf` that `parseConfig` sets, /repo/src/conf.h:20-41. -/
structure Conf where
  depot : Str := []
  url : Str := []
  version : Str := []
  logdir : Str := []
  keypath : Str := []
  name : Str := []
  hostname : Str := []
  username : Str := []
  database : Str := []
  password : Str := []
  groups : List Str := []
  archs : List Str := []
  dirUrl : List DirUrl := []
deriving DecidableEq, Repr

/-- The entry for a `dir` setting, /repo/src/conf.cxx:42-59. -/
def dirEntry (val : Str) : DirUrl :=
  let dir := if '|' ∈ val then stripWhiteSpace (getValueBefore val '|') else stripWhiteSpace val
  let url := if '|' ∈ val then stripWhiteSpace (getValue val '|') else []
  if '/' ∈ dir then
    ⟨stripWhiteSpace ((dir.reverse.takeWhile (fun c => c ≠ '/')).reverse), getValueBeforeLast dir '/', url⟩
  else ⟨[], [], url⟩

/-- One setting, /repo/src/conf.cxx:41-121. -/
def Conf.set (c : Conf) (key val : Str) : Conf :=
  let c := if key = "dir".toList then { c with dirUrl := c.dirUrl ++ [dirEntry val] } else c
  let c := if key = "collection".toList then
      (if c.dirUrl.any (fun i => i.collection = val) then c else { c with dirUrl := c.dirUrl ++ [{ collection := val }] }) else c
  let c := if key = "depot".toList then (if c.depot = [] then { c with depot := val } else c) else c
  let c := if key = "url".toList then (if c.url = [] then { c with url := val } else c) else c
  let c := if key = "logdir".toList then { c with logdir := val } else c
  let c := if key = "keypath".toList then { c with keypath := val } else c
  let c := if key = "locale".toList ∨ key = "group".toList then { c with groups := c.groups ++ [val] } else c
  let c := if key = "name".toList then { c with name := val } else c
  let c := if key = "version".toList then (if c.version = [] then { c with version := val } else c) else c
  let c := if key = "hostname".toList then { c with hostname := val } else c
  let c := if key = "username".toList then { c with username := val } else c
  let c := if key = "database".toList then { c with database := val } else c
  let c := if key = "password".toList then { c with password := val } else c
  if key = "arch".toList then { c with archs := c.archs ++ [val] } else c

/-- The key and the value of a line, /repo/src/conf.cxx:21-40: the newline and the comment are cut off, the first space separates, or the first tab
when there is no space. -/
def confSplit (buf : Str) : Option (Str × Str) :=
  let line := buf.takeWhile (fun c => c ≠ '\x00')
  let line := if line.getLast? = some '\n' then line.dropLast else line
  let s := line.takeWhile (fun c => c ≠ '#')
  if ' ' ∈ s then some (s.takeWhile (fun c => c ≠ ' '), stripWhiteSpace (s.dropWhile (fun c => c ≠ ' ')))
  else if '\t' ∈ s then some (s.takeWhile (fun c => c ≠ '\t'), stripWhiteSpace (s.dropWhile (fun c => c ≠ '\t')))
  else none

/-- One line. -/
def Conf.line (c : Conf) (buf : Str) : Conf :=
  match confSplit buf with
  | some (k, v) => c.set k v
  | none => c

/-- The end of `parseConfig`, /repo/src/conf.cxx:125-136. -/
def Conf.fill (c : Conf) : Conf :=
  let c := if c.url ≠ [] then { c with dirUrl := c.dirUrl.map (fun i => if i.url = [] then { i with url := c.url } else i) } else c
  if c.depot ≠ [] then { c with dirUrl := c.dirUrl.map (fun i => if i.depot = [] then { i with depot := c.depot } else i) } else c

/-- `parseConfig` /repo/src/conf.cxx:13-138; `none` when the file cannot be opened. -/
def Conf.parse (c : Conf) (content : Option Str) : Conf :=
  match content with
  | none => c
  | some s => ((fgetsAll (bufsiz - 1) s.length s).foldl Conf.line c).fill

/-- `conf::conf` /repo/src/conf.cxx:6-12: the configuration file, then the version file. -/
def loadConf (config version : Option Str) : Conf := (({} : Conf).parse config).parse version

end Cards
