import Verif.Model.Strings
import Verif.Model.Numbers
/-!
# The ports tree: levels, `cards level`, `cards depends`, `cards deptree`, `cards dependent`

`int` and `unsigned int` counters are unbounded here: they stay below the number of ports times the number of dependencies.
-/
namespace Cards

/-- `cards::port` /repo/src/pkgfile.h:11-101 with the fields of `cards::pkg` used here. -/
structure Port where
  collection : Str
  version : Str
  release : Nat
  /-- `m_index`: the rank of the Pkgfile in the scan. -/
  index : Nat
  /-- `m_dependencies`: a set of names, as written in the Pkgfile. -/
  deps : List Str
  indexes : List Nat
  decount : Int
  decrement : Nat
  level : Nat
deriving DecidableEq, Repr

/-- `ports_t` /repo/src/pkgfile.h:103: the ports by name. -/
abbrev Ports := List (Str × Port)

/-- A port as `parse` leaves it before `confirmDependencies`: the constructor /repo/src/pkgfile.h:43-48 and lines 87-176 of pkgfile.cxx. -/
def mkPort (collection version : Str) (release index : Nat) (deps : List Str) : Port :=
  ⟨collection, version, release, index, deps, [], 0, 0, 0⟩

/-- The loop over the dependencies of one port, /repo/src/pkgfile.cxx:55-76: the indexes pushed, the last value given to
`decount`, and the names not found. `n` is the next value. -/
def confirmLoop (T : Ports) (own : Nat) : List Str → List Nat → Nat → Int → List Str → List Nat × Int × List Str
  | [], idx, _, dc, bad => (idx, dc, bad)
  | j :: js, idx, n, dc, bad =>
    match mget T (getValueBeforeLast j '.') with
    | some q =>
      if own = q.index then confirmLoop T own js idx n dc bad
      else confirmLoop T own js (idx ++ [q.index]) (n + 1) n bad
    | none => confirmLoop T own js idx n dc (bad ++ [getValueBeforeLast j '.'])

/-- `confirmDependencies` /repo/src/pkgfile.cxx:52-80. Only `indexes` and `decount` change, and the lookups read only `index`. -/
def confirmDependencies (T : Ports) : Ports :=
  T.map (fun p => let r := confirmLoop T p.2.index p.2.deps [] 1 p.2.decount []
    (p.1, { p.2 with indexes := r.1, decount := r.2.1 }))

/-- `badDependencies`: the port and the name not found, /repo/src/pkgfile.cxx:66-75. Simplification: the pair stands for the
warning built from it. -/
def badDependencies (T : Ports) : List (Str × Str) :=
  T.flatMap (fun p => (confirmLoop T p.2.index p.2.deps [] 1 p.2.decount []).2.2.map (fun s => (p.1, s)))

/-- What the visit of port `i` adds to `decrement` of port `j`, /repo/src/pkgfile.cxx:201-218. -/
def hits (i j : Port) : Nat :=
  if j.index = i.index then 0
  else if j.decount > 0 then (j.indexes.filter (fun k => k ≠ j.index ∧ k = i.index)).length
  else 0

/-- The body of the first loop of `generate_level` for the port of that name, /repo/src/pkgfile.cxx:184-221. -/
def visitPort (lvl : Nat) (s : Ports × Bool) (name : Str) : Ports × Bool :=
  match mget s.1 name with
  | none => s
  | some i =>
    if i.decount = 0 then
      let i' := { i with decount := -1, level := lvl }
      ((s.1.map (fun p => if p.1 = name then (p.1, i') else p)).map
        (fun p => (p.1, { p.2 with decrement := p.2.decrement + hits i' p.2 })), true)
    else s

/-- The second loop of `generate_level`, /repo/src/pkgfile.cxx:222-227. -/
def settle (T : Ports) : Ports :=
  T.map (fun p => (p.1, if p.2.decrement > 0 then { p.2 with decount := p.2.decount - p.2.decrement, decrement := 0 } else p.2))

/-- One call of `generate_level` without the recursion; the flag is `found`. -/
def levelRound (lvl : Nat) (T : Ports) : Ports × Bool :=
  let s := (keys T).foldl (visitPort lvl) (T, false)
  (settle s.1, s.2)

/-- `generate_level` /repo/src/pkgfile.cxx:181-232. The first argument bounds the depth of the recursion; `none` when it is
exceeded (C19 proves that it never is). -/
def generateLevel : Nat → Nat → Ports → Option Ports
  | 0, _, _ => none
  | fuel + 1, lvl, T =>
    let r := levelRound lvl T
    if r.2 then generateLevel fuel (lvl + 1) r.1 else some r.1

/-- The end of `pkgfile::parse`, /repo/src/pkgfile.cxx:178-179: the tree every command works on. -/
def loadPorts (T : Ports) : Option Ports := generateLevel (T.length + 1) 0 (confirmDependencies T)

/-- `level::print` /repo/src/level.cxx:6-25 from some level on: (level, collection, name) per line. The first argument bounds the
number of rounds; `none` when it is exceeded. -/
def levelPrint (T : Ports) : Nat → Nat → Option (List (Nat × Str × Str))
  | 0, _ => none
  | fuel + 1, lvl =>
    let here := (T.filter (fun p => p.2.level = lvl)).map (fun p => (lvl, p.2.collection, p.1))
    if here.isEmpty then some [] else (levelPrint T fuel (lvl + 1)).map (here ++ ·)

/-- The first loop of `getListOfPackagesFromCollection`, /repo/src/pkgfile.cxx:298-313: the first level without port. -/
def levelMax (T : Ports) : Nat → Nat → Option Nat
  | 0, _ => none
  | fuel + 1, lvl => if T.any (fun p => p.2.level = lvl) then levelMax T fuel (lvl + 1) else some lvl

/-- `getListOfPackagesFromCollection` /repo/src/pkgfile.cxx:293-325; `acc` is the member vector, which is never cleared. -/
def portsOfCollection (T : Ports) (coll : Str) (acc : List Str) : Option (List Str) :=
  (levelMax T (T.length + 1) 0).map (fun m =>
    acc ++ (List.range (m + 1)).flatMap (fun l => (T.filter (fun p => p.2.collection = coll ∧ p.2.level = l)).map (·.1)))

/-- `depends::list` /repo/src/depends.cxx:5-24; `m_tree[name]` of an unknown name is an empty port. The inner `break` of the code
leaves a loop that does nothing. The first argument bounds the depth of the recursion. -/
def dependsList (T : Ports) : Nat → Str → List Str → Option (List Str)
  | 0, _, _ => none
  | fuel + 1, n, list =>
    if list.contains n then some list
    else match mget T n with
      | none => some (sinsert n list)
      | some p => p.deps.foldlM (fun list d => dependsList T fuel d list) (sinsert n list)

/-- `m_tree[name].level()`. -/
def portLevel (T : Ports) (n : Str) : Nat := match mget T n with | some p => p.level | none => 0

/-- `depends::print` /repo/src/depends.cxx:25-44: (level, name) per line. -/
def dependsPrint (T : Ports) (name : Str) : Option (List (Nat × Str)) :=
  (dependsList T (T.length + 1) name []).map (fun list =>
    (List.range (portLevel T name)).flatMap (fun l => (list.filter (fun i => portLevel T i = l)).map (fun i => (l, i)))
      ++ [(portLevel T name, name)])

/-- One line of `cards deptree`: level (the indentation is twice the level), name, and whether ` -->` is appended. -/
structure TreeLine where
  level : Nat
  name : Str
  arrow : Bool
deriving DecidableEq, Repr

/-- `m_tree[name].dependencies()`. -/
def portDeps (T : Ports) (n : Str) : List Str := match mget T n with | some p => p.deps | none => []

/-- The dependencies `deptree::print` walks through: the loop is left at the port itself, /repo/src/deptree.cxx:21-25. -/
def beforeSelf (n : Str) (ds : List Str) : List Str := ds.takeWhile (fun d => d ≠ n)

/-- `deptree::print` /repo/src/deptree.cxx:4-29: the new `m_list` and the lines. -/
def deptree (T : Ports) : Nat → Str → Nat → List Str → Option (List Str × List TreeLine)
  | 0, _, _, _ => none
  | fuel + 1, n, lvl, list =>
    if list.contains n then some (list, [⟨lvl, n, !(portDeps T n).isEmpty⟩])
    else (beforeSelf n (portDeps T n)).foldlM
      (fun s d => (deptree T fuel d (lvl + 1) s.1).map (fun r => (r.1, s.2 ++ r.2)))
      (list ++ [n], [⟨lvl, n, false⟩])

/-- The line of `cards dependent` for a port, /repo/src/dependent.cxx:10-17. -/
def describe (name : Str) (p : Port) : Str :=
  "(".toList ++ p.collection ++ ") ".toList ++ name ++ " ".toList ++ p.version ++ "-".toList ++ itos p.release

/-- `dependent::list` /repo/src/dependent.cxx:5-20. -/
def dependentList (T : Ports) (name : Str) : List Str :=
  T.foldl (fun acc p => p.2.deps.foldl (fun acc d => if d = name then sinsert (describe p.1 p.2) acc else acc) acc) []

end Cards
