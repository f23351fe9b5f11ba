import Verif.Model.Trans
/-!
# cards remove
-/
namespace Cards

/-- The name part of a dependency line `R<name><epoch>`: `s.substr(1, s.size()-11)`, /repo/src/pkgdbh.cxx:459, 566. The count wraps for
lines shorter than 11 and the rest of the line is taken. -/
def depName (s : Str) : Str := if s.length < 11 then s.drop 1 else (s.drop 1).take (s.length - 11)

/-- The lines of META with the given field letter, without the letter, in the order of the `std::set` they are read into
(`parseFile`, /repo/src/file_utils.cxx:345-360). -/
def Info.fields (i : Info) (c : Char) : List Str :=
  (sofList i.md).filterMap (fun l => if l.head? = some c then some (l.drop 1) else none)

/-- The dependency names of a record, /repo/src/pkgdbh.cxx:457-462 and 564-569. -/
def Info.depNames (i : Info) : List Str :=
  (sofList i.md).filterMap (fun l => if l.head? = some 'R' then some (depName l) else none)

/-- `info.collection()`, `info.group()`: `buildDatabase` assigns at every line, the last one stays
(/repo/src/pkgdbh.cxx:540-551). -/
def Info.lastField (i : Info) (c : Char) : Str := ((i.fields c).getLast?).getD []

/-- `getSingleItem` /repo/src/pkgdbh.cxx:316-329 on a record: the first line counts. -/
def Info.firstField (i : Info) (c : Char) : Str := ((i.fields c).head?).getD []

/-- `getCollection(name)` /repo/src/pkgdbh.cxx:355-358: reads the META of the directory `name`, empty when there is none. -/
def getCollection (disk : Db) (name : Str) : Str :=
  match mget disk name with
  | some i => i.firstField 'c'
  | none => []

/-- The order of `std::pair<std::string,std::string>`. -/
def pairLt (a b : Str × Str) : Bool := a.1 < b.1 || (a.1 = b.1 && a.2 < b.2)

/-- Insertion into `std::set<std::pair<std::string,std::string>>`. -/
def pinsert (x : Str × Str) : List (Str × Str) → List (Str × Str)
  | [] => [x]
  | y :: ys => if x = y then y :: ys else if pairLt x y then x :: y :: ys else y :: pinsert x ys

/-- The error the decision part of `cards remove` ends with. -/
inductive RmErr where
  /-- ERROR_ENUM_PACKAGE_IN_USE -/
  | inUse
  /-- ERROR_ENUM_PACKAGE_IN_BASESYSTEM -/
  | inBase
  /-- an error of `pkgrm::run` -/
  | run (e : Err)
deriving DecidableEq, Repr

/-- The loop body over the arguments, /repo/src/remove.cxx:27-72. `acc` is `listOfPackagesToRemove`, shared by all arguments;
`m_listOfAlias[i]` at line 66 inserts an empty entry when the key is missing. -/
def selectArg (disk mem : Db) (acc : List (Str × Str)) (al : List (Str × Str)) (i : Str) :
    Except RmErr (List (Str × Str) × List (Str × Str)) :=
  if i = "base".toList then .error .inUse
  else if mem.any (fun p => p.2.depNames.contains i) then .error .inUse
  else
    let acc := mem.foldl (fun acc p =>
      if p.2.lastField 'c' = i ∨ p.2.lastField 'g' = i then pinsert (p.1, p.2.lastField 'c') acc else acc) acc
    let acc := if acc.isEmpty then
        mem.foldl (fun acc p => if (p.2.fields 's').contains i then pinsert (p.1, p.2.lastField 'c') acc else acc) acc
      else acc
    let a := (mget al i).getD []
    .ok (pinsert (a, getCollection disk i) acc, if (mget al i).isSome then al else mset i [] al)

/-- The whole argument loop. Simplification: when a later argument is refused nothing has been changed before, so the order of
the checks inside the loop does not matter for the effects. -/
def selectArgs (disk mem : Db) : List Str → List (Str × Str) → List (Str × Str) →
    Except RmErr (List (Str × Str) × List (Str × Str))
  | [], acc, al => .ok (acc, al)
  | i :: is, acc, al =>
    match selectArg disk mem acc al i with
    | .error e => .error e
    | .ok (acc, al) => selectArgs disk mem is acc al

/-- The sub-packages `name.group` of the selected packages that exist, /repo/src/remove.cxx:73-86. -/
def addGroups (groups : List Str) (exists_ : Str → Bool) (sel : List (Str × Str)) : List (Str × Str) :=
  (groups.filter (fun g => g ≠ "lib".toList)).foldl (fun acc g =>
    sel.foldl (fun acc p => let n := p.1 ++ '.' :: g
      if exists_ n then pinsert (n, p.2) acc else acc) acc) sel

/-- What the environment of a `cards remove` decides: the groups of the configuration, --force, whether the lock is taken by
another process at the run of a package, its scripts, and the value found in the uninitialised `m_dependency` of a default constructed
record (/repo/src/db.cxx:7-10 initialises nothing). -/
structure RmEnv where
  groups : List Str
  force : Bool
  locked : Str → Bool
  sc : Str → RmScripts
  junk : Str → Bool

/-- The removal loop /repo/src/remove.cxx:87-100. `gone` collects the packages removed by this process: their entry of
`m_listOfPackages` is a default constructed record afterwards (pkgdbh.cxx:912). -/
def removeLoop (env : RmEnv) : List (Str × Str) → St → List Str → (St × List Str) × Option RmErr
  | [], st, gone => ((st, gone), none)
  | (n, c) :: ps, st, gone =>
    if n.isEmpty then removeLoop env ps st gone
    else if c = "base".toList ∧ env.force = false then ((st, gone), some .inBase)
    else
      match runRm (env.locked n) (env.sc n) n st with
      | (st, some e) => ((st, gone), some (.run e))
      | (st, none) => removeLoop env ps st (n :: gone)

/-- `buildSimpleDependenciesDatabase` /repo/src/pkgdbh.cxx:445-465: for every name known since the database was loaded, the
dependencies now found in its META (none when the directory is gone). -/
def depGraph (names : List Str) (disk : Db) : List (Str × List Str) :=
  names.map (fun n => (n, sofList (match mget disk n with | some i => i.depNames | none => [])))

/-- `getDirectDependencies` /repo/src/pkgrm.cxx:21-45: depth first search with the visited set `m_listofDependencies`. The first
argument bounds the depth of the recursion; `none` when it is exceeded (C16 proves that it never is). -/
def visit (g : List (Str × List Str)) : Nat → Str → List Str → Option (List Str)
  | 0, _, _ => none
  | fuel + 1, n, vis =>
    if vis.contains n then some vis
    else match mget g n with
      | none => some (sinsert n vis)
      | some ds => ds.foldlM (fun vis d => if n = d then some vis else visit g fuel d vis) (sinsert n vis)

/-- `getListOfManInstalledPackages` /repo/src/pkgrm.cxx:8-20, the list: packages not marked as dependency. -/
def manual (env : RmEnv) (gone : List Str) (mem : Db) : List Str :=
  (mem.filter (fun p => if gone.contains p.1 then !env.junk p.1 else !p.2.dependency)).map (·.1)

/-- `getListOfManInstalledPackages`, the closure: everything reachable from the list. The fuel is more than the number of names. -/
def needed (g : List (Str × List Str)) (roots : List Str) : Option (List Str) :=
  roots.foldlM (fun vis n => visit g (g.length + 1) n vis) []

/-- The packages the purge selects before sub-packages are added, /repo/src/remove.cxx:103-117. -/
def obsolete (mem : Db) (vis : List Str) : List Str := sofList ((keys mem).filter (fun n => !vis.contains n))

/-- The sub-packages of the obsolete ones that exist, /repo/src/remove.cxx:118-128. -/
def obsoleteAll (groups : List Str) (exists_ : Str → Bool) (obs : List Str) : List Str :=
  ((groups.filter (fun g => g ≠ "lib".toList)).flatMap (fun g => obs.map (fun n => n ++ '.' :: g))).foldl
    (fun acc n => if exists_ n then sinsert n acc else acc) obs

/-- The purge loop /repo/src/remove.cxx:129-135. -/
def purgeLoop (env : RmEnv) : List Str → St → St × Option RmErr
  | [], st => (st, none)
  | n :: ns, st =>
    match runRm (env.locked n) (env.sc n) n st with
    | (st, some e) => (st, some (.run e))
    | (st, none) => purgeLoop env ns st

/-- The part of `cards remove` that gets rid of obsolete dependencies, /repo/src/remove.cxx:102-135. `none`: does not end. -/
def purge (env : RmEnv) (names gone : List Str) (st : St) : Option (St × Option RmErr) :=
  match needed (depGraph names st.disk) (manual env gone st.mem) with
  | none => none
  | some vis => some (purgeLoop env (obsoleteAll env.groups st.nameExists (obsolete st.mem vis)) st)

/-- `cards remove` /repo/src/remove.cxx:7-135. -/
def cardsRemove (env : RmEnv) (args : List Str) (s : Sys) : Option (Sys × Option RmErr) :=
  let st := load s false
  match selectArgs st.disk st.mem args [] st.alias with
  | .error e => some (s, some e)
  | .ok (sel, al) =>
    let st := { st with alias := al }
    match removeLoop env (addGroups env.groups st.nameExists sel) st [] with
    | ((st, _), some e) => some (st.sys, some e)
    | ((st, gone), none) =>
      match purge env (keys s.disk) gone st with
      | none => none
      | some (st, e) => some (st.sys, e)

end Cards
