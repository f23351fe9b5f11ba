import Verif.Model.Resolve
/-!
# cards diff and cards upgrade: what has to be done
-/
namespace Cards

/-- `StatusEnumUpgrade` /repo/src/enum.h, the values `diff` sets. -/
inductive UpgStatus where
  | ok | newBuild | outOfDate | obsolete | unmaintained
deriving DecidableEq, Repr

/-- `m_package` /repo/src/pkgrepo.h:19-31, without the fields nothing here looks at. -/
structure Deal where
  status : UpgStatus
  installedSpace : Nat
  availableSpace : Nat
  availableSize : Nat
deriving DecidableEq, Repr

/-- `version() + "-" + itos(release())`, /repo/src/diff.cxx:37-42. -/
def verRel (version : Str) (release : Nat) : Str := version ++ '-' :: itos release

/-- The body of the loop of `diff::diff`, /repo/src/diff.cxx:28-67: what is decided for the installed package `(n, i)`. The spaces and the size are
`unsigned int`. -/
def dealOf (db : InstDb) (repo : List (Str × RepoPkg)) (n : Str) (i : Inst) : Deal :=
  match mget repo n with
  | some p =>
    if dateSame db (n, p.build) then { status := .ok, installedSpace := 0, availableSpace := 0, availableSize := 0 }
    else
      { status := if verRel i.version i.release = verRel p.version p.release then .newBuild else .outOfDate
        installedSpace := i.space % 2 ^ 32
        availableSpace := p.space % 2 ^ 32
        availableSize := p.size % 2 ^ 32 }
  | none => { status := if i.dependency then .obsolete else .unmaintained, installedSpace := 0, availableSpace := 0, availableSize := 0 }

/-- The counters and the map `diff` keeps, /repo/src/diff.h. The counters for conflicts, replaced and new packages stay 0. -/
structure Diff where
  okCount : Nat
  newBuildCount : Nat
  outOfDateCount : Nat
  obsoleteCount : Nat
  unmaintainedCount : Nat
  deals : List (Str × Deal)
deriving DecidableEq, Repr

/-- One pass of the loop, /repo/src/diff.cxx:28-68. Simplification: the counters (`unsigned int`) do not wrap, there are less than 2^32 packages. -/
def Diff.step (db : InstDb) (repo : List (Str × RepoPkg)) (d : Diff) (p : Str × Inst) : Diff :=
  let deal := dealOf db repo p.1 p.2
  let d := { d with deals := mset p.1 deal d.deals }
  match deal.status with
  | .ok => { d with okCount := d.okCount + 1 }
  | .newBuild => { d with newBuildCount := d.newBuildCount + 1 }
  | .outOfDate => { d with outOfDateCount := d.outOfDateCount + 1 }
  | .obsolete => { d with obsoleteCount := d.obsoleteCount + 1 }
  | .unmaintained => { d with unmaintainedCount := d.unmaintainedCount + 1 }

/-- `diff::diff` /repo/src/diff.cxx:7-69. -/
def mkDiff (db : InstDb) (repo : List (Str × RepoPkg)) : Diff :=
  db.foldl (Diff.step db repo) ⟨0, 0, 0, 0, 0, []⟩

/-- `diff::size` /repo/src/diff.cxx:301-309. -/
def Diff.size (d : Diff) : Nat := 0 + d.obsoleteCount + 0 + d.outOfDateCount + d.newBuildCount + 0 + d.unmaintainedCount

/-- The value is going to be downloaded and installed. -/
def Deal.replaced (d : Deal) : Bool := d.status = .outOfDate || d.status = .newBuild

/-- `diff::downloadSize` /repo/src/diff.cxx:70-81. `unsigned long` is 64 bits wide. -/
def Diff.downloadSize (d : Diff) : Nat :=
  d.deals.foldl (fun v p => if p.2.replaced then (v + p.2.availableSize) % 2 ^ 64 else v) 0

/-- `diff::AddSize` /repo/src/diff.cxx:82-92. -/
def Diff.addSize (d : Diff) : Nat :=
  d.deals.foldl (fun v p => if p.2.replaced then (v + p.2.availableSpace) % 2 ^ 64 else v) 0

/-- `diff::RemoveSize` /repo/src/diff.cxx:93-105. The status "conflict" is never set. -/
def Diff.removeSize (d : Diff) : Nat :=
  d.deals.foldl (fun v p => if p.2.status = .obsolete || p.2.replaced then (v + p.2.installedSpace) % 2 ^ 64 else v) 0

/-! ### Single precision arithmetic (for `ratio`) -/

/-- `n / d` rounded to the nearest natural number, ties to even. -/
def roundDiv (n d : Nat) : Nat :=
  let q := n / d
  let r := n % d
  if 2 * r < d then q else if 2 * r = d then (if q % 2 = 0 then q else q + 1) else q + 1

/-- The exponent for a 24 bit significand: the least `k` (from `k` on, trying `fuel` values) with 2^23 ≤ (n / d) * 2^k. -/
def scaleFrom (n d : Nat) : Nat → Nat → Nat
  | 0, k => k
  | fuel + 1, k => if 2 ^ 23 * d ≤ n * 2 ^ k then k else scaleFrom n d fuel (k + 1)

/-- The IEEE 754 single nearest to `n / d`, for 0 ≤ n / d < 2^24, as numerator and binary exponent of the denominator: the value is `m / 2^k`. No
denormal numbers occur here. -/
def single (n d : Nat) : Nat × Nat :=
  if n = 0 then (0, 0)
  else let k := scaleFrom n d 100 0; (roundDiv (n * 2 ^ k) d, k)

/-- `diff::ratio` /repo/src/diff.cxx:106-110: 100 minus the integer part of `((float) ok / total) * 100`. With no package the quotient is not a
number and its conversion to `int` undefined: `junk`. Counts up to 2^24 are exact as single. -/
def ratio (junk ok total : Nat) : Nat :=
  if total = 0 then junk
  else
    let q := single ok total
    let p := single (q.1 * 100) (2 ^ q.2)
    100 - p.1 / 2 ^ p.2

/-! ### cards upgrade -/

/-- The options `upgrade` looks at. -/
structure UpgOpts where
  check : Bool
  size : Bool
  proceed : Bool
  downloadOnly : Bool
  downloadReady : Bool
  root : Bool
deriving DecidableEq, Repr

/-- How `cards upgrade` goes on after the examination: it prints something, stops with an error, or updates and deletes packages. -/
inductive Plan where
  /-- prints "yes" or "no" -/
  | answer (yes : Bool)
  | printSize (n : Nat)
  /-- shows the differences and asks for `--proceed` -/
  | refused
  /-- ERROR_ENUM_CANNOT_FIND_DEPOT -/
  | noDepot
  | upToDate
  /-- ERROR_ENUM_ONLY_ROOT_CAN_INSTALL_UPGRADE_REMOVE -/
  | notRoot
  /-- `--download-ready` or `--download-only`: nothing is done -/
  | nothing
  /-- `m_ListOfPackagesToUpdate` and `m_ListOfPackagesToDelete` are dealt with -/
  | perform (update : List (Str × Nat)) (delete : List Str)
deriving DecidableEq, Repr

/-- One installed package and one configured group, /repo/src/upgrade.cxx:68-82. -/
def groupStep (db : InstDb) (repo : List (Str × RepoPkg)) (g : Str) (u : List (Str × Nat)) (p : Str × Inst) : List (Str × Nat) :=
  if p.2.group ≠ [] then u
  else match mget repo (p.1 ++ '.' :: g) with
    | none => u
    | some r => if dateSame db (p.1 ++ '.' :: g, r.build) then u else dinsert (p.1 ++ '.' :: g, r.build) u

/-- The packages of the configured groups, /repo/src/upgrade.cxx:66-83. -/
def groupUpdates (db : InstDb) (repo : List (Str × RepoPkg)) (groups : List Str) (u : List (Str × Nat)) : List (Str × Nat) :=
  groups.foldl (fun u g => db.foldl (groupStep db repo g) u) u

/-- One installed package, /repo/src/upgrade.cxx:85-101. -/
def scanStep (db : InstDb) (repo : List (Str × RepoPkg)) (s : List (Str × Nat) × List Str) (p : Str × Inst) : List (Str × Nat) × List Str :=
  match mget repo p.1 with
  | none => if p.2.dependency then (s.1, sinsert p.1 s.2) else s
  | some r => if dateSame db (p.1, r.build) then s else (dinsert (p.1, r.build) s.1, s.2)

/-- The installed packages, /repo/src/upgrade.cxx:84-102: what to update, what to delete. -/
def upgradeScan (db : InstDb) (repo : List (Str × RepoPkg)) (u : List (Str × Nat)) : List (Str × Nat) × List Str :=
  db.foldl (scanStep db repo) (u, [])

/-- `upgrade::upgrade` /repo/src/upgrade.cxx:7-115 and the first test of `upgradePackages`, 128-131. The examination by `diff` sees the database of the
host (`diffDb`), the rest of the command that of `--root` (`db`). -/
def upgradePlan (junk : Nat) (o : UpgOpts) (groups : List Str) (diffDb db : InstDb) (repo : List (Str × RepoPkg)) : Plan :=
  let d := mkDiff diffDb repo
  if o.check then .answer (decide (0 < d.size))
  else if o.size then .printSize d.size
  else if 20 < ratio junk d.okCount diffDb.length ∧ !o.proceed then .refused
  else if !db.any (fun p => (mget repo p.1).isSome) then .noDepot
  else
    let s := upgradeScan db repo (groupUpdates db repo groups [])
    if s.1 = [] ∧ s.2 = [] then .upToDate
    else if !o.downloadOnly && !o.root then .notRoot
    else if o.downloadReady || o.downloadOnly then .nothing
    else .perform s.1 s.2

/-- The list of packages to install, `upgradePackages` /repo/src/upgrade.cxx:133-136. `fuel` bounds each resolution. -/
def upgradeList (net : Net) (fuel : Nat) (update : List (Str × Nat)) (r : RepoSess) : Except ResErr RepoSess :=
  update.foldlM (fun r x => generateDeps net fuel x.1 r) r

end Cards
