import Verif.Model.Repo
/-!
# The package table of flcards (/repo/fltk/table_base.cxx, table_package.cxx, cards_wrapper.cxx, mainWindow.cxx)

The main window: the list of packages, the table that shows it, the search field, and the marks the user sets on the packages. What the user does is a list of events.
Simplifications: the four bits of `cache::m_status` are three Booleans (`TO_UPGRADE` is never set); a pointer to a package is its place in the list; pixels, colours and the
selection of rows are left out; the threads are modelled in `Model/GuiJobs.lean`.
-/
namespace Cards

/-- A package of the list, `cards::cache` with its `m_status`, /repo/src/cache.cxx:7-80, /repo/src/enum.h:71-77. -/
structure GPack where
  name : Str
  version : Str
  description : Str
  collection : Str
  packager : Str
  inst : Bool
  toInst : Bool
  toRem : Bool
deriving DecidableEq, Repr

/-- A row of the table, /repo/fltk/table_base.h:24-31: the cells, and the package (`data`, here its place in the list). -/
structure GRow where
  pkg : Nat
  cols : List Str
deriving DecidableEq, Repr

/-- The window. `apply`: the button "Go !" is active. -/
structure Gui where
  packs : List GPack
  search : Str
  rows : List GRow
  jobs : List Nat
  apply : Bool
  lastCol : Option Nat
  reverse : Bool
deriving DecidableEq, Repr

/-- What the user does: release the left button on a row (`pick` tells which item of a menu he would take, `false`: he leaves the menu), change the text of the search field, click on
the header of a column. -/
inductive GEv
  | click (row : Nat) (pick : Str → Bool)
  | search (text : Str)
  | header (col : Nat)

/-- The cells of a package, /repo/fltk/table_package.cxx:41-53. -/
def gcells (p : GPack) : List Str :=
  [if p.toInst then ['A'] else if p.toRem then ['B'] else if p.inst then ['C'] else ['D'], p.name, p.version, p.description, p.collection, p.packager]

/-- The filter, /repo/fltk/table_package.cxx:32-36. -/
def gshown (text : Str) (p : GPack) : Bool :=
  text.isEmpty || (cutFirst text p.name).isSome || (cutFirst text p.collection).isSome || (cutFirst text p.description).isSome || (cutFirst text p.version).isSome

/-- `refreshTable`, /repo/fltk/table_package.cxx:24-61. -/
def Gui.refreshTable (g : Gui) : Gui :=
  { g with rows := g.packs.zipIdx.filterMap (fun x => if gshown g.search x.1 then some ⟨x.2, gcells x.1⟩ else none) }

/-- `refreshJobList`, /repo/fltk/cards_wrapper.cxx:93-110, with the callbacks `OnJobListChange` of the table (table_base.cxx:237-241) and of the window (mainWindow.cxx:206-220). -/
def Gui.refreshJobs (g : Gui) : Gui :=
  let jobs := g.packs.zipIdx.filterMap (fun x => if x.1.toInst || x.1.toRem then some x.2 else none)
  { g with jobs := jobs, apply := !jobs.isEmpty }.refreshTable

/-- The menus shown one after the other, one item each, /repo/fltk/table_package.cxx:173-201. -/
def gmenus (p : GPack) : List Str :=
  (if p.inst && !p.toRem then ["Remove".toList] else []) ++ (if !p.inst && !p.toInst then ["Install".toList] else []) ++
  (if p.toRem then ["Cancel Remove".toList] else []) ++ (if p.toInst then ["Cancel Install".toList] else [])

/-- The effect of an item on the package, /repo/fltk/table_package.cxx:203-238. -/
def gtake (label : Str) (p : GPack) : GPack :=
  if label = "Install".toList then { p with toInst := true }
  else if label = "Remove".toList then (if p.inst then { p with toRem := true } else p)
  else if label = "Cancel Install".toList ∨ label = "Cancel Remove".toList then { p with toInst := false, toRem := false }
  else p

/-- `OnEvent` for a release of the left button on a row, /repo/fltk/table_package.cxx:152-246. `m` is the answer to the last menu shown; without any menu it is not initialised, and a
row whose package does not exist is a dangling pointer (`none`). -/
def Gui.click (g : Gui) (row : Nat) (pick : Str → Bool) : Option Gui :=
  match g.rows[row]? with
  | none => some g
  | some r =>
    match g.packs[r.pkg]? with
    | none => none
    | some p =>
      match (gmenus p).getLast? with
      | none => none
      | some label =>
        if pick label then
          if label = "Remove".toList ∧ p.inst = false then some g
          else some { g with packs := g.packs.set r.pkg (gtake label p) }.refreshJobs
        else some g

/-- `isdigit` -/
def isDigitC (c : Char) : Bool := '0' ≤ c && c ≤ '9'

/-- The text of a cell as a C string, empty when the row has no such cell, /repo/fltk/table_base.cxx:18-19. -/
def cellText (col : Nat) (r : GRow) : Str := (r.cols.getD col []).takeWhile (· ≠ '\x00')

/-- `isdigit(*ap)` -/
def startsDigit (s : Str) : Bool := match s with | [] => false | c :: _ => isDigitC c

/-- `sort_table_column::operator()`, /repo/fltk/table_base.cxx:16-30. `sscanf("%d")` on a text that begins with a digit gives what `atoi` gives. -/
def gless (col : Nat) (reverse : Bool) (a b : GRow) : Bool :=
  let ap := cellText col a
  let bp := cellText col b
  if startsDigit ap && startsDigit bp then
    if reverse then decide (atoi32 ap < atoi32 bp) else decide (atoi32 bp < atoi32 ap)
  else if reverse then decide (bp < ap) else decide (ap < bp)

/-- A strict weak ordering, what `std::sort` asks of its comparison. -/
structure Swo {α : Type} (lt : α → α → Bool) : Prop where
  irrefl : ∀ a, lt a a = false
  trans : ∀ a b c, lt a b = true → lt b c = true → lt a c = true
  incomp : ∀ a b c, lt a b = false → lt b a = false → lt b c = false → lt c b = false → lt a c = false

/-- `std::sort`: what the C++ standard promises. For a comparison that is not a strict weak ordering it promises nothing. -/
structure StdSort where
  sort : (GRow → GRow → Bool) → List GRow → List GRow
  perm : ∀ lt l, Swo lt → (sort lt l).Perm l
  sorted : ∀ lt l, Swo lt → (sort lt l).Pairwise (fun a b => lt b a = false)

/-- A click on the header of a column, /repo/fltk/table_base.cxx:59-64, 200-224. -/
def Gui.header (S : StdSort) (g : Gui) (col : Nat) : Gui :=
  let rev := if g.lastCol = some col then !g.reverse else false
  { g with reverse := rev, rows := S.sort (gless col rev) g.rows, lastCol := some col }

/-- One event; the search field calls `setFilter` (table_base.cxx:229-233, mainWindow.cxx:155-161). -/
def Gui.step (S : StdSort) (g : Gui) : GEv → Option Gui
  | .click row pick => g.click row pick
  | .search text => some { g with search := text }.refreshTable
  | .header col => some (g.header S col)

/-- A sequence of events. -/
def Gui.run (S : StdSort) (g : Gui) : List GEv → Option Gui
  | [] => some g
  | e :: es => match g.step S e with
    | none => none
    | some g => g.run S es

/-- The window after the list was loaded, /repo/fltk/cards_wrapper.cxx:280-304: a package carries no mark, and is shown as installed when it is. `jobs` is empty at the start. -/
def Gui.fresh (packs : List GPack) : Gui := { packs := packs, search := [], rows := [], jobs := [], apply := false, lastCol := none, reverse := false : Gui }.refreshTable

/-- The names to install, /repo/fltk/cards_wrapper.cxx:237-243. -/
def Gui.installList (g : Gui) : List Str :=
  sofList (g.jobs.filterMap (fun k => match g.packs[k]? with | some p => if p.toInst then some p.name else none | none => none))

/-- The names to remove, same loop. -/
def Gui.removeList (g : Gui) : List Str :=
  sofList (g.jobs.filterMap (fun k => match g.packs[k]? with | some p => if p.toRem then some p.name else none | none => none))

end Cards
