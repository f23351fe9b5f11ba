/-!
# Strings, ordered sets and ordered maps

`std::string` is modelled as `List Char`, `std::set<std::string>` as a list kept in
strictly increasing order, `std::map<std::string, T>` as an association list kept in
strictly increasing key order.  C++ orders strings by bytes; for UTF-8 that is the
order of code points used here.
-/
namespace Cards

/-- `std::string` as a sequence of characters. -/
abbrev Str := List Char

/-- `std::set<std::string>::insert` (used throughout, e.g. /repo/src/pkgdbh.cxx:1234, pkgadd.cxx:200).
A set is a strictly increasing list. -/
def sinsert (x : Str) : List Str → List Str
  | [] => [x]
  | y :: ys => if x < y then x :: y :: ys else if x = y then y :: ys else y :: sinsert x ys

/-- `std::set<std::string>::erase(key)` (e.g. /repo/src/pkgdbh.cxx:953). -/
def serase (x : Str) (l : List Str) : List Str := l.filter (fun y => y ≠ x)

/-- Build a set by inserting the elements one after the other. -/
def sofList (l : List Str) : List Str := l.foldl (fun s x => sinsert x s) []

/-- `for (auto j : xs) set.erase(j)` (e.g. /repo/src/pkgdbh.cxx:951-953, 990). -/
def seraseAll (xs : List Str) (l : List Str) : List Str := xs.foldl (fun s x => serase x s) l

/-- `std::map<std::string,T>::find`. -/
def mget {α : Type} : List (Str × α) → Str → Option α
  | [], _ => none
  | (k, v) :: m, x => if k = x then some v else mget m x

/-- `map[key] = value`. -/
def mset {α : Type} (x : Str) (v : α) : List (Str × α) → List (Str × α)
  | [] => [(x, v)]
  | (k, w) :: m => if x < k then (x, v) :: (k, w) :: m else if x = k then (x, v) :: m else (k, w) :: mset x v m

/-- `map.erase(key)`. -/
def merase {α : Type} (x : Str) (m : List (Str × α)) : List (Str × α) := m.filter (fun p => p.1 ≠ x)

/-- The keys in iteration order. -/
def keys {α : Type} (m : List (Str × α)) : List Str := m.map (·.1)

/-- A strictly increasing list: the representation invariant of `std::set`. -/
def Sorted (l : List Str) : Prop := l.Pairwise (· < ·)

end Cards
