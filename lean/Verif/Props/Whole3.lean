import Verif.Props.Whole2
import Verif.Props.PkgmkInst
import Verif.Props.Gui
import Verif.Props.GuiGo
import Verif.Props.LineFile
import Verif.Props.Purge
import Verif.Props.WebReq
/-!
# C195–C201: more statements that hold as a whole
-/
namespace Cards.Props
open Cards Cards.Spec Relation

/-- **C195.** Whatever the ports and their dependencies, cycles included, `cards depends` and `cards deptree` end. The first prints each line once, in the order of the levels, the port itself last, and besides
it only ports that can be reached from it and lie at a lower level — all of these; the second prints only names that can be reached from the port, and the port. -/
theorem C195_ends (T : Ports) (hs : Sorted (keys T)) (name : Str) :
    (∃ lines, dependsPrint T name = some lines ∧ lines.Nodup ∧ lines.Pairwise (fun x y => x.1 ≤ y.1) ∧ lines.getLast? = some (portLevel T name, name) ∧
      ∀ l n, (l, n) ∈ lines ↔ (l = portLevel T name ∧ n = name) ∨ (ReflTransGen (Declares T) name n ∧ l = portLevel T n ∧ portLevel T n < portLevel T name)) ∧
    ∃ list lines, deptree T (T.length + 1) name 0 [] = some (list, lines) ∧ ∀ x, (∃ l ∈ lines, l.name = x) ↔ ReflTransGen (ListedBeforeSelf T) name x :=
  ⟨C18_printed_exact T hs name, C20_exact T name⟩

example : Sorted (keys sampleTree) ∧ (loadPorts sampleTree).bind (fun T => dependsPrint T "lib".toList) = some [(0, "gcc".toList), (1, "lib".toList)] := ⟨by unfold Sorted; decide, by decide +kernel⟩

/-- **C196.** `pkgmk clean` deletes the regular files of the directory of the packages that are named like packages of the port, and the regular files named like a footprint below the directory of
the port; everything else stays as it was. -/
theorem C196_clean (name : Str) (hn : ∀ c ∈ name, c ≠ '*' ∧ c ≠ '[') (packages port : List Str) (fs : Fs) (k : List Str) :
    ((cleanPort name packages port fs).get k = none ↔
      fs.get k = none ∨ (∃ d m, fs.get k = some (.file d m)) ∧ ((∃ t, k = packages ++ [t] ∧ LooksOwn name t) ∨ (Inside k port ∧ FootprintName k))) ∧
    ((cleanPort name packages port fs).get k ≠ none → (cleanPort name packages port fs).get k = fs.get k) :=
  C162_exact name hn packages port fs k

example : (∀ c ∈ "foo".toList, c ≠ '*' ∧ c ≠ '[') ∧ LooksOwn "foo".toList "foo.cards-1.tar.xz".toList ∧ FootprintName ["p".toList, "foo.footprint".toList] :=
  ⟨by decide, ⟨[], "1.tar.xz".toList, rfl⟩, ⟨["p".toList], "foo".toList, rfl⟩⟩

/-- **C197.** The rows of the window after any events: sorted by the column whose header was clicked last, in the direction that is noted; in the order of the list after another text in the search field or
an item taken from a menu; unchanged by a click that takes nothing. -/
theorem C197_rows (S : StdSort) (ps : List GPack) (h : Unmarked ps) (es : List GEv) (g g' : Gui) (hr : (Gui.fresh ps).run S es = some g) (e : GEv) (he : g.step S e = some g') :
    match e with
    | .header col => g'.rows.Pairwise (RowOrder col g'.reverse) ∧ g'.lastCol = some col
    | .search _ => (g'.rows.map (·.pkg)).Pairwise (· < ·) ∧ g'.lastCol = g.lastCol ∧ g'.reverse = g.reverse
    | .click row pick => if gtaken g (.click row pick) = [] then g' = g
        else (g'.rows.map (·.pkg)).Pairwise (· < ·) ∧ g'.lastCol = g.lastCol ∧ g'.reverse = g.reverse :=
  C109_exact S ps h es g g' hr e he

example : Unmarked gps := by
  intro p hp
  simp only [gps, List.mem_cons, List.not_mem_nil, or_false] at hp
  rcases hp with rfl | rfl | rfl <;> decide

/-- **C198.** A file of complete lines is read as exactly these lines if and only if no line has more than 8190 characters and none contains NUL. -/
theorem C198_read_back (ls : List Str) (hn : ∀ l ∈ ls, '\n' ∉ l) : parseFile (writeList ls) = some ls ↔ ∀ l ∈ ls, '\x00' ∉ l ∧ l.length ≤ 8190 :=
  C34_exact_bounds ls hn

example : (∀ l ∈ ["Nxorg".toList, [], "V1.2".toList], '\n' ∉ l) ∧ ∀ l ∈ ["Nxorg".toList, [], "V1.2".toList], '\x00' ∉ l ∧ l.length ≤ 8190 := by
  refine ⟨by decide, by decide +kernel⟩

/-- **C199.** `cards purge` leaves every file of a collection that has no address and neither lies below a collection with an address nor contains one. -/
theorem C199_local (dirs : List DirUrl) (fs : Fs) (ht : ParentsDirs fs) (d : DirUrl) (h : ∀ e ∈ dirs, e.url ≠ [] → ¬ e.place <+: d.place ∧ ¬ d.place <+: e.place) (rel : List Str) :
    (cardsPurge true dirs fs).get (d.place ++ rel) = fs.get (d.place ++ rel) :=
  C71_local_stays dirs fs ht d h rel

example : (let fs := cardsPurge true [⟨"base".toList, "/var/d".toList, "http://s".toList⟩, ⟨"own".toList, "/home/me".toList, []⟩] pgFs
    fs.map (·.1.getLast!) = ["var", "d", "base", ".REPO", "bash", "home", "me", "own", "mine.cards", "etc", "passwd"].map (·.toList)) := by decide +kernel

/-- **C200.** Whatever the request, each parameter of the site has the value told by the greatest of the pieces between `&` in which its name is found, behind its first occurrence there, and its default if it is found
in none (or, for type, branch and system, if the value is empty). -/
theorem C200_parameters (query : Str) :
    (∃ r, ParamTells query "page=".toList r ∧ (webArgs query).doc = r.getD "index".toList) ∧
    (∃ r, ParamTells query "search=".toList r ∧ (webArgs query).search = r.getD []) ∧
    (∃ r, ParamTells query "searchpkg=".toList r ∧ (webArgs query).pkgSearch = r.getD []) ∧
    (∃ r, ParamTells query "type=".toList r ∧ (webArgs query).type = if r.getD [] = [] then "pkg".toList else r.getD []) ∧
    (∃ r, ParamTells query "branch=".toList r ∧ (webArgs query).branch = if r.getD [] = [] then "systemd".toList else r.getD []) ∧
    (∃ r, ParamTells query "system=".toList r ∧ (webArgs query).system = if r.getD [] = [] then "all".toList else r.getD []) :=
  C88_exact query

example : (webArgs "page=news&branch=sysv".toList).doc = "news".toList ∧ (webArgs "page=news&branch=sysv".toList).branch = "sysv".toList := ⟨by decide +kernel, by decide +kernel⟩

/-- **C201.** After a successful "Go !" that only removes, on a system where every dependency of an installed package is installed, this holds still if and only if no package that stays depends on a
package that was marked for removal. -/
theorem C201_go_closed (E : InstEnv) (junk : Nat × Nat) (opts : Opts) (locked : Bool) (remove : List Str) (s : Sys) (sess : RepoSess) (r : InstSt) (hw : WF s.disk) (hc : Closed s.disk)
    (h : guiGo E junk opts locked remove [] s sess = (r, none)) : Closed r.st.disk ↔ ∀ a b, DependsOn s.disk a b → a ∉ remove → b ∉ remove :=
  C115_exact E junk opts locked remove s sess r hw hc h

example : WF xSys.disk ∧ (guiGo (xInst []) (0, 0) xOpts false ["bar".toList] [] xSys (xSess xDeps)).2 = none := ⟨xSys_wf, by decide +kernel⟩

end Cards.Props
