import Verif.Lemmas.CreateCmd
import Verif.Props.InstallAll
import Verif.Props.Alias
/-!
# cards create: the environment of a build (C63), the database (C64)
-/
namespace Cards.Props
open Cards Cards.Spec Relation

/-! ## Sample: `app` needs `libx`, which needs `gcc`; `gcc` is in the set `devel`, `old` is installed and in no set -/

/-- An archive with more META lines. -/
def cArch (n : String) (lines fs : List String) : Archive := { xArch n fs with md := (("N" ++ n) :: lines).map String.toList }

def cPkg (parent : String) (sets : List String) (version n : String) : Str × RepoPkg :=
  let g : Str := if parent = "" then [] else n.toList.drop (parent.length + 1)
  let d : RepoPkg := { defaultPkg with dirName := "/r".toList, fileName := n.toList, baseName := parent.toList, sets := sets.map String.toList }
  (n.toList, { d with collection := "base".toList, version := version.toList, release := 1, group := g })

def cRepo : List (Str × RepoPkg) :=
  [cPkg "" [] "1" "app", cPkg "cards" ["devel"] "1" "cards.devel", cPkg "" ["devel"] "1" "gcc", cPkg "" [] "1" "libx", cPkg "libx" [] "1" "libx.lib",
    cPkg "libx" [] "1" "libx.man"]

def cArchOf (c : Str) : Option Archive :=
  if c = "app".toList then some (cArch "app" [] ["usr/", "usr/app"])
  else if c = "app-2".toList then some (cArch "app" ["V2"] ["usr/", "usr/app2"])
  else if c = "cards.devel".toList then some (cArch "cards.devel" ["gdevel", "sdevel"] ["usr/", "usr/cards.h"])
  else if c = "gcc".toList then some (cArch "gcc" ["sdevel"] ["usr/", "usr/gcc"])
  else if c = "gcc-2".toList then some (cArch "gcc" ["sdevel"] ["usr/", "usr/gcc2"])
  else if c = "libx".toList then some (cArch "libx" [] ["usr/", "usr/libx"])
  else if c = "libx.lib".toList then some (cArch "libx.lib" ["glib"] ["usr/", "usr/libx.so"])
  else if c = "libx.man".toList then some (cArch "libx.man" ["gman"] ["usr/", "usr/libx.man"])
  else none

def cFiles : List (Str × Str) := cRepo.map (fun p => ("/r/".toList ++ p.1, p.1))

def cTree : Ports := [("app".toList, mkPort "base".toList "2".toList 1 1 ["libx".toList]), ("gcc".toList, mkPort "base".toList "1".toList 1 2 []),
  ("libx".toList, mkPort "base".toList "1".toList 1 3 ["gcc".toList])]

/-- `pkgmk` writes version 2 of `app` and of `gcc`. -/
def cMake (_k : Nat) (n : Str) (fs : Fs) (repo : List (Str × RepoPkg)) (files : List (Str × Str)) :
    Fs × Option (List (Str × RepoPkg) × List (Str × Str)) :=
  if n = "app".toList then (fs, some (mset "app".toList (cPkg "" [] "2" "app").2 repo, mset "/r/app".toList "app-2".toList files))
  else if n = "gcc".toList then (fs, some (mset "gcc".toList (cPkg "" ["devel"] "2" "gcc").2 repo, mset "/r/gcc".toList "gcc-2".toList files))
  else (fs, none)

def cSess : RepoSess := ⟨[], [], cFiles, 0⟩

def cNet (repo : List (Str × RepoPkg)) : Net :=
  { url := [], repo := repo, db := [], hash := id, verify := fun _ _ _ => none,
    opens := fun c => (cArchOf c).map (fun a => ⟨a.name, "1".toList, 1, 5, [], []⟩), fetch := fun _ _ => .failed }

def cEnv (tree : Ports) : CreEnv :=
  { E := { net := cNet cRepo, pkgOf := cArchOf, localFile := fun _ => none, fileExists := fun _ => false, env := fun _ => xEnv, rules := [],
           groups := ["lib".toList], fuel := 10 },
    tree := (loadPorts tree).getD [], noMeta := false, dry := false, baseLock := fun _ => true, portDir := fun n => decide (n ∈ keys tree), cwd := fun _ => "app".toList, make := cMake }

/-- `old` is installed, it is in no set. -/
def cSys : Sys :=
  { fs := [(["usr".toList], .dir 0o755), (["usr".toList, "old".toList], .file "x".toList 0o644)],
    disk := [("old".toList, { md := ["Nold".toList], files := ["usr/".toList, "usr/old".toList] })] }

/-- How the command ends, the names installed at the end, the ports announced, and for each build, the last one first, the port and the names installed. -/
def created (x : CreSt × Option CreErr × List Str) : Option CreErr × List Str × List Str × List (Str × List Str) :=
  (x.2.1, keys x.1.inst.st.disk, x.2.2, x.1.seen.map (fun w => (w.port, keys w.disk)))

theorem cEnv_runs : created (cardsCreate (cEnv cTree) "app".toList false cSys cSess) =
    (none, ["app".toList, "cards.devel".toList, "gcc".toList, "libx".toList, "libx.lib".toList], ["app".toList],
      [("app".toList, ["cards.devel".toList, "gcc".toList, "libx".toList, "libx.lib".toList])]) := by
  decide +kernel

/-! ## C63 -/

/-- The names the process takes for installed are installed, when every alias recorded is the name of an installed package. -/
theorem noStray_load {s : Sys} (h : ∀ n i al, (n, i) ∈ s.disk → HasAlias i al → Installed s.disk al) : NoStray (load s false) := by
  intro n hn
  rcases (nameExists_load s false n).mp hn with h1 | ⟨p, hp, ha⟩
  · obtain ⟨q, hq, rfl⟩ := List.mem_map.mp h1
    exact ⟨q.2, hq⟩
  · exact h p.1 p.2 n hp (mem_aliases.mp ha)

/-- What `pkgmk` finds installed each time `cards create` runs it: packages of the sets `chroot` and `devel`, main packages of the direct and indirect
dependencies of the port, and their sub-packages of a configured group; nothing else. When no package carries an alias, or only aliases that are names
of installed packages, all these packages of the dependencies are there. Partial: only for ports of the tree which no cycle is reached from, whose
dependencies are ports of the tree, not sub-packages. -/
theorem C63_environment_partial (C : CreEnv) (hm : C.noMeta = false) (T : Ports) (hT : FreshPorts T) (hl : loadPorts T = some C.tree)
    (arg : Str) (isColl : Bool) (s : Sys) (sess : RepoSess) (hw : WF s.disk) (w : Seen) (hs : w ∈ (cardsCreate C arg isColl s sess).1.seen)
    (hn : w.port ∈ keys T) (hc : CycleFree T w.port)
    (hd : ∀ x d, ReflTransGen (Declares T) w.port x → Declares T x d → d ∈ keys T ∧ '.' ∉ d) :
    (∀ n i, (n, i) ∈ w.disk → InBaseSet i ∨
      ∃ d a, PortDependsOn T w.port d ∧ OfferedFor C.E.pkgOf w.repo w.files d a ∧ GroupWanted C.E.groups a ∧ a.name = n) ∧
    ((∀ n i al, (n, i) ∈ s.disk → HasAlias i al → Installed s.disk al) →
      ∀ d a, PortDependsOn T w.port d → OfferedFor C.E.pkgOf w.repo w.files d a → GroupWanted C.E.groups a → Installed w.disk a.name) := by
  obtain ⟨_, _, h3⟩ := cardsCreate_any C hm arg isColl s sess hw
  obtain ⟨list, e1, e2, e3⟩ := h3 w hs
  obtain ⟨T', list', f1, f2, f3, _, _⟩ := depOrder_spec T hT w.port hn hc hd
  rw [hl] at f1
  obtain rfl := Option.some.inj f1
  rw [e1] at f2
  obtain rfl := Option.some.inj f2
  refine ⟨?_, ?_⟩
  · intro n i hi
    rcases e2 n i hi with h | ⟨d, hd, a, h⟩
    · exact Or.inl h
    · exact Or.inr ⟨d, a, (f3 d).mp hd, h⟩
  · intro ha d a hd ho hg
    exact e3 (noStray_load ha) d ((f3 d).mpr hd) a ho hg

/-- The dependencies are installed one port after another, each one once, and every one of them after the ports it depends on: while the packages of
`d` are being installed, those of the dependencies of `d` are there. -/
theorem C63_order_partial (C : CreEnv) (hm : C.noMeta = false) (T : Ports) (hT : FreshPorts T) (hl : loadPorts T = some C.tree)
    (name : Str) (hn : name ∈ keys T) (hc : CycleFree T name)
    (hd : ∀ x d, ReflTransGen (Declares T) name x → Declares T x d → d ∈ keys T ∧ '.' ∉ d) :
    ∃ list order, dependsList C.tree (C.tree.length + 1) name [] = some list ∧ order.Nodup ∧ (∀ d, d ∈ order ↔ PortDependsOn T name d) ∧
      (∀ repo s, installDeps C repo list name s = seqSteps (depPort C repo) order s) ∧
      ∀ repo s t before d after, order = before ++ d :: after → CreInv s.st → NoStray s.st → seqSteps (depPort C repo) before s = (t, none) →
        ∀ e a, Declares T d e → e ≠ d → e ≠ name → OfferedFor C.E.pkgOf repo s.sess.files e a → GroupWanted C.E.groups a → Installed t.st.disk a.name := by
  obtain ⟨T', list, f1, f2, f3, f4, f5⟩ := depOrder_spec T hT name hn hc hd
  rw [hl] at f1
  obtain rfl := Option.some.inj f1
  refine ⟨list, depOrder C.tree list name, f2, f4, f3, fun _ _ => rfl, ?_⟩
  intro repo s t before d after ho hs hns hrun e a hde hed hen hoff hgw
  have he : e ∈ before := by
    have hdm : PortDependsOn T name d := (f3 d).mp (by rw [ho]; simp)
    have hem : e ∈ before ++ d :: after := by
      rw [← ho]; exact (f3 e).mpr ⟨hdm.1.tail hde, hen⟩
    rcases List.mem_append.mp hem with h | h
    · exact h
    · rcases List.mem_cons.mp h with h | h
      · exact absurd h hed
      · rw [ho] at f5
        have := (List.pairwise_append.mp f5).2.1
        exact absurd ⟨hde, hed.symm⟩ ((List.pairwise_cons.mp this).1 e h)
  have hrun' : seqSteps (depFile C) (before.flatMap (pathsOfGroup repo)) s = (t, none) := by
    rw [← seqSteps_flatMap]; exact hrun
  obtain ⟨b1, b2, b3, b4, b5, b6⟩ := depFiles_ok C hm _ s t hs hrun'
  cases hx : s.st.nameExists a.name with
  | true => exact b4 _ (hns _ hx)
  | false => exact b6 a (readFrom_offered.mpr ⟨e, he, hoff⟩) hgw hx

theorem cTree_fresh : FreshPorts cTree := by
  constructor
  · unfold Sorted; decide
  · decide
  all_goals intro p hp; simp only [cTree, List.mem_cons, List.not_mem_nil, or_false] at hp; rcases hp with rfl | rfl | rfl <;> rfl

theorem cycleFree_of_rank {T : Ports} (rank : Str → Nat) (h : ∀ a b, Needs T a b → rank b < rank a) (n : Str) : CycleFree T n := by
  rintro ⟨c, _, hc⟩
  have : ∀ x, TransGen (Needs T) c x → rank x < rank c := by
    intro x hx
    induction hx with
    | single hn => exact h _ _ hn
    | tail _ hn ih => exact Nat.lt_trans (h _ _ hn) ih
  exact Nat.lt_irrefl _ (this c hc)

theorem names_plain {d b : Str} (hd : '.' ∉ d) (h : Names d b) : b = d := by
  rcases h with ⟨h, _⟩ | ⟨g, _, h⟩
  · exact h.symm
  · exact absurd (by rw [h]; simp) hd

theorem cTree_declares {a d : Str} (h : Declares cTree a d) : (a = "app".toList ∧ d = "libx".toList) ∨ (a = "libx".toList ∧ d = "gcc".toList) := by
  obtain ⟨p, hp, hd⟩ := h
  simp only [cTree, List.mem_cons, List.not_mem_nil, or_false, Prod.mk.injEq] at hp
  rcases hp with ⟨rfl, rfl⟩ | ⟨rfl, rfl⟩ | ⟨rfl, rfl⟩
  · simp only [mkPort, List.mem_singleton] at hd; exact Or.inl ⟨rfl, hd⟩
  · simp [mkPort] at hd
  · simp only [mkPort, List.mem_singleton] at hd; exact Or.inr ⟨rfl, hd⟩

theorem cTree_cycleFree (n : Str) : CycleFree cTree n := by
  refine cycleFree_of_rank (fun x => if x = "app".toList then 2 else if x = "libx".toList then 1 else 0) ?_ n
  rintro a b ⟨_, _, d, hd, hb⟩
  rcases cTree_declares hd with ⟨rfl, rfl⟩ | ⟨rfl, rfl⟩ <;> rw [names_plain (by decide) hb] <;> decide

theorem cTree_closed (n x d : Str) (_ : ReflTransGen (Declares cTree) n x) (h : Declares cTree x d) : d ∈ keys cTree ∧ '.' ∉ d := by
  rcases cTree_declares h with ⟨_, rfl⟩ | ⟨_, rfl⟩ <;> decide

/-- The hypotheses are met, and the conclusion is about packages that are there. -/
example : ∃ w ∈ (cardsCreate (cEnv cTree) "app".toList false cSys cSess).1.seen, w.port = "app".toList ∧
    keys w.disk = ["cards.devel".toList, "gcc".toList, "libx".toList, "libx.lib".toList] ∧
    Installed w.disk "libx.lib".toList := by
  have h : (cardsCreate (cEnv cTree) "app".toList false cSys cSess).1.seen.map (fun w => (w.port, keys w.disk)) =
      [("app".toList, ["cards.devel".toList, "gcc".toList, "libx".toList, "libx.lib".toList])] :=
    congrArg (fun x => x.2.2.2) cEnv_runs
  obtain ⟨w, hw, h2⟩ := List.mem_map.mp (by rw [h]; exact List.mem_singleton.mpr rfl : ("app".toList, ["cards.devel".toList, "gcc".toList, "libx".toList,
    "libx.lib".toList]) ∈ (cardsCreate (cEnv cTree) "app".toList false cSys cSess).1.seen.map (fun w => (w.port, keys w.disk)))
  obtain ⟨h3, h4⟩ := Prod.mk.inj h2
  refine ⟨w, hw, h3, h4, ?_⟩
  obtain ⟨q, hq, hq2⟩ := List.mem_map.mp (by rw [show w.disk.map (·.1) = keys w.disk from rfl, h4]; decide : "libx.lib".toList ∈ w.disk.map (·.1))
  exact ⟨q.2, by rw [← hq2]; exact hq⟩

example : WF cSys.disk ∧ "app".toList ∈ keys cTree ∧ loadPorts cTree = some (cEnv cTree).tree ∧ (cEnv cTree).noMeta = false ∧
    ∀ n i al, (n, i) ∈ cSys.disk → HasAlias i al → Installed cSys.disk al := by
  refine ⟨⟨by decide, ?_⟩, by decide, by decide +kernel, rfl, ?_⟩
  · intro p hp; simp only [cSys, List.mem_singleton] at hp; subst hp; decide
  · intro n i al hi ha
    simp only [cSys, List.mem_singleton, Prod.mk.injEq] at hi
    obtain ⟨rfl, rfl⟩ := hi
    revert ha; unfold HasAlias; simp

/-- The claim without the condition on aliases does not hold: the installed `old` carries the alias `libx`. It is removed, its alias is still taken for a
name that exists, and `libx`, a dependency of `app`, is not installed. -/
theorem C63_counterexample_alias :
    let s : Sys := { cSys with disk := [("old".toList, { md := ["Nold".toList, "Alibx".toList], files := ["usr/".toList, "usr/old".toList] })] }
    created (cardsCreate (cEnv cTree) "app".toList false s cSess) =
      (none, ["app".toList, "cards.devel".toList, "gcc".toList, "libx.lib".toList], ["app".toList],
        [("app".toList, ["cards.devel".toList, "gcc".toList, "libx.lib".toList])]) := by
  decide +kernel

/-- Nor does it for dependencies on sub-packages: `app` names `libx.man` among its dependencies, the package is listed and its file is there, but the group
is not configured and `pkgmk` does not find it. -/
theorem C63_counterexample_group :
    let T : Ports := [("app".toList, mkPort "base".toList "2".toList 1 1 ["libx.man".toList]), ("gcc".toList, mkPort "base".toList "1".toList 1 2 []),
      ("libx".toList, mkPort "base".toList "1".toList 1 3 [])]
    created (cardsCreate (cEnv T) "app".toList false cSys cSess) =
      (none, ["app".toList, "cards.devel".toList, "gcc".toList], ["app".toList], [("app".toList, ["cards.devel".toList, "gcc".toList])]) := by
  decide +kernel

/-- `gcc`, of the set `devel`, needs `libx` to run. -/
def cEnvRt : CreEnv :=
  let gcc : RepoPkg := { (cPkg "" ["devel"] "1" "gcc").2 with deps := [("libx".toList, 5)] }
  let net : Net := { cNet (mset "gcc".toList gcc cRepo) with
    opens := fun c => (cArchOf c).map (fun a => ⟨a.name, "1".toList, 1, 5, [], if c = "gcc".toList then [("libx".toList, 5)] else []⟩) }
  let T : Ports := [("gmp".toList, mkPort "base".toList "2".toList 1 1 [])]
  { cEnv T with E := { (cEnv T).E with net := net, groups := [] }, make := fun _ _ fs repo files => (fs, some (repo, files)) }

/-- Packages of the base sets are not kept with what they need: here the package `gcc` of the set `devel` needs `libx` to run. `cards create` installs both,
removes `libx` at once, since it is in no set, and builds `gmp` without it. -/
theorem C63_counterexample_runtime :
    outcome (core cEnvRt { st := load cSys false, sess := cSess, count := 0 }) =
      (none, [("cards.devel".toList, false), ("gcc".toList, false), ("libx".toList, true), ("old".toList, false)]) ∧
    created (cardsCreate cEnvRt "gmp".toList false cSys cSess) =
      (none, ["cards.devel".toList, "gcc".toList], ["gmp".toList], [("gmp".toList, ["cards.devel".toList, "gcc".toList])]) := by
  decide +kernel

/-! ## C64 -/

/-- However `cards create` ends, the database is well formed, and no file has got a second owner. -/
theorem C64_unique_owner (C : CreEnv) (hm : C.noMeta = false) (arg : Str) (isColl : Bool) (s : Sys) (sess : RepoSess) (hw : WF s.disk)
    (hu : UniqueOwner s.disk) :
    WF (cardsCreate C arg isColl s sess).1.inst.st.disk ∧ UniqueOwner (cardsCreate C arg isColl s sess).1.inst.st.disk := by
  obtain ⟨h1, h2, _⟩ := cardsCreate_any C hm arg isColl s sess hw
  exact ⟨h1, h2 hu⟩

/-- When `cards create` of a port succeeds, `pkgmk` was run once, in the directory of this port if it can be entered, and the packages the lists of binaries offer for it afterwards are recorded
with their META lines and the files the rules let them have. Partial: for package files that do not
share a name. -/
theorem C64_built_partial (C : CreEnv) (hm : C.noMeta = false) (name : Str) (s : Sys) (sess : RepoSess) (hw : WF s.disk) (r : CreSt) (ann : List Str)
    (rx : Matcher) (hrx : ∀ k, (C.E.env k).rx = rx) (h : cardsCreate C name false s sess = (r, none, ann))
    (hone : ∀ a b, OfferedFor C.E.pkgOf r.repo r.inst.sess.files name a → OfferedFor C.E.pkgOf r.repo r.inst.sess.files name b → a.name = b.name → a = b) :
    (∃ w fs, r.seen = [w] ∧ w.port = name ∧ (C.portDir name = true → w.dir = name) ∧
      C.make 0 w.dir w.fs w.repo w.files = (fs, some (r.repo, r.inst.sess.files))) ∧
    (∀ a, OfferedFor C.E.pkgOf r.repo r.inst.sess.files name a → Recorded r.inst.st.disk a (Ships rx C.E.rules a)) := by
  unfold cardsCreate at h
  simp only at h
  generalize hc : (if C.dry then (({ st := load s false, sess := sess, count := 0 } : InstSt), none) else
    core C { st := load s false, sess := sess, count := 0 }) = c at h
  obtain ⟨c, e⟩ := c
  cases e with
  | some e => simp at h
  | none =>
    simp only [Bool.false_eq_true, if_false, Prod.mk.injEq] at h
    obtain ⟨h1, h2, _⟩ := h
    have hinv : CreInv c.st := by
      by_cases hdry : C.dry = true
      · rw [if_pos hdry] at hc
        obtain ⟨rfl, _⟩ := Prod.mk.inj hc
        exact creInv_load hw
      · rw [if_neg hdry] at hc
        exact (core_ok C hm _ c (creInv_load hw : CreInv (load s false)) hc).1
    have hb : buildBinary C name { inst := c, repo := C.E.net.repo, seen := [] } = (r, none) := by rw [← h1, ← h2]
    obtain ⟨_, _, _, ⟨w, fs, w1, w2, _, wd, w3, w4, w5⟩, b5⟩ := buildBinary_ok C hm name _ r hinv hb
    refine ⟨⟨w, fs, w1, w2, wd, ?_⟩, ?_⟩
    · rw [w3, w4]; exact w5
    · intro a ha
      obtain ⟨a', i, h3, h4, h5, h6, k, h7⟩ := b5 a ha
      obtain rfl := hone a' a h3 ha h4
      refine ⟨i, h5, h6, fun f => ?_⟩
      rw [h7]; unfold shipped; rw [hrx, mem_shipped]

/-- The sample, and what is recorded at its end. -/
example : let r := (cardsCreate (cEnv cTree) "app".toList false cSys cSess).1
    (cardsCreate (cEnv cTree) "app".toList false cSys cSess).2.1 = none ∧
    mget r.inst.st.disk "app".toList = some { md := ["Napp".toList, "V2".toList], files := ["usr/".toList, "usr/app2".toList] } ∧
    (pathsOfGroup r.repo "app".toList).map (fun p => (mget r.inst.sess.files p).bind cArchOf |>.map (·.name)) = [some "app".toList] := by
  decide +kernel

/-- The directory of the port is not found, since the command was started in the directory of `app`: `pkgmk` builds `app` there, `cards create libx` succeeds
and installs the binary of `libx` that was there before. -/
theorem C64_counterexample_directory :
    let r := cardsCreate { cEnv cTree with portDir := fun _ => false } "libx".toList false cSys cSess
    r.2.1 = none ∧ r.1.seen.map (fun w => (w.port, w.dir)) = [("libx".toList, "app".toList)] ∧
    mget r.1.inst.sess.files "/r/app".toList = some "app-2".toList ∧ mget r.1.inst.sess.files "/r/libx".toList = mget cFiles "/r/libx".toList ∧
    "libx".toList ∈ keys r.1.inst.st.disk := by
  decide +kernel

/-- Files no package owns are left when a package the command itself installed is built anew: `gcc`, of the set `devel`, is installed by the command, then
built. The new package is not taken for an upgrade, because the list of names is the one read at the start: `usr/gcc`, of the old version, stays. -/
theorem C64_counterexample_stale :
    let r := cardsCreate (cEnv cTree) "gcc".toList false cSys cSess
    r.2.1 = none ∧ mget r.1.inst.st.disk "gcc".toList = some { md := ["Ngcc".toList, "sdevel".toList], files := ["usr/".toList, "usr/gcc2".toList] } ∧
    r.1.inst.st.fs.get (comps "usr/gcc".toList) = some (.file "usr/gcc".toList 0o644) ∧
    (∀ p ∈ r.1.inst.st.disk, "usr/gcc".toList ∉ p.2.files) := by
  decide +kernel

end Cards.Props
