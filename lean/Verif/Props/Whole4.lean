import Verif.Props.RemoveCmd
import Verif.Props.Resolve
import Verif.Props.Firmware
import Verif.Props.Mybld
import Verif.Props.PkgmkDeps
import Verif.Props.PkgmkRun
import Verif.Props.Links
import Verif.Props.ScriptArgs
/-!
# C213–C219: more statements that hold as a whole
-/
namespace Cards.Props
open Cards Cards.Spec Relation

/-- **C213.** `cards remove` ends on every dependency graph.  With no group but `lib` configured, and the uninitialised flag read as false, what is installed after a success is exactly what was not
asked for and is needed by a package installed by hand. -/
theorem C213_remove (env : RmEnv) (args : List Str) (s : Sys) :
    ∃ s' e, cardsRemove env args s = some (s', e) ∧
      (e = none → WF s.disk → DepLinesOk s.disk → (∀ n, env.junk n = false) → (∀ g ∈ env.groups, g = "lib".toList) →
        ∀ n, Installed s'.disk n ↔ Installed (without s.disk (requested env args s)) n ∧ Needed (without s.disk (requested env args s)) n) := by
  cases h : cardsRemove env args s with
  | none => exact absurd h (C16_terminates env args s)
  | some p =>
    obtain ⟨s', e⟩ := p
    refine ⟨s', e, rfl, ?_⟩
    rintro rfl hw hd hj hg n
    exact C16_purge_exact_no_groups env args s s' hw hd hj hg h n

example : WF rSys.disk ∧ DepLinesOk rSys.disk ∧ (∀ n, (rEnv []).junk n = false) ∧ (∀ g ∈ (rEnv []).groups, g = "lib".toList) ∧
    ∃ s', cardsRemove (rEnv []) ["old".toList] rSys = some (s', none) :=
  ⟨rSys_wf, by unfold DepLinesOk; decide, fun _ => rfl, by simp [rEnv], _, rfl⟩

/-- **C214.** In a repository in order: resolution ends normally exactly when every needed package is in the repository and none needs itself; then the packages added are exactly those needed, each
once, and what a package asks for stands before it. -/
theorem C214_resolution {net : Net} {A : Str → ArchMeta} (files : List (Str × Str)) (ho : InOrder net files A) (root : Str) (r : RepoSess) (hr : SessOk net A r)
    (hf : r.files = files) (hl : Ordered net A r.list) :
    ((∀ m, NeededFor net A root m → m ∈ keys net.repo) ∧ ¬ Cyclic net A root ↔ ∃ fuel, ∀ k, ∃ r', generateDeps net (fuel + k) root r = .ok r') ∧
    ∀ fuel r', generateDeps net fuel root r = .ok r' → Ordered net A r'.list ∧ (∃ new, r'.list = r.list ++ new) ∧
      ∀ m, m ∈ r'.list.map (·.1) ↔ m ∈ r.list.map (·.1) ∨ NeededFor net A root m := by
  refine ⟨⟨?_, ?_⟩, ?_⟩
  · rintro ⟨h1, h2⟩
    exact (C22_terminates_iff files ho root r hr hf h1).mpr h2
  · rintro ⟨fuel, h⟩
    obtain ⟨r', h0⟩ := h 0
    have h1 := C22_missing files ho _ root r r' hr hf h0
    exact ⟨h1, (C22_terminates_iff files ho root r hr hf h1).mp ⟨fuel, h⟩⟩
  · intro fuel r' h
    obtain ⟨_, _, h3, h4, h5⟩ := C22_resolved_partial files ho fuel root r r' hr hf hl h
    exact ⟨h3, h4, h5⟩

example : SessOk (xNet xDeps xDeps) (rArch xDeps) (xSess xDeps) ∧ Ordered (xNet xDeps xDeps) (rArch xDeps) (xSess xDeps).list :=
  ⟨by intro n hn; simp [xSess] at hn, by simp [Ordered, xSess]⟩

/-- **C215.** When the licences of the firmware are distributed, every line of WHENCE goes to exactly one of the files or is left over, as often as it was there. -/
theorem C215_conserved (ns ls : List Str) (x : Str) : ls.count x = ((fwLoop ns ls).1.map (fun p => p.2.count x)).sum + (fwLoop ns ls).2.count x :=
  C186_conserved ns ls x

example : ((fwLoop ["iwl".toList, "rtl".toList] ("# firmware".toList :: (xFwA.lines ++ xFwC.lines))).1.map (fun p => p.2.length)).sum > 0 := by decide

/-- **C216.** `mybld -v` and `mybld -i` leave all lines of the Pkgfile in which neither `version=` nor `release=` occurs, in their order, and add none of these. -/
theorem C216_other_lines (v new : Str) (release : Nat) (lines : List Str) :
    (mybldVersion v new lines).filter (fun l => decide (Aside l)) = lines.filter (fun l => decide (Aside l)) ∧
    (mybldIncrement release lines).filter (fun l => decide (Aside l)) = lines.filter (fun l => decide (Aside l)) :=
  C118_rest v new release lines

example : (mbPort.filter (fun l => decide (Aside l))).length = 6 := by decide +kernel

/-- **C217.** The packages installed for a build come behind those that were there: all that was installed stays installed, with its version, during the build. -/
theorem C217_kept (holds : Str → Option (Str × Nat)) (db : OnMachine) (files : Str → List (Str × Str)) (colls depends : List Str) :
    (∃ new, whileBuilding holds db files colls depends = db ++ new) ∧ ∀ p ∈ db, p ∈ whileBuilding holds db files colls depends := by
  obtain ⟨new, h⟩ := C187_kept holds db files colls depends
  exact ⟨⟨new, h.symm⟩, fun p hp => h ▸ List.mem_append_left _ hp⟩

example : whileBuilding c187Holds [("make".toList, 8)] c187Files ["base".toList] ["gcc".toList, "make".toList] = [("make".toList, 8), ("gcc".toList, 7), ("gcc.devel".toList, 7)] := by decide +kernel

/-- **C218.** On a tree with symbolic links, removing a package creates and changes nothing; and what goes was, before, at the place one of its recorded names led to, a name no other package records. -/
theorem C218_remove_links (root : List Str) (name : Str) (s : LSys) (k : List Str) :
    (∀ v, (linkRm root name s).fs.get k = some v → s.fs.get k = some v) ∧
    (∀ v, s.fs.get k = some v → (linkRm root name s).fs.get k = some v ∨
      ∃ p ∈ s.db, p.1 = name ∧ ∃ f ∈ p.2, (∀ p' ∈ s.db, p'.1 ≠ name → f ∉ p'.2) ∧ s.fs.place (root ++ comps f) = some k ∧ (v ≠ .dir → endsSlash f = false)) :=
  C207_only_own root name s k

example : (linkRm [] "q".toList lkSys).fs.get ["lib".toList] = lkSys.fs.get ["lib".toList] := by decide +kernel

/-- **C219.** When the words given to the script of the outdated ports are accepted, exactly the options given are set and the other words are the collections in their order. -/
theorem C219_options (ws : List Str) (o r : OutOpts) (h : outParse o ws = .inr r) :
    (r.update = true ↔ o.update = true ∨ "-u".toList ∈ ws ∨ "--update".toList ∈ ws) ∧
    (r.summary = true ↔ o.summary = true ∨ "-s".toList ∈ ws ∨ "--summary".toList ∈ ws) ∧
    (r.notfound = true ↔ o.notfound = true ∨ "-nf".toList ∈ ws ∨ "--notfound".toList ∈ ws) ∧
    (r.debug = true ↔ o.debug = true ∨ "--debug".toList ∈ ws) ∧
    r.params = o.params ++ ws.filter (fun w => w.head? ≠ some '-') :=
  C194_options ws o r h

example : outParse {} ["-s".toList, "gui".toList, "base".toList] = .inr { summary := true, params := ["gui".toList, "base".toList] } := by decide +kernel

end Cards.Props
