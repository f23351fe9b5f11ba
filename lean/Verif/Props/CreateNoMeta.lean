import Verif.Props.CreateColl
/-!
# C67: cards create --no-meta
-/
namespace Cards.Props
open Cards Cards.Spec

/-- Every record on disk was there before, and they are in the same order. -/
def Fewer (t s : St) : Prop := List.Sublist t.disk s.disk

theorem removeRecord_fewer (st : St) (n : Str) : Fewer (removeRecord st n).1 st := by
  unfold Fewer
  simp only [removeRecord]
  cases mget st.disk n with
  | none => exact List.Sublist.refl _
  | some v => exact List.filter_sublist

theorem createInstall_fewer (env : Env) (st : St) (a : Archive) (files keep nonInst : List Str) :
    Fewer (createInstall env true st a files keep nonInst).1 st := by
  unfold Fewer
  simp [createInstall]

theorem createUpgrade_fewer (env : Env) (rules : List Rule) (st : St) (name : Str) (files : List Str) :
    Fewer (createUpgrade env rules st name files).1 st := by
  have key : ∃ st1 : St, st1.disk = st.disk ∧ createUpgrade env rules st name files =
      (if !env.lockUpgrade then (st1, [], some .locked) else
        match removeRecord st1 name with
        | (st, some e) => (st, keepFileList env.rx files rules, some e)
        | (st, none) => (removeFiles st name (keepFileList env.rx files rules), keepFileList env.rx files rules, none)) := by
    refine ⟨_, ?_, rfl⟩
    split
    · split <;> rfl
    · rfl
  obtain ⟨st1, hd, h⟩ := key
  rw [h]
  unfold Fewer
  split
  · rw [← hd]
  · have h2 := removeRecord_fewer st1 name
    cases hr : removeRecord st1 name with
    | mk st2 e =>
      rw [hr] at h2
      cases e with
      | some e => rw [← hd]; exact h2
      | none => rw [← hd]; exact h2

theorem createRun_fewer (env : Env) (rules : List Rule) (up : Bool) (a : Archive) (st : St) : Fewer (createRun env rules true up a st).1 st := by
  unfold createRun
  split
  · exact List.Sublist.refl _
  · simp only
    split
    · exact List.Sublist.refl _
    · split
      · exact List.Sublist.refl _
      · split
        · have hu : Fewer (createUpgrade env rules { st with fs := (a.pre st.fs).1 } a.name (applyInstallRules env.rx a.files rules).1).1 st :=
            createUpgrade_fewer env rules _ a.name _
          cases hc : createUpgrade env rules { st with fs := (a.pre st.fs).1 } a.name (applyInstallRules env.rx a.files rules).1 with
          | mk st1 v =>
            obtain ⟨keep, e⟩ := v
            rw [hc] at hu
            cases e with
            | some e => exact hu
            | none => exact List.Sublist.trans (createInstall_fewer _ _ _ _ _ _) hu
        · exact createInstall_fewer env { st with fs := (a.pre st.fs).1 } a _ _ _

theorem seqSteps_fewer {α : Type} {f : α → InstSt → InstSt × Option InstErr} (hf : ∀ x s, Fewer (f x s).1.st s.st) (xs : List α) (s : InstSt) :
    Fewer (seqSteps f xs s).1.st s.st :=
  (seqSteps_inv (fun t => Fewer t.st s.st) (fun t => Fewer t.st s.st) xs
    (fun x _ t ht => ⟨List.Sublist.trans (hf x t) ht, fun _ => List.Sublist.trans (hf x t) ht⟩) s (List.Sublist.refl _) (List.Sublist.refl _)).1

theorem createFile_fewer (C : CreEnv) (hm : C.noMeta = true) (up dep : Bool) (a : Archive) (s : InstSt) : Fewer (createFile C up dep a s).1.st s.st := by
  simp only [createFile, hm]
  have h := createRun_fewer (C.E.env s.count) C.E.rules up a { s.st with dep := s.st.dep || dep }
  exact h

theorem createIfNew_fewer (C : CreEnv) (hm : C.noMeta = true) (dep : Bool) (a : Archive) (s : InstSt) : Fewer (createIfNew C dep a s).1.st s.st := by
  unfold createIfNew
  split
  · exact List.Sublist.refl _
  · exact createFile_fewer C hm _ _ _ _

theorem core_fewer (C : CreEnv) (hm : C.noMeta = true) (s : InstSt) : Fewer (core C s).1.st s.st := by
  rcases core_split C s with h | ⟨t, ht, h⟩
  · rw [h]; exact List.Sublist.refl _
  · rw [h, ← ht]
    refine seqSteps_fewer ?_ _ t
    intro x u
    unfold coreListed
    split
    · exact List.Sublist.refl _
    · exact createIfNew_fewer C hm _ _ _

theorem base_same (C : CreEnv) (hm : C.noMeta = true) (k : Nat) (s : InstSt) : (base C k s).1.st.disk = s.st.disk ∧ (base C k s).2 = none := by
  unfold base
  rw [hm]
  simp only [Bool.not_true, Bool.false_and, Bool.false_eq_true, if_false]
  generalize doomed s.st.mem = ns
  induction ns generalizing s with
  | nil => exact ⟨rfl, rfl⟩
  | cons n ns ih =>
    simp only [seqSteps, baseStep, if_true]
    exact ih _

theorem buildBinary_fewer (C : CreEnv) (hm : C.noMeta = true) (name : Str) (s : CreSt) : Fewer (buildBinary C name s).1.inst.st s.inst.st := by
  have hp : Fewer (prepare C name s).1.inst.st s.inst.st := by
    have hb := (base_same C hm s.seen.length s.inst).1
    unfold prepare
    cases h : base C s.seen.length s.inst with
    | mk i e =>
      rw [h] at hb
      simp only at hb
      cases e with
      | some e => unfold Fewer; simp only; rw [hb]
      | none =>
        simp only
        cases dependsList C.tree (C.tree.length + 1) name [] with
        | none => unfold Fewer; simp only; rw [hb]
        | some list =>
          unfold Fewer
          rw [← hb]
          simp only [installDeps_eq]
          refine seqSteps_fewer ?_ _ i
          intro x u
          unfold depFile
          split
          · exact List.Sublist.refl _
          · exact seqSteps_fewer (fun _ v => createIfNew_fewer C hm _ _ v) _ u
  unfold buildBinary
  cases h : prepare C name s with
  | mk t e =>
    rw [h] at hp
    cases e with
    | some e => exact hp
    | none =>
      simp only [makeAndInstall]
      generalize (if C.portDir name = true then name else C.cwd t.seen.length) = dir
      · generalize C.make t.seen.length dir t.inst.st.fs t.repo t.inst.sess.files = mk
        obtain ⟨fs, res⟩ := mk
        cases res with
        | none => exact hp
        | some rf =>
          refine List.Sublist.trans ?_ hp
          have := seqSteps_fewer (f := builtFile C) (by
            intro x u
            unfold builtFile
            split
            · exact List.Sublist.refl _
            · exact createFile_fewer C hm _ _ _ _)
          exact this _ _

theorem buildPorts_fewer (C : CreEnv) (hm : C.noMeta = true) (is : List Str) (s : CreSt) : Fewer (buildPorts C is s).1.inst.st s.inst.st := by
  induction is generalizing s with
  | nil => exact List.Sublist.refl _
  | cons i is ih =>
    simp only [buildPorts]
    split
    · split
      · exact ih s
      · have hb := buildBinary_fewer C hm i s
        cases h : buildBinary C i s with
        | mk t e =>
          rw [h] at hb
          cases e with
          | some e => exact hb
          | none => exact List.Sublist.trans (ih t) hb
    · exact ih s

theorem create_fewer (C : CreEnv) (hm : C.noMeta = true) (arg : Str) (isColl : Bool) (s : Sys) (sess : RepoSess) :
    List.Sublist (cardsCreate C arg isColl s sess).1.inst.st.disk s.disk := by
  have hc : ∀ s0 : InstSt, Fewer (if C.dry then (s0, none) else core C s0).1.st s0.st := by
    intro s0
    split
    · exact List.Sublist.refl _
    · exact core_fewer C hm s0
  unfold cardsCreate
  have h0 := hc { st := load s false, sess := sess, count := 0 }
  simp only
  generalize (if C.dry then (({ st := load s false, sess := sess, count := 0 } : InstSt), none) else
    core C { st := load s false, sess := sess, count := 0 }) = c at h0
  obtain ⟨i, e⟩ := c
  cases e with
  | some e => exact h0
  | none =>
    simp only
    cases isColl with
    | false =>
      simp only [Bool.false_eq_true, if_false]
      exact List.Sublist.trans (buildBinary_fewer C hm arg _) h0
    | true =>
      simp only [if_true]
      unfold buildCollection
      have hd : (checkBinaries C arg { inst := i, repo := C.E.net.repo, seen := [] }).inst.st = i.st := by
        unfold checkBinaries; split <;> rfl
      cases portsOfCollection C.tree arg [] with
      | none => simp only; rw [hd]; exact h0
      | some ports =>
        have := buildPorts_fewer C hm ports (checkBinaries C arg { inst := i, repo := C.E.net.repo, seen := [] })
        unfold Fewer at this
        rw [hd] at this
        exact List.Sublist.trans this h0

/-- With `--no-meta`, `cards create` records nothing: every record there is at the end was there, with the same content, at the beginning. -/
theorem C67_records_nothing (C : CreEnv) (hm : C.noMeta = true) (arg : Str) (isColl : Bool) (s : Sys) (sess : RepoSess) :
    ∀ p ∈ (cardsCreate C arg isColl s sess).1.inst.st.disk, p ∈ s.disk :=
  fun _ hp => (create_fewer C hm arg isColl s sess).subset hp

/-- With `--no-meta`, the `.POST` script of a package plays no part: whatever it does, the outcome is the same. -/
theorem C67_no_post (env : Env) (rules : List Rule) (up : Bool) (a : Archive) (script : Fs → Fs) (st : St) :
    createRun env rules true up { a with post := script } st = createRun env rules true up a st := by
  have hi : ∀ (st : St) (files keep nonInst : List Str), createInstall env true st { a with post := script } files keep nonInst =
      createInstall env true st a files keep nonInst := by
    intro st files keep nonInst
    unfold createInstall
    rfl
  unfold createRun
  simp only [hi]
  rfl

/-- Without `--no-meta` it does: the outcome is what the script makes of the file tree. -/
example : ((createRun xEnv [] false false { xArch "vim" ["usr/", "usr/vim"] with post := fun _ => [] } (load xSys false)).1.fs = []) ∧
    ((createRun xEnv [] true false { xArch "vim" ["usr/", "usr/vim"] with post := fun _ => [] } (load xSys false)).1.fs ≠ []) := by
  decide +kernel

/-- The claim that the records say what is there fails with `--no-meta`: the files of the packages in no base set are removed, their records stay. -/
theorem C67_counterexample_records :
    let r := cardsCreate { cEnv cTree with noMeta := true } "app".toList false cSys cSess
    r.2.1 = none ∧ mget r.1.inst.st.disk "old".toList = mget cSys.disk "old".toList ∧ (mget cSys.disk "old".toList).isSome ∧
    r.1.inst.st.fs.get (comps "usr/old".toList) = none := by
  decide +kernel

/-- And the record of an installed package of a base set that is built anew is lost, though the new files are there. -/
theorem C67_counterexample_lost :
    let s : Sys := { cSys with disk := [("gcc".toList, { md := ["Ngcc".toList, "sdevel".toList], files := ["usr/".toList, "usr/gcc".toList] })] }
    let r := cardsCreate { cEnv cTree with noMeta := true } "gcc".toList false s cSess
    r.2.1 = none ∧ r.1.inst.st.disk = [] ∧ r.1.inst.st.fs.get (comps "usr/gcc2".toList) = some (.file "usr/gcc2".toList 0o644) := by
  decide +kernel

end Cards.Props
