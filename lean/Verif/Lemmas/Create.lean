import Verif.Spec.Create
import Verif.Lemmas.UpgCmd
import Mathlib.Tactic.Common
/-!
# Lemmas about cards create
-/
namespace Cards
open Cards.Spec

theorem mset_mset {α : Type} (x : Str) (v w : α) (m : List (Str × α)) : mset x v (mset x w m) = mset x v m := by
  induction m with
  | nil => simp [mset]
  | cons p m ih =>
    obtain ⟨k, u⟩ := p
    simp only [mset]
    by_cases h1 : x < k
    · simp only [if_pos h1, mset, if_neg (str_lt_irrefl x), if_true]
    · by_cases h2 : x = k
      · subst h2; simp only [if_neg h1, if_true, mset]
      · simp only [if_neg h1, if_neg h2, mset, ih]

theorem seraseAll_nil_right (l : List Str) : seraseAll l [] = [] := by
  apply List.eq_nil_iff_forall_not_mem.mpr
  intro x hx
  exact absurd (mem_seraseAll.mp hx).1 (by simp)

theorem toDelete_absent {mem : Db} {n : Str} (h : mget mem n = none) (keep : List Str) : toDelete mem n keep = [] := by
  unfold toDelete
  rw [h]
  simp only [seraseAll_nil_right]
  generalize merase n mem = m
  induction m with
  | nil => rfl
  | cons p m ih => simp only [List.foldl_cons, seraseAll_nil_right, ih]

/-- The options under which `pkgadd::run` does what `create::run` does. -/
def createOpts (upgrade : Bool) : Opts := { upgrade := upgrade, force := false, runPrePost := true, asDep := false }

theorem openPackage_precheck (a : Archive) (st : St) : precheck (createOpts (st.nameExists a.name)) a st = openPackage a := by
  unfold precheck openPackage createOpts
  cases st.nameExists a.name <;> simp

theorem createInstall_eq (env : Env) (st st' : St) (a : Archive) (files keep nonInst : List Str) (u : Bool)
    (h : st' = st ∨ st' = { st with mem := mset a.name { md := [], files := [] } st.mem }) :
    let r := createInstall env false st a files keep nonInst
    let r' := installPhase env (createOpts u) st' a files keep nonInst
    r.2 = r'.2 ∧ r.1.disk = r'.1.disk ∧ r.1.fs = r'.1.fs ∧ (r.2 = none → r.1 = r'.1) := by
  unfold createInstall installPhase
  simp only [Bool.not_false, Bool.true_and]
  cases env.lockInstall with
  | false =>
    rcases h with rfl | rfl <;> simp
  | true =>
    simp only [Bool.not_true, Bool.false_eq_true, if_false, createOpts, if_true, true_and, forall_const]
    rcases h with rfl | rfl
    · exact ⟨rfl, rfl, rfl⟩
    · refine ⟨rfl, rfl, ?_⟩
      simp only [addRefs, moveMeta, mset_mset]

/-- Both upgrade blocks work on the same state. -/
theorem upgrade_blocks (env : Env) (rules : List Rule) (t : St) (name : Str) (files : List Str) :
    ∃ t2 : St, (t2.mem = t.mem ∧ t2.disk = t.disk ∧ t2.fs = t.fs) ∧
    createUpgrade env rules t name files = (if !env.lockUpgrade then (t2, [], some .locked) else
      match removeRecord t2 name with
      | (st, some e) => (st, keepFileList env.rx files rules, some e)
      | (st, none) => (removeFiles st name (keepFileList env.rx files rules), keepFileList env.rx files rules, none)) ∧
    upgradePhase env rules t name files = (if !env.lockUpgrade then (t2, [], some .locked) else
      ((removeRecord (removeFiles t2 name (keepFileList env.rx files rules)) name).1, keepFileList env.rx files rules,
        (removeRecord (removeFiles t2 name (keepFileList env.rx files rules)) name).2)) := by
  refine ⟨_, ?_, rfl, rfl⟩
  split
  · split <;> exact ⟨rfl, rfl, rfl⟩
  · exact ⟨rfl, rfl, rfl⟩

/-- `create::run` without `--no-meta` does what `pkgadd::run` does without force. -/
theorem createRun_eq (env : Env) (rules : List Rule) (a : Archive) (st : St) (hs : Sane st) :
    let r := createRun env rules false (st.nameExists a.name) a st
    let r' := runAdd env rules (createOpts (st.nameExists a.name)) a st
    r.2 = r'.2 ∧ r.1.disk = r'.1.disk ∧ r.1.fs = r'.1.fs ∧ (r.2 = none → r.1 = r'.1) := by
  unfold createRun runAdd
  rw [openPackage_precheck]
  cases ho : openPackage a with
  | some e => simp
  | none =>
    have hpre : preRun (createOpts (st.nameExists a.name)) a st.fs = a.pre st.fs := by simp [preRun, createOpts]
    simp only [hpre]
    cases hp : (a.pre st.fs).2 with
    | false => simp
    | true =>
      simp only [Bool.not_true, Bool.false_eq_true, if_false]
      have hforce : (createOpts (st.nameExists a.name)).force = false := rfl
      simp only [hforce, Bool.not_false, Bool.and_true]
      by_cases hc : (conflicts { st with fs := (a.pre st.fs).1 } a.name (applyInstallRules env.rx a.files rules).1).isEmpty = true
      · simp only [hc, Bool.not_true, Bool.false_and, Bool.false_eq_true, if_false]
        have hfp : forcePhase env rules (createOpts (st.nameExists a.name)) { st with fs := (a.pre st.fs).1 }
            (conflicts { st with fs := (a.pre st.fs).1 } a.name (applyInstallRules env.rx a.files rules).1) = { st with fs := (a.pre st.fs).1 } := by
          unfold forcePhase; rw [if_pos hc]
        rw [hfp]
        have hs' : Sane { st with fs := (a.pre st.fs).1 } := ⟨hs.mem, hs.disk, hs.agree⟩
        have hu : (createOpts (st.nameExists a.name)).upgrade = st.nameExists a.name := rfl
        unfold commit
        rw [hu]
        generalize hst : ({ st with fs := (a.pre st.fs).1 } : St) = t at hs' ⊢
        generalize (applyInstallRules env.rx a.files rules).2 = ni
        generalize (applyInstallRules env.rx a.files rules).1 = fl
        cases hx : st.nameExists a.name with
        | false =>
          simp only [Bool.false_eq_true, if_false]
          exact createInstall_eq env t t a fl [] ni _ (Or.inl rfl)
        | true =>
          simp only [if_true]
          obtain ⟨t2, hmem, e1, e2⟩ := upgrade_blocks env rules t a.name fl
          rw [e1, e2]
          cases env.lockUpgrade with
          | false => simp
          | true =>
            simp only [Bool.not_true, Bool.false_eq_true, if_false]
            unfold removeRecord
            have hag := hs'.agree a.name
            have hd2 : mget t2.disk a.name = mget t.disk a.name := by rw [hmem.2.1]
            have hm2 : mget t2.mem a.name = mget t.mem a.name := by rw [hmem.1]
            cases hd : mget t.disk a.name with
            | none =>
              have hm : mget t.mem a.name = none := by
                cases h : mget t.mem a.name with
                | none => rfl
                | some i => rw [hd, h] at hag; simp at hag
              have : (removeFiles t2 a.name (keepFileList env.rx fl rules)).disk = t2.disk := rfl
              simp only [this, hd2, hd, hm2, hm]
              refine ⟨trivial, trivial, ?_, by simp⟩
              show t2.fs = t2.fs.removeRev _
              rw [toDelete_absent (hm2.trans hm)]
              rfl
            | some i =>
              obtain ⟨j, hm⟩ : ∃ j, mget t.mem a.name = some j := by
                cases h : mget t.mem a.name with
                | some j => exact ⟨j, rfl⟩
                | none => rw [hd, h] at hag; simp at hag
              have h1 : (removeFiles t2 a.name (keepFileList env.rx fl rules)).disk = t2.disk := rfl
              have h2 : mget (removeFiles t2 a.name (keepFileList env.rx fl rules)).mem a.name = none := by
                show mget (merase a.name t2.mem) a.name = none
                rw [mget_merase]; simp
              simp only [h1, hd2, hd, hm2, hm, h2]
              exact createInstall_eq env _ _ a fl _ ni true (Or.inr rfl)
      · have hc' : (conflicts { st with fs := (a.pre st.fs).1 } a.name (applyInstallRules env.rx a.files rules).1).isEmpty = false := by
          simpa using hc
        simp [hc']


/-! ### Sequences of steps -/

theorem seqSteps_inv {α : Type} {f : α → InstSt → InstSt × Option InstErr} (P Q : InstSt → Prop) (xs : List α)
    (hf : ∀ x ∈ xs, ∀ s, P s → Q (f x s).1 ∧ ((f x s).2 = none → P (f x s).1)) (s : InstSt) (hP : P s) (hQ : Q s) :
    Q (seqSteps f xs s).1 ∧ ((seqSteps f xs s).2 = none → P (seqSteps f xs s).1) := by
  induction xs generalizing s with
  | nil => exact ⟨hQ, fun _ => hP⟩
  | cons x xs ih =>
    have h := hf x (by simp) s hP
    simp only [seqSteps]
    cases hr : f x s with
    | mk s1 e =>
      rw [hr] at h
      cases e with
      | some e => exact ⟨h.1, by simp⟩
      | none => exact ih (fun y hy => hf y (by simp [hy])) s1 (h.2 rfl) h.1

theorem seqSteps_flatMap {α β : Type} (f : β → InstSt → InstSt × Option InstErr) (g : α → List β) (xs : List α) (s : InstSt) :
    seqSteps (fun x => seqSteps f (g x)) xs s = seqSteps f (xs.flatMap g) s := by
  have happ : ∀ (l l' : List β) (s : InstSt), seqSteps f (l ++ l') s =
      (match seqSteps f l s with | (s, some e) => (s, some e) | (s, none) => seqSteps f l' s) := by
    intro l l'
    induction l with
    | nil => intro s; rfl
    | cons y l ih =>
      intro s
      simp only [List.cons_append, seqSteps]
      cases hr : f y s with
      | mk s1 e => cases e with
        | some e => rfl
        | none => exact ih s1
  induction xs generalizing s with
  | nil => rfl
  | cons x xs ih =>
    rw [List.flatMap_cons, happ]
    simp only [seqSteps]
    cases hr : seqSteps f (g x) s with
    | mk s1 e => cases e with
      | some e => rfl
      | none => exact ih s1

/-! ### One package -/

/-- What holds of a `cards create` process between two packages. -/
structure CreInv (st : St) : Prop where
  sane : Sane st
  /-- the records in memory and on disk have the same META lines, apart from the mark of automatically installed packages -/
  md : ∀ n i j, mget st.mem n = some i → mget st.disk n = some j → ∀ l, l ≠ d1 → (l ∈ i.md ↔ l ∈ j.md)

theorem creInv_load {s : Sys} {d : Bool} (h : WF s.disk) : CreInv (load s d) := by
  refine ⟨sane_load h, ?_⟩
  intro n i j hi hj l _
  rw [show (load s d).mem = s.disk from rfl] at hi
  rw [show (load s d).disk = s.disk from rfl, hi] at hj
  rw [Option.some.inj hj]

theorem mem_newMd_ne {dep : Bool} {a : Archive} {l : Str} (h : l ≠ d1) : l ∈ newMd dep a ↔ l ∈ a.md := by
  unfold newMd
  rw [mem_sofList]
  cases dep <;> simp [h]

theorem createFile_spec (C : CreEnv) (hm : C.noMeta = false) (dep : Bool) (a : Archive) (s : InstSt) (hs : CreInv s.st) :
    let r := createFile C (s.st.nameExists a.name) dep a s
    r.1.sess = s.sess ∧ WF r.1.st.disk ∧ (UniqueOwner s.st.disk → UniqueOwner r.1.st.disk) ∧
    (r.2 = none → CreInv r.1.st ∧ (∀ n, n ≠ a.name → mget r.1.st.disk n = mget s.st.disk n) ∧
      (∃ i, mget r.1.st.disk a.name = some i ∧ (∀ l, l ≠ d1 → (l ∈ i.md ↔ l ∈ a.md)) ∧ i.files = shipped (C.E.env s.count) C.E.rules a) ∧
      (∀ n, r.1.st.nameExists n = if n = a.name then false else s.st.nameExists n)) := by
  simp only [createFile, hm]
  have hs' : Sane { s.st with dep := s.st.dep || dep } := ⟨hs.sane.mem, hs.sane.disk, hs.sane.agree⟩
  obtain ⟨e1, e2, e3, e4⟩ := createRun_eq (C.E.env s.count) C.E.rules a { s.st with dep := s.st.dep || dep } hs'
  obtain ⟨g1, g2, g3, g4⟩ := runJob_spec C.E.rules (createOpts false)
    { env := C.E.env s.count, a := a, dep := dep, modeName := a.name } s.st hs.sane
  have hjob : runJob C.E.rules (createOpts false) { env := C.E.env s.count, a := a, dep := dep, modeName := a.name } s.st =
      runAdd (C.E.env s.count) C.E.rules (createOpts (s.st.nameExists a.name)) a { s.st with dep := s.st.dep || dep } := rfl
  have hne : ({ s.st with dep := s.st.dep || dep } : St).nameExists a.name = s.st.nameExists a.name := rfl
  rw [hne] at e1 e2 e3 e4
  rw [hjob] at g1 g2 g4
  refine ⟨trivial, by rw [e2]; exact g1, by rw [e2]; exact g4, ?_⟩
  intro hok
  have hok' : (createRun (C.E.env s.count) C.E.rules false (s.st.nameExists a.name) a { s.st with dep := s.st.dep || dep }).2 = none := by
    simpa using hok
  have heq := e4 hok'
  rw [heq]
  obtain ⟨a1, a2, _, a4, a5, a6, a7, a8, _⟩ := g2 (e1 ▸ hok')
  have hc : Job.conf C.E.rules (createOpts false) s.st { env := C.E.env s.count, a := a, dep := dep, modeName := a.name } = [] := by
    by_contra h
    exact absurd (a2 h) (by simp [createOpts])
  rw [hc] at a4 a5
  have hid : ∀ o : Option Info, o.map (dropInfo []) = o := by intro o; cases o <;> rfl
  simp only [hid] at a4 a5
  refine ⟨⟨a1, ?_⟩, a4, ⟨_, a7, fun l hl => mem_newMd_ne hl, rfl⟩, a8⟩
  intro n i j hi hj l hl
  by_cases hn : n = a.name
  · subst hn
    have hi' := a6.symm.trans hi
    have hj' := a7.symm.trans hj
    simp only [Option.some.injEq] at hi' hj'
    subst hi' hj'
    exact (mem_newMd_ne hl).symm
  · rw [a5 n hn] at hi
    rw [a4 n hn] at hj
    exact hs.md n i j hi hj l hl

theorem createIfNew_spec (C : CreEnv) (hm : C.noMeta = false) (dep : Bool) (a : Archive) (s : InstSt) (hs : CreInv s.st) :
    let r := createIfNew C dep a s
    r.1.sess = s.sess ∧ WF r.1.st.disk ∧ (UniqueOwner s.st.disk → UniqueOwner r.1.st.disk) ∧
    (r.2 = none → CreInv r.1.st ∧ (∀ n, (n ≠ a.name ∨ s.st.nameExists n = true) → mget r.1.st.disk n = mget s.st.disk n) ∧
      (s.st.nameExists a.name = false → ∃ i, mget r.1.st.disk a.name = some i ∧ (∀ l, l ≠ d1 → (l ∈ i.md ↔ l ∈ a.md))) ∧
      (∀ n, r.1.st.nameExists n = s.st.nameExists n)) := by
  simp only [createIfNew]
  cases hx : s.st.nameExists a.name with
  | true =>
    simp only [if_true]
    exact ⟨trivial, hs.sane.disk, id, fun _ => ⟨hs, fun _ _ => trivial, by simp, fun _ => trivial⟩⟩
  | false =>
    simp only [Bool.false_eq_true, if_false]
    obtain ⟨h1, h2, h3, h4⟩ := createFile_spec C hm dep a s hs
    rw [hx] at h1 h2 h3 h4
    refine ⟨h1, h2, h3, fun hok => ?_⟩
    obtain ⟨b1, b2, ⟨i, b3, b4, _⟩, b5⟩ := h4 hok
    refine ⟨b1, ?_, fun _ => ⟨i, b3, b4⟩, ?_⟩
    · rintro n (hn | hn)
      · exact b2 n hn
      · apply b2
        rintro rfl
        rw [hx] at hn; simp at hn
    · intro n
      rw [b5]
      split
      · rename_i h; rw [h, hx]
      · rfl

/-! ### base -/

theorem baseStep_spec (n : Str) (s : InstSt) (hs : CreInv s.st) :
    let r := baseStep false n s
    r.1.sess = s.sess ∧ WF r.1.st.disk ∧ (∀ p ∈ r.1.st.disk, p ∈ s.st.disk) ∧
    (r.2 = none → CreInv r.1.st ∧ r.1.st.mem = merase n s.st.mem ∧ r.1.st.disk = merase n s.st.disk ∧
      (∀ m, r.1.st.nameExists m = if m = n then false else s.st.nameExists m)) := by
  have hspec := deleteListed_spec false n s hs.sane
  simp only [baseStep, Bool.false_eq_true, if_false] at hspec ⊢
  have hsess : (deleteListed false n s).1.sess = s.sess := by
    simp only [deleteListed, Bool.false_eq_true, if_false]
    cases h : removeRecord s.st n with
    | mk st e => cases e <;> rfl
  refine ⟨hsess, ?_, ?_, ?_⟩
  · by_cases h : (deleteListed false n s).2 = none
    · exact (hspec.1 h).1.disk
    · rw [(hspec.2 h).1]; exact hs.sane.disk
  · by_cases h : (deleteListed false n s).2 = none
    · rw [(hspec.1 h).2.2.2.1]; intro p hp; exact (mem_merase.mp hp).1
    · rw [(hspec.2 h).1]; exact fun p hp => hp
  · intro hok
    obtain ⟨a1, _, a3, a4, _, _⟩ := hspec.1 hok
    have hdisk : (mget s.st.disk n).isSome := mget_isSome_installed.mpr a3
    have hmem : (mget s.st.mem n).isSome := by
      have := hs.sane.agree n
      cases h1 : mget s.st.mem n with
      | some _ => rfl
      | none => rw [h1] at this; cases h2 : mget s.st.disk n with
        | none => rw [h2] at hdisk; simp at hdisk
        | some _ => rw [h2] at this; simp at this
    obtain ⟨i, hi⟩ := Option.isSome_iff_exists.mp hmem
    obtain ⟨j, hj⟩ := Option.isSome_iff_exists.mp hdisk
    have hst : (deleteListed false n s).1.st = removeFiles { s.st with disk := merase n s.st.disk } n [] := by
      simp only [deleteListed, Bool.false_eq_true, if_false, removeRecord, hi, hj]
    have hmem' : (deleteListed false n s).1.st.mem = merase n s.st.mem := by rw [hst]; rfl
    refine ⟨⟨a1, ?_⟩, hmem', a4, ?_⟩
    · intro m i j hi hj l hl
      rw [hmem', mget_merase] at hi
      rw [a4, mget_merase] at hj
      split at hi
      · simp at hi
      · rename_i h
        rw [if_neg h] at hj
        exact hs.md m i j hi hj l hl
    · intro m
      unfold St.nameExists
      rw [hst]
      show (mget (merase n s.st.alias) m).isSome = _
      rw [mget_merase]
      by_cases h : m = n
      · subst h; simp
      · rw [if_neg h, if_neg (Ne.symm h)]

theorem baseSteps_ok (ns : List Str) (s r : InstSt) (hs : CreInv s.st) (h : seqSteps (baseStep false) ns s = (r, none)) :
    CreInv r.st ∧ r.sess = s.sess ∧ (∀ p, p ∈ r.st.disk ↔ p ∈ s.st.disk ∧ p.1 ∉ ns) ∧
    (∀ m, r.st.nameExists m = (s.st.nameExists m && decide (m ∉ ns))) := by
  induction ns generalizing s with
  | nil =>
    simp only [seqSteps, Prod.mk.injEq, and_true] at h
    subst h
    exact ⟨hs, rfl, by simp, by simp⟩
  | cons x xs ih =>
    obtain ⟨h1, h2⟩ := seqSteps_cons.mp h
    obtain ⟨a1, _, _, a4⟩ := baseStep_spec x s hs
    obtain ⟨b1, b2, b3, b4⟩ := a4 h1
    obtain ⟨c1, c2, c3, c4⟩ := ih _ b1 h2
    refine ⟨c1, c2.trans a1, ?_, ?_⟩
    · intro p
      rw [c3, b3, mem_merase]
      simp only [List.mem_cons, not_or]
      tauto
    · intro m
      rw [c4, b4]
      by_cases hm : m = x
      · subst hm; simp
      · rw [if_neg hm]; simp [hm]

theorem inBase_iff {i : Info} : i.inBase = true ↔ InBaseSet i := by
  unfold Info.inBase InBaseSet setChroot setDevel
  simp only [List.any_eq_true, Bool.or_eq_true, decide_eq_true_eq, Info.fields, List.mem_filterMap, mem_sofList]
  constructor
  · rintro ⟨x, ⟨l, hl, hx⟩, h⟩
    split at hx
    · rename_i hh
      cases l with
      | nil => simp at hh
      | cons c l =>
        simp only [List.head?_cons, Option.some.injEq] at hh
        subst hh
        simp only [List.drop_succ_cons, List.drop_zero, Option.some.injEq] at hx
        subst hx
        rcases h with rfl | rfl
        · exact Or.inl hl
        · exact Or.inr hl
    · simp at hx
  · rintro (h | h)
    · exact ⟨_, ⟨_, h, by simp⟩, Or.inl rfl⟩
    · exact ⟨_, ⟨_, h, by simp⟩, Or.inr rfl⟩

theorem inBaseSet_congr {i j : Info} (h : ∀ l, l ≠ d1 → (l ∈ i.md ↔ l ∈ j.md)) : InBaseSet i ↔ InBaseSet j := by
  unfold InBaseSet
  rw [h _ (by decide), h _ (by decide)]

theorem mem_doomed {st : St} (hs : CreInv st) {n : Str} : n ∈ doomed st.mem ↔ ∃ i, (n, i) ∈ st.disk ∧ ¬ InBaseSet i := by
  have hmm := wf_msorted hs.sane.mem
  have hmd := wf_msorted hs.sane.disk
  have hag := hs.sane.agree n
  unfold doomed
  simp only [List.mem_map, List.mem_filter, Bool.not_eq_true', Prod.exists, exists_and_right, exists_eq_right]
  constructor
  · rintro ⟨i, hi, hb⟩
    rw [← mget_iff_mem hmm] at hi
    rw [hi] at hag
    obtain ⟨j, hj, _⟩ := Option.map_eq_some_iff.mp hag.symm
    refine ⟨j, (mget_iff_mem hmd).mp hj, ?_⟩
    rw [← inBaseSet_congr (hs.md n i j hi hj), ← inBase_iff, hb]
    simp
  · rintro ⟨j, hj, hb⟩
    rw [← mget_iff_mem hmd] at hj
    rw [hj] at hag
    obtain ⟨i, hi, _⟩ := Option.map_eq_some_iff.mp hag
    refine ⟨i, (mget_iff_mem hmm).mp hi, ?_⟩
    rw [Bool.eq_false_iff, ne_eq, inBase_iff, inBaseSet_congr (hs.md n i j hi hj)]
    exact hb

/-- `base`: what is left is exactly the packages of the base sets. -/
theorem base_ok (C : CreEnv) (hm : C.noMeta = false) (k : Nat) (s r : InstSt) (hs : CreInv s.st) (h : base C k s = (r, none)) :
    CreInv r.st ∧ r.sess = s.sess ∧ (∀ n i, (n, i) ∈ r.st.disk ↔ (n, i) ∈ s.st.disk ∧ InBaseSet i) ∧
    (∀ m, r.st.nameExists m = true → s.st.nameExists m = true ∧ ∀ i, (m, i) ∈ s.st.disk → InBaseSet i) ∧
    (∀ m, s.st.nameExists m = true → (∀ i, (m, i) ∈ s.st.disk → InBaseSet i) → r.st.nameExists m = true) := by
  unfold base at h
  rw [hm] at h
  simp only [Bool.not_false, Bool.true_and] at h
  cases hb : C.baseLock k with
  | false => rw [hb] at h; simp at h
  | true =>
    rw [hb] at h
    simp only [Bool.not_true, Bool.false_eq_true, if_false] at h
    obtain ⟨a1, a2, a3, a4⟩ := baseSteps_ok _ s r hs h
    have hd : ∀ m, m ∉ doomed s.st.mem ↔ ∀ i, (m, i) ∈ s.st.disk → InBaseSet i := by
      intro m
      rw [mem_doomed hs]
      push Not
      rfl
    refine ⟨a1, a2, ?_, ?_, ?_⟩
    · intro n i
      rw [a3, hd]
      constructor
      · rintro ⟨h1, h2⟩; exact ⟨h1, h2 i h1⟩
      · rintro ⟨h1, h2⟩
        refine ⟨h1, fun j hj => ?_⟩
        have hmd := wf_msorted hs.sane.disk
        have e1 := (mget_iff_mem hmd).mpr h1
        have e2 := (mget_iff_mem hmd).mpr hj
        rw [e1] at e2
        rw [← Option.some.inj e2]; exact h2
    · intro m h
      rw [a4] at h
      simp only [Bool.and_eq_true, decide_eq_true_eq] at h
      exact ⟨h.1, (hd m).mp h.2⟩
    · intro m h1 h2
      rw [a4, h1]
      simpa using (hd m).mpr h2

theorem base_any (C : CreEnv) (hm : C.noMeta = false) (k : Nat) (s : InstSt) (hs : CreInv s.st) :
    WF (base C k s).1.st.disk ∧ (∀ p ∈ (base C k s).1.st.disk, p ∈ s.st.disk) ∧ (base C k s).1.sess = s.sess := by
  unfold base
  rw [hm]
  split
  · exact ⟨hs.sane.disk, fun p hp => hp, rfl⟩
  · refine (seqSteps_inv (fun t => CreInv t.st ∧ (∀ p ∈ t.st.disk, p ∈ s.st.disk) ∧ t.sess = s.sess)
      (fun t => WF t.st.disk ∧ (∀ p ∈ t.st.disk, p ∈ s.st.disk) ∧ t.sess = s.sess) _ ?_ s ⟨hs, fun p hp => hp, rfl⟩
      ⟨hs.sane.disk, fun p hp => hp, rfl⟩).1
    rintro x - t ⟨h1, h2, h3⟩
    obtain ⟨a1, a2, a3, a4⟩ := baseStep_spec x t h1
    refine ⟨⟨a2, fun p hp => h2 p (a3 p hp), a1.trans h3⟩, fun hok => ?_⟩
    obtain ⟨b1, _, _, _⟩ := a4 hok
    exact ⟨b1, fun p hp => h2 p (a3 p hp), a1.trans h3⟩

end Cards
