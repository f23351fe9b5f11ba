import Verif.Model.Lock
import Verif.Props.TransDb
import Mathlib.Tactic.Common
/-!
# C14 Package commands exclude each other; C15 a command acts on the database it locked
-/
namespace Cards.Props
open Cards

/-- Nobody else holds any lock beside an exclusive one. -/
def _root_.Cards.Machine.Exclusive (w : Machine) : Prop := ∀ i, (i, true) ∈ w.holders → w.holders = [(i, true)]

/-- A program changes the database only between taking the exclusive lock and releasing it (`h`: it holds it now). -/
def _root_.Cards.Prog.Guarded : Bool → Prog → Prop
  | _, .ret _ => True
  | _, .dead => True
  | h, .peek k => ∀ s, (k s).Guarded h
  | h, .modify _ k => h = true ∧ ∀ s, (k s).Guarded h
  | h, .script _ k => ∀ b, (k b).Guarded h
  | _, .acquire x k => k.Guarded x
  | _, .release k => k.Guarded false

theorem mem_dropLocks {i : Nat} {hs : List (Nat × Bool)} {h : Nat × Bool} :
    h ∈ dropLocks i hs ↔ h ∈ hs ∧ h.1 ≠ i := by simp [dropLocks]

theorem exclusive_drop {w : Machine} {i : Nat} (hw : w.Exclusive) {p : Nat → Prog} {s : Sys} :
    (Machine.mk s (dropLocks i w.holders) p).Exclusive := by
  intro j hj
  obtain ⟨h1, h2⟩ := mem_dropLocks.1 hj
  have := hw j h1
  simp only
  rw [this]
  simp only at h2
  simp [dropLocks, h2]

/-- One step keeps the lock exclusive. -/
theorem exclusive_step {w : Machine} (hw : w.Exclusive) (e : Move) : (w.step e).Exclusive := by
  cases e with
  | kill i => exact exclusive_drop hw
  | run i =>
    simp only [Machine.step]
    split
    · exact exclusive_drop hw
    · exact hw
    · exact hw
    · exact hw
    · exact hw
    · rename_i x k _
      split
      · rename_i hc
        intro j hj
        simp only [List.mem_cons] at hj
        cases x with
        | true =>
          simp only [canLock, if_true, List.isEmpty_iff] at hc
          simp only [hc] at hj ⊢
          simp at hj
          simp [hj]
        | false =>
          simp only [canLock, Bool.false_eq_true, if_false, List.all_eq_true] at hc
          rcases hj with hj | hj
          · simp at hj
          · have := hc _ hj
            simp at this
      · exact hw
    · exact exclusive_drop hw

theorem exclusive_runs {w : Machine} (hw : w.Exclusive) (es : List Move) : (w.runs es).Exclusive := by
  induction es generalizing w with
  | nil => exact hw
  | cons e es ih => exact ih (exclusive_step hw e)

/-- **C14** (mutual exclusion). Start with no lock held and let any number of processes, running any programs, be scheduled
and killed in any way: whenever a process holds the exclusive lock, no other process holds any lock. -/
theorem C14_mutual_exclusion (s : Sys) (procs : Nat → Prog) (es : List Move) (i j : Nat) (x : Bool)
    (hi : (i, true) ∈ ((Machine.mk s [] procs).runs es).holders)
    (hj : (j, x) ∈ ((Machine.mk s [] procs).runs es).holders) : j = i ∧ x = true := by
  have hx : (Machine.mk s [] procs).Exclusive := by intro k hk; simp at hk
  have := exclusive_runs hx es i hi
  rw [this] at hj
  simp at hj
  exact hj

/-- **C14** (an attempt to lock fails while another holds the lock). -/
theorem C14_locked_out (w : Machine) (i j : Nat) (x y : Bool) (k : Prog) (hh : (i, x) ∈ w.holders)
    (hxy : x = true ∨ y = true) (hp : w.procs j = .acquire y k) :
    (w.step (.run j)).procs j = .ret (some .locked) ∧ (w.step (.run j)).sys = w.sys ∧
      (w.step (.run j)).holders = w.holders := by
  have hc : canLock w.holders y = false := by
    cases y with
    | true => simp only [canLock, if_true]; cases h : w.holders with
      | nil => simp [h] at hh
      | cons a l => simp
    | false =>
      have hx : x = true := by simpa using hxy
      subst hx
      simp only [canLock, Bool.false_eq_true, if_false]
      rw [Bool.eq_false_iff]
      intro h
      have := List.all_eq_true.1 h _ hh
      simp at this
  simp [Machine.step, hp, hc, setProc]

/-- **C14** (the lock is released on exit, error or crash). After a process is killed, or makes its last step
(whatever the result), it holds no lock. -/
theorem C14_released (w : Machine) (i : Nat) (x : Bool) :
    (i, x) ∉ (w.step (.kill i)).holders ∧
    (∀ e, w.procs i = .ret e → (i, x) ∉ (w.step (.run i)).holders) := by
  constructor
  · simp [Machine.step, mem_dropLocks]
  · intro e he
    simp [Machine.step, he, mem_dropLocks]

/-- **C14** (and the next process can then lock). -/
theorem C14_available_after_crash (s : Sys) (procs : Nat → Prog) (es : List Move) (i j : Nat) (x : Bool) (k : Prog)
    (hi : (i, true) ∈ ((Machine.mk s [] procs).runs es).holders) (hij : j ≠ i)
    (hj : ((Machine.mk s [] procs).runs es).procs j = .acquire x k) :
    (((Machine.mk s [] procs).runs es).runs [.kill i, .run j]).holders = [(j, x)] ∧
    (((Machine.mk s [] procs).runs es).runs [.kill i, .run j]).procs j = k := by
  have hx : (Machine.mk s [] procs).Exclusive := by intro k hk; simp at hk
  have h := exclusive_runs hx es i hi
  have hj' : (((Machine.mk s [] procs).runs es).step (.kill i)).procs j = .acquire x k := by
    simp [Machine.step, setProc, hij, hj]
  have hh : (((Machine.mk s [] procs).runs es).step (.kill i)).holders = [] := by
    simp [Machine.step, h, dropLocks]
  have hc : canLock [] x = true := by cases x <;> rfl
  show ((((Machine.mk s [] procs).runs es).step (.kill i)).step (.run j)).holders = _ ∧
    ((((Machine.mk s [] procs).runs es).step (.kill i)).step (.run j)).procs j = _
  generalize (((Machine.mk s [] procs).runs es).step (.kill i)) = w at *
  simp [Machine.step, hj', hh, hc, setProc]

/-- Every process is guarded, given the locks it holds. -/
def _root_.Cards.Machine.AllGuarded (w : Machine) : Prop :=
  ∀ i, ∃ h : Bool, (h = true → (i, true) ∈ w.holders) ∧ (w.procs i).Guarded h

theorem guarded_step_one {sys : Sys} {hs : List (Nat × Bool)} {procs : Nat → Prog} {j : Nat} {h : Bool}
    (hh : h = true → (j, true) ∈ hs) (hj : (procs j).Guarded h) :
    ∃ h' : Bool, (h' = true → (j, true) ∈ ((Machine.mk sys hs procs).step (.run j)).holders) ∧
      (((Machine.mk sys hs procs).step (.run j)).procs j).Guarded h' := by
  cases hp : procs j with
  | ret e => exact ⟨false, by simp, by simp [Machine.step, hp, Prog.Guarded]⟩
  | dead => exact ⟨false, by simp, by simp [Machine.step, hp, Prog.Guarded]⟩
  | peek k =>
    rw [hp] at hj
    exact ⟨h, by simpa [Machine.step, hp] using hh, by simpa [Machine.step, hp, setProc] using hj _⟩
  | modify f k =>
    rw [hp] at hj
    exact ⟨h, by simpa [Machine.step, hp] using hh, by simpa [Machine.step, hp, setProc] using hj.2 _⟩
  | script f k =>
    rw [hp] at hj
    exact ⟨h, by simpa [Machine.step, hp] using hh, by simpa [Machine.step, hp, setProc] using hj _⟩
  | acquire x k =>
    rw [hp] at hj
    cases hc : canLock hs x with
    | true => exact ⟨x, by intro hx; subst hx; simp [Machine.step, hp, hc],
        by simpa [Machine.step, hp, hc, setProc, Prog.Guarded] using hj⟩
    | false => exact ⟨false, by simp, by simp [Machine.step, hp, hc, setProc, Prog.Guarded]⟩
  | release k =>
    rw [hp] at hj
    exact ⟨false, by simp, by simpa [Machine.step, hp, setProc, Prog.Guarded] using hj⟩

theorem step_procs_other (w : Machine) (e : Move) (j : Nat) (hj : e.pid ≠ j) : (w.step e).procs j = w.procs j := by
  have hj' : ¬ j = e.pid := fun h => hj h.symm
  cases e with
  | kill i => simp only [Machine.step, setProc, Move.pid] at *; simp [hj']
  | run i =>
    simp only [Move.pid] at hj'
    simp only [Machine.step]
    split <;> (try split) <;> simp [setProc, hj']

theorem step_holders_other (w : Machine) (e : Move) (j : Nat) (x : Bool) (hj : e.pid ≠ j) (hi : (j, x) ∈ w.holders) :
    (j, x) ∈ (w.step e).holders := by
  cases e with
  | kill i => simp only [Machine.step, mem_dropLocks]; exact ⟨hi, fun h => hj h.symm⟩
  | run i =>
    have hij : j ≠ i := fun h => hj h.symm
    simp only [Machine.step]
    split
    · simp only [mem_dropLocks]; exact ⟨hi, hij⟩
    · exact hi
    · exact hi
    · exact hi
    · exact hi
    · split
      · exact List.mem_cons_of_mem _ hi
      · exact hi
    · simp only [mem_dropLocks]; exact ⟨hi, hij⟩

theorem allGuarded_step {w : Machine} (hw : w.AllGuarded) (e : Move) : (w.step e).AllGuarded := by
  intro j
  obtain ⟨h, hh, hj⟩ := hw j
  by_cases hi : e.pid = j
  · cases e with
    | kill i => exact ⟨false, by simp, by subst hi; simp [Machine.step, setProc, Move.pid, Prog.Guarded]⟩
    | run i => subst hi; exact guarded_step_one hh hj
  · exact ⟨h, fun ht => step_holders_other w e j true hi (hh ht), by rw [step_procs_other w e j hi]; exact hj⟩

theorem inv_runs {w : Machine} (hx : w.Exclusive) (hw : w.AllGuarded) (es : List Move) :
    (w.runs es).Exclusive ∧ (w.runs es).AllGuarded := by
  induction es generalizing w with
  | nil => exact ⟨hx, hw⟩
  | cons e es ih => exact ih (exclusive_step hx e) (allGuarded_step hw e)

/-- A guarded machine changes the database only by a step of the process that holds the exclusive lock. -/
theorem step_disk {w : Machine} (hx : w.Exclusive) (hw : w.AllGuarded) (e : Move) (hd : (w.step e).sys.disk ≠ w.sys.disk) :
    w.holders = [(e.pid, true)] := by
  cases e with
  | kill i => exact absurd rfl hd
  | run i =>
    simp only [Machine.step] at hd
    split at hd
    · exact absurd rfl hd
    · exact absurd rfl hd
    · exact absurd rfl hd
    · rename_i f k hp
      obtain ⟨h, hh, hg⟩ := hw i
      rw [hp] at hg
      exact hx i (hh hg.1)
    · exact absurd rfl hd
    · split at hd <;> exact absurd rfl hd
    · exact absurd rfl hd

/-! ## The programs of the tools are guarded -/

theorem guarded_install (env : Env) (opts : Opts) (a : Archive) (files keep nonInst : List Str) (st : St) :
    (installProg env opts a files keep nonInst st).Guarded false := by
  simp only [installProg, Prog.phase, Prog.Guarded, true_and]
  intro _ _ _
  split
  · simp [Prog.Guarded]
  · trivial

theorem guarded_upgrade (env : Env) (rules : List Rule) (opts : Opts) (a : Archive) (files nonInst : List Str) (st : St) :
    (upgradeProg env rules opts a files nonInst st).Guarded false := by
  simp only [upgradeProg, Prog.phase, Prog.Guarded, true_and]
  intro _ _
  split
  · trivial
  · exact guarded_install ..

theorem guarded_commit (env : Env) (rules : List Rule) (opts : Opts) (a : Archive) (files nonInst : List Str) (st : St) :
    (commitProg env rules opts a files nonInst st).Guarded false := by
  rw [commitProg]; split
  · exact guarded_upgrade ..
  · exact guarded_install ..

theorem guarded_conflict (env : Env) (rules : List Rule) (opts : Opts) (a : Archive) (st : St) :
    (conflictProg env rules opts a st).Guarded false := by
  intro s
  simp only
  split
  · exact guarded_commit ..
  · split
    · simp only [Prog.phase, Prog.Guarded, true_and]
      intro _
      exact guarded_commit ..
    · trivial

theorem guarded_add (env : Env) (rules : List Rule) (opts : Opts) (a : Archive) : (addProg env rules opts a).Guarded false := by
  intro s
  simp only
  split
  · trivial
  · split
    · intro b
      simp only
      split
      · exact guarded_conflict _ _ _ _ _
      · trivial
    · exact guarded_conflict _ _ _ _ _

theorem guarded_rm (sc : RmScripts) (name : Str) : (rmProg sc name).Guarded false := by
  intro s
  simp only [Prog.Guarded]
  split
  · trivial
  · intro b
    simp only
    split
    · trivial
    · simp [Prog.phase, Prog.Guarded]

theorem guarded_upgradeDelete (name : Str) (st? : Option St) : (upgradeDeleteProg name st?).Guarded false := by
  simp only [upgradeDeleteProg, Prog.Guarded, true_and]
  intro s t
  split
  · trivial
  · simp [Prog.phase, Prog.Guarded]

theorem guarded_info (n : Nat) : (infoProg n).Guarded false := by
  simp only [infoProg, Prog.Guarded]
  induction n with
  | zero => simp [infoProg.reads, Prog.Guarded]
  | succ n ih => intro s; exact ih

/-- The programs the property is about. -/
inductive Tool : Prog → Prop where
  | pkgadd (env rules opts a) : Tool (addProg env rules opts a)
  | pkgrm (sc name) : Tool (rmProg sc name)
  | upgradeDelete (name st?) : Tool (upgradeDeleteProg name st?)
  | pkginfo (n) : Tool (infoProg n)
  | none : Tool .dead

theorem Tool.guarded {p : Prog} (h : Tool p) : p.Guarded false := by
  cases h with
  | pkgadd => exact guarded_add _ _ _ _
  | pkgrm => exact guarded_rm _ _
  | upgradeDelete => exact guarded_upgradeDelete _ _
  | pkginfo => exact guarded_info _
  | none => trivial

theorem tools_inv (s : Sys) (procs : Nat → Prog) (ht : ∀ i, Tool (procs i)) (es : List Move) :
    ((Machine.mk s [] procs).runs es).Exclusive ∧ ((Machine.mk s [] procs).runs es).AllGuarded := by
  refine inv_runs ?_ ?_ es
  · intro i hi; simp at hi
  · intro i
    exact ⟨false, by simp, (ht i).guarded⟩

/-- **C14** (only the lock holder changes the database). Any number of pkgadd, pkgrm, pkginfo processes and upgrade deletions,
any schedule with crashes: if the next event changes the database on disk, it is a step of the process that holds the
exclusive lock, and nobody else holds a lock. -/
theorem C14_only_holder_writes (s : Sys) (procs : Nat → Prog) (ht : ∀ i, Tool (procs i)) (es : List Move) (e : Move)
    (hd : (((Machine.mk s [] procs).runs es).step e).sys.disk ≠ ((Machine.mk s [] procs).runs es).sys.disk) :
    ((Machine.mk s [] procs).runs es).holders = [(e.pid, true)] :=
  step_disk (tools_inv s procs ht es).1 (tools_inv s procs ht es).2 e hd

theorem runs_other {w : Machine} (hx : w.Exclusive) (hw : w.AllGuarded) (i : Nat) (x : Bool) (hi : (i, x) ∈ w.holders)
    (es : List Move) (hes : ∀ e ∈ es, e.pid ≠ i) :
    (w.runs es).sys.disk = w.sys.disk ∧ (i, x) ∈ (w.runs es).holders := by
  induction es generalizing w with
  | nil => exact ⟨rfl, hi⟩
  | cons e es ih =>
    have hne : e.pid ≠ i := hes e (by simp)
    have hin : (i, x) ∈ (w.step e).holders := step_holders_other w e i x hne hi
    have hdk : (w.step e).sys.disk = w.sys.disk := by
      by_contra hne'
      have := step_disk hx hw e hne'
      rw [this] at hi
      simp at hi
      exact hne hi.1.symm
    have := ih (exclusive_step hx e) (allGuarded_step hw e) hin (fun e' h' => hes e' (List.mem_cons_of_mem _ h'))
    exact ⟨this.1.trans hdk, this.2⟩

/-- **C14** (a critical section is not disturbed). While a process holds the lock, exclusive (pkgadd, pkgrm) or shared (pkginfo),
nothing the other processes do, for however long, changes the database. -/
theorem C14_section_undisturbed (s : Sys) (procs : Nat → Prog) (ht : ∀ i, Tool (procs i)) (es es' : List Move) (i : Nat)
    (x : Bool) (hi : (i, x) ∈ ((Machine.mk s [] procs).runs es).holders) (hes : ∀ e ∈ es', e.pid ≠ i) :
    (((Machine.mk s [] procs).runs es).runs es').sys.disk = ((Machine.mk s [] procs).runs es).sys.disk :=
  (runs_other (tools_inv s procs ht es).1 (tools_inv s procs ht es).2 i x hi es' hes).1

/-! ## Concrete machines -/

/-- No scripts. -/
def lkScripts : RmScripts := { pre := fun fs => (fs, true), post := fun fs => fs }

/-- `n` steps of process `i`. -/
def steps (i n : Nat) : List Move := List.replicate n (.run i)

/-- Two processes: pkgrm of foo, pkgadd of a new package. -/
def xProcs : Nat → Prog := fun i =>
  if i = 0 then rmProg lkScripts "foo".toList
  else if i = 1 then addProg xEnv [] xOpts (xArch "new" ["usr/", "usr/new"]) else .dead

/-- The hypotheses of the C14 theorems hold in a machine where process 0 is inside its critical section, and the next
step changes the database. -/
example : (∀ i, Tool (xProcs i)) ∧
    (0, true) ∈ ((Machine.mk xSys [] xProcs).runs (steps 0 5)).holders ∧
    (((Machine.mk xSys [] xProcs).runs (steps 0 5)).step (.run 0)).sys.disk ≠
      ((Machine.mk xSys [] xProcs).runs (steps 0 5)).sys.disk := by
  refine ⟨?_, by decide, by decide⟩
  intro i
  simp only [xProcs]
  split
  · exact .pkgrm ..
  · split
    · exact .pkgadd ..
    · exact .none

/-- And process 1 asks for the lock meanwhile and is refused. -/
example : ∃ k, ((Machine.mk xSys [] xProcs).runs (steps 0 4 ++ steps 1 3)).procs 1 = .acquire true k :=
  ⟨_, rfl⟩

/-- **C14** does not hold for `cards create base`: the lock is dropped before the loop, so it removes package records while a
pkgadd holds the exclusive lock. -/
theorem C14_create_base_unlocked : ∃ (s : Sys) (es : List Move) (procs : Nat → Prog),
    procs 0 = createBaseProg (load s false) ["foo".toList] ∧ Tool (procs 1) ∧
    ((Machine.mk s [] procs).runs es).holders = [(1, true)] ∧
    (((Machine.mk s [] procs).runs es).step (.run 0)).sys.disk ≠ ((Machine.mk s [] procs).runs es).sys.disk := by
  refine ⟨xSys, steps 0 2 ++ steps 1 4, fun i => if i = 0 then createBaseProg (load xSys false) ["foo".toList]
    else if i = 1 then addProg xEnv [] xOpts (xArch "new" ["usr/", "usr/new"]) else .dead, rfl, .pkgadd _ _ _ _, ?_, ?_⟩
  · decide
  · decide

/-! ## A reader sees one database -/

/-- A pkginfo process after it got the lock: it reads under the shared lock, or it is done. -/
def Reading (w : Machine) (i : Nat) : Prop :=
  (∃ m, w.procs i = infoProg.reads m ∧ (i, false) ∈ w.holders) ∨ (∃ e, w.procs i = .ret e) ∨ w.procs i = .dead

theorem reading_step {w : Machine} {i : Nat} (h : Reading w i) (e : Move) : Reading (w.step e) i := by
  by_cases he : e.pid = i
  · cases e with
    | kill j =>
      simp only [Move.pid] at he
      subst he
      exact .inr (.inr (by simp [Machine.step, setProc]))
    | run j =>
      simp only [Move.pid] at he
      subst he
      rcases h with ⟨m, hm, hh⟩ | ⟨e, hm⟩ | hm
      · cases m with
        | zero => exact .inr (.inl ⟨none, by simp [Machine.step, hm, infoProg.reads, setProc]⟩)
        | succ m => exact .inl ⟨m, by simp [Machine.step, hm, infoProg.reads, setProc], by simpa [Machine.step, hm, infoProg.reads] using hh⟩
      · exact .inr (.inl ⟨e, by simp [Machine.step, hm]⟩)
      · exact .inr (.inr (by simp [Machine.step, hm]))
  · have hp := step_procs_other w e i he
    rcases h with ⟨m, hm, hh⟩ | ⟨e', hm⟩ | hm
    · exact .inl ⟨m, hp.trans hm, step_holders_other w e i false he hh⟩
    · exact .inr (.inl ⟨e', hp.trans hm⟩)
    · exact .inr (.inr (hp.trans hm))

theorem reading_runs {w : Machine} {i : Nat} (h : Reading w i ∨ ∃ n, w.procs i = infoProg n) (es : List Move) :
    Reading (w.runs es) i ∨ ∃ n, (w.runs es).procs i = infoProg n := by
  induction es generalizing w with
  | nil => exact h
  | cons e es ih =>
    apply ih
    rcases h with h | ⟨n, hn⟩
    · exact .inl (reading_step h e)
    · by_cases he : e.pid = i
      · left
        cases e with
        | kill j =>
          simp only [Move.pid] at he
          subst he
          exact .inr (.inr (by simp [Machine.step, setProc]))
        | run j =>
          simp only [Move.pid] at he
          subst he
          have hn' : w.procs j = .acquire false (infoProg.reads n) := hn
          cases hc : canLock w.holders false with
          | true => exact .inl ⟨n, by simp [Machine.step, hn', hc, setProc], by simp [Machine.step, hn', hc]⟩
          | false => exact .inr (.inl ⟨some .locked, by simp [Machine.step, hn', hc, setProc]⟩)
      · exact .inr ⟨n, (step_procs_other w e i he).trans hn⟩

theorem done_runs {w : Machine} {i : Nat} (h : (∃ e, w.procs i = .ret e) ∨ w.procs i = .dead) (es : List Move) (k : Sys → Prog) :
    (w.runs es).procs i ≠ .peek k := by
  induction es generalizing w with
  | nil =>
    intro hk
    have hk' : w.procs i = .peek k := hk
    rcases h with ⟨e, he⟩ | he <;> (rw [he] at hk'; cases hk')
  | cons e es ih =>
    apply ih
    by_cases he : e.pid = i
    · cases e with
      | kill j =>
        simp only [Move.pid] at he
        subst he
        exact .inr (by simp [Machine.step, setProc])
      | run j =>
        simp only [Move.pid] at he
        subst he
        rcases h with ⟨e, h⟩ | h
        · exact .inl ⟨e, by simp [Machine.step, h]⟩
        · exact .inr (by simp [Machine.step, h])
    · rw [step_procs_other w e i he]
      exact h

theorem reading_disk {w : Machine} {i : Nat} (hx : w.Exclusive) (hw : w.AllGuarded) (h : Reading w i) (es : List Move) (k : Sys → Prog)
    (hk : (w.runs es).procs i = .peek k) : (w.runs es).sys.disk = w.sys.disk := by
  induction es generalizing w with
  | nil => rfl
  | cons e es ih =>
    have h1 : (w.step e).sys.disk = w.sys.disk := by
      rcases h with ⟨m, hm, hh⟩ | h
      · by_contra hne
        have := step_disk hx hw e hne
        rw [this] at hh
        simp at hh
      · exact absurd hk (done_runs h (e :: es) k)
    exact (ih (exclusive_step hx e) (allGuarded_step hw e) (reading_step h e) hk).trans h1

/-- **C14** (a query sees one database). Whatever the other processes do and however they are scheduled, the database is the same at every two moments at
which a pkginfo process is about to read a part of it. -/
theorem C14_query_consistent (s : Sys) (procs : Nat → Prog) (ht : ∀ i, Tool (procs i)) (i n : Nat) (hi : procs i = infoProg n) (es es' : List Move)
    (k k' : Sys → Prog) (h1 : ((Machine.mk s [] procs).runs es).procs i = .peek k)
    (h2 : (((Machine.mk s [] procs).runs es).runs es').procs i = .peek k') :
    (((Machine.mk s [] procs).runs es).runs es').sys.disk = ((Machine.mk s [] procs).runs es).sys.disk := by
  obtain ⟨hx, hg⟩ := tools_inv s procs ht es
  rcases reading_runs (w := Machine.mk s [] procs) (i := i) (.inr ⟨n, hi⟩) es with h | ⟨m, h⟩
  · exact reading_disk hx hg h es' k' h2
  · rw [h1] at h
    cases h

/-- Between two reads of a query the other process asks for the lock and does not get it. -/
example : (∃ k, ((Machine.mk xSys [] (fun i => if i = 0 then infoProg 3 else if i = 1 then rmProg lkScripts "foo".toList else .dead)).runs (steps 0 2)).procs 0 = .peek k) ∧
    (∃ k, (((Machine.mk xSys [] (fun i => if i = 0 then infoProg 3 else if i = 1 then rmProg lkScripts "foo".toList else .dead)).runs (steps 0 2)).runs
      (steps 1 9 ++ steps 0 1)).procs 0 = .peek k) := ⟨⟨_, rfl⟩, ⟨_, rfl⟩⟩

/-! ## A process alone -/

/-- What a program does when it runs alone and every lock is granted. -/
def _root_.Cards.Prog.solo : Prog → Sys → Sys × Option Err
  | .ret e, s => (s, e)
  | .dead, s => (s, none)
  | .peek k, s => (k s).solo s
  | .modify f k, s => (k s).solo (f s)
  | .script f k, s => (k (f s.fs).2).solo { s with fs := (f s.fs).1 }
  | .acquire _ k, s => k.solo s
  | .release k, s => k.solo s

theorem on_sys (st : St) : st.on st.sys = st := rfl

theorem solo_phase (st : St) (s : Sys) (g : St → St) (k : St → Prog) :
    (Prog.phase st g k).solo s = (k (g (st.on s))).solo (g (st.on s)).sys := rfl

theorem solo_install (env : Env) (opts : Opts) (a : Archive) (files keep nonInst : List Str) (st : St)
    (he : env.lockInstall = true) :
    (installProg env opts a files keep nonInst st).solo st.sys =
      ((installPhase env opts st a files keep nonInst).1.sys, (installPhase env opts st a files keep nonInst).2) := by
  simp only [installProg, Prog.solo, solo_phase, on_sys, installPhase, he]
  split <;> simp [Prog.solo, St.sys]

theorem solo_commit (env : Env) (rules : List Rule) (opts : Opts) (a : Archive) (files nonInst : List Str) (st : St)
    (hu : env.lockUpgrade = true) (he : env.lockInstall = true) :
    (commitProg env rules opts a files nonInst st).solo st.sys =
      ((commit env rules opts a files nonInst st).1.sys, (commit env rules opts a files nonInst st).2) := by
  simp only [commitProg, commit]
  split
  · have key : ∀ st1 : St,
        (Prog.phase st1 (fun st => removeFiles st a.name (keepFileList env.rx files rules)) fun st =>
          .modify (fun s => (removeRecord (st.on s) a.name).1.sys) fun s =>
          match removeRecord (st.on s) a.name with
          | (_, some e) => .release (.ret (some e))
          | (st, none) => .release (installProg env opts a files (keepFileList env.rx files rules) nonInst st)).solo st1.sys =
        let r := removeRecord (removeFiles st1 a.name (keepFileList env.rx files rules)) a.name
        match r.2 with
        | some e => (r.1.sys, some e)
        | none => ((installPhase env opts r.1 a files (keepFileList env.rx files rules) nonInst).1.sys,
            (installPhase env opts r.1 a files (keepFileList env.rx files rules) nonInst).2) := by
      intro st1
      simp only [solo_phase, Prog.solo, on_sys]
      cases hr : removeRecord (removeFiles st1 a.name (keepFileList env.rx files rules)) a.name with
      | mk st2 e =>
        cases e with
        | some e => simp [Prog.solo]
        | none => simp only [Prog.solo]; exact solo_install _ _ _ _ _ _ _ he
    simp only [upgradeProg, upgradePhase, hu, Bool.not_true, Bool.false_eq_true, if_false]
    have fin : ∀ st1 : St, st1.sys = st.sys →
        ((let r := removeRecord (removeFiles st1 a.name (keepFileList env.rx files rules)) a.name
        match r.2 with
        | some e => (r.1.sys, some e)
        | none => ((installPhase env opts r.1 a files (keepFileList env.rx files rules) nonInst).1.sys,
            (installPhase env opts r.1 a files (keepFileList env.rx files rules) nonInst).2)) : Sys × Option Err) =
        ((match ((removeRecord (removeFiles st1 a.name (keepFileList env.rx files rules)) a.name).1,
            keepFileList env.rx files rules,
            (removeRecord (removeFiles st1 a.name (keepFileList env.rx files rules)) a.name).2) with
          | (st, _, some e) => (st, some e)
          | (st, keep, none) => installPhase env opts st a files keep nonInst).1.sys,
         (match ((removeRecord (removeFiles st1 a.name (keepFileList env.rx files rules)) a.name).1,
            keepFileList env.rx files rules,
            (removeRecord (removeFiles st1 a.name (keepFileList env.rx files rules)) a.name).2) with
          | (st, _, some e) => (st, some e)
          | (st, keep, none) => installPhase env opts st a files keep nonInst).2) := by
      intro st1 _
      cases hr : removeRecord (removeFiles st1 a.name (keepFileList env.rx files rules)) a.name with
      | mk st2 e => cases e <;> rfl
    cases hm : mget st.mem a.name with
    | none => exact (key st).trans (fin st rfl)
    | some i =>
      cases hc : (st.nameExists a.name && i.dependency) with
      | false => simp only [hc, Bool.false_eq_true, if_false]; exact (key st).trans (fin st rfl)
      | true => simp only [hc, if_true]; exact (key { st with dep := true }).trans (fin _ rfl)
  · exact solo_install _ _ _ _ _ _ _ he

theorem solo_conflict (env : Env) (rules : List Rule) (opts : Opts) (a : Archive) (st : St)
    (hu : env.lockUpgrade = true) (he : env.lockInstall = true) :
    (conflictProg env rules opts a st).solo st.sys =
      let sets := applyInstallRules env.rx a.files rules
      let conf := conflicts st a.name sets.1
      let r := if !conf.isEmpty && !opts.force then (st, some Err.conflict)
        else commit env rules opts a sets.1 sets.2 (forcePhase env rules opts st conf)
      (r.1.sys, r.2) := by
  simp only [conflictProg, Prog.solo, on_sys]
  by_cases hc : (conflicts st a.name (applyInstallRules env.rx a.files rules).1).isEmpty = true
  · simp only [hc, if_true, Bool.not_true, Bool.false_and, Bool.false_eq_true, if_false, forcePhase]
    exact solo_commit _ _ _ _ _ _ _ hu he
  · simp only [hc, Bool.false_eq_true, if_false, Bool.not_false, Bool.true_and]
    cases ho : opts.force with
    | true =>
      simp only [if_true, Prog.solo, solo_phase, on_sys, Bool.not_true, Bool.false_eq_true, if_false]
      exact solo_commit _ _ _ _ _ _ _ hu he
    | false => simp [Prog.solo]

/-- A pkgadd process alone does what `pkgadd` (all locks granted) does. -/
theorem solo_add (env : Env) (rules : List Rule) (opts : Opts) (a : Archive) (s : Sys)
    (hf : env.lockForce = true) (hu : env.lockUpgrade = true) (he : env.lockInstall = true) :
    (addProg env rules opts a).solo s = pkgadd env rules opts a s := by
  simp only [addProg, Prog.solo, pkgadd, runAdd]
  cases hp : precheck opts a (load s opts.asDep) with
  | some e => simp [Prog.solo, St.sys, load]
  | none =>
    simp only [preRun, hf, Bool.not_true, Bool.and_false, Bool.false_eq_true, if_false]
    cases hr : opts.runPrePost with
    | true =>
      simp only [if_true, Prog.solo]
      have hfs : (load s opts.asDep).fs = s.fs := rfl
      rw [hfs]
      cases hok : (a.pre s.fs).2 with
      | true =>
        have := solo_conflict env rules opts a { load s opts.asDep with fs := (a.pre s.fs).1 } hu he
        simp only [if_true, Bool.not_true, Bool.false_eq_true, if_false]
        exact this
      | false => simp [Prog.solo, St.sys, load]
    | false =>
      simp only [Bool.false_eq_true, if_false, Bool.not_true]
      exact solo_conflict env rules opts a (load s opts.asDep) hu he

/-- A pkgrm process alone does what `pkgrm` does. -/
theorem solo_rm (sc : RmScripts) (name : Str) (s : Sys) : (rmProg sc name).solo s = pkgrm false sc name s := by
  simp only [rmProg, Prog.solo, pkgrm, runRm, Bool.false_eq_true, if_false]
  cases hn : (load s false).nameExists name with
  | false => simp [Prog.solo, St.sys, load]
  | true =>
    simp only [Bool.not_true, Bool.false_eq_true, if_false, Prog.solo]
    have hfs : (load s false).fs = s.fs := rfl
    rw [hfs]
    cases hok : (sc.pre s.fs).2 with
    | false => simp [Prog.solo, St.sys, load]
    | true => simp only [Bool.not_true, Bool.false_eq_true, if_false, Prog.solo, solo_phase]; rfl

/-- The invariant of a process nobody disturbs. -/
theorem solo_step (w : Machine) (i : Nat) :
    ((w.step (.run i)).procs i).solo (w.step (.run i)).sys = (w.procs i).solo w.sys ∨
    (w.step (.run i)).procs i = .ret (some .locked) := by
  simp only [Machine.step]
  cases hp : w.procs i with
  | ret e => left; simp [hp]
  | dead => left; simp [hp]
  | peek k => left; simp [setProc, Prog.solo]
  | modify f k => left; simp [setProc, Prog.solo]
  | script f k => left; simp [setProc, Prog.solo]
  | acquire x k =>
    cases hc : canLock w.holders x with
    | true => left; simp [setProc, Prog.solo, hc]
    | false => right; simp [setProc, hc]
  | release k => left; simp [setProc, Prog.solo]

theorem locked_stays (w : Machine) (i : Nat) (e : Move) (hk : e ≠ .kill i) (h : w.procs i = .ret (some .locked)) :
    (w.step e).procs i = .ret (some .locked) := by
  by_cases hi : e.pid = i
  · cases e with
    | kill j => subst hi; exact absurd rfl hk
    | run j => subst hi; simp only [Move.pid] at h; simp [Machine.step, h, Move.pid]
  · rw [step_procs_other w e i hi, h]

/-- **C15** (partial: other commands may run at the same time, be refused, read, or finish, but must not change the system
between the start and the end of this one). Then the result is that of the command run alone on the system it started
from, unless it was refused the lock. The full property allows changes until the lock is taken: it fails, see
`C15_stale_data_deletes` and `C15_stale_data_conflict`. -/
theorem C15_undisturbed_partial (w : Machine) (i : Nat) (es : List Move) (r : Option Err)
    (hk : Move.kill i ∉ es)
    (hq : ∀ es1 e es2, es = es1 ++ e :: es2 → e.pid ≠ i → ((w.runs es1).step e).sys = (w.runs es1).sys)
    (hr : (w.runs es).procs i = .ret r) :
    r = some .locked ∨ ((w.runs es).sys, r) = (w.procs i).solo w.sys := by
  have key : ((w.runs es).procs i).solo (w.runs es).sys = (w.procs i).solo w.sys ∨
      (w.runs es).procs i = .ret (some .locked) := by
    clear hr
    induction es generalizing w with
    | nil => exact Or.inl rfl
    | cons e es ih =>
      have hk1 : e ≠ .kill i := fun h => hk (h ▸ List.mem_cons_self ..)
      have hk2 : Move.kill i ∉ es := fun h => hk (List.mem_cons_of_mem _ h)
      have hs := ih (w.step e) hk2 (fun es1 e' es2 h hne => hq (e :: es1) e' es2 (by simp [h]) hne)
      have hone : ((w.step e).procs i).solo (w.step e).sys = (w.procs i).solo w.sys ∨
          (w.step e).procs i = .ret (some .locked) := by
        by_cases hi : e.pid = i
        · cases e with
          | kill j => subst hi; exact absurd rfl hk1
          | run j => subst hi; exact solo_step w _
        · left
          have h1 : (w.step e).sys = w.sys := hq [] e es rfl hi
          rw [step_procs_other w e i hi, h1]
      rcases hone with h1 | h1
      · rcases hs with h2 | h2
        · exact Or.inl (h2.trans h1)
        · exact Or.inr h2
      · right
        have : ∀ (es : List Move) (w : Machine), Move.kill i ∉ es → w.procs i = .ret (some .locked) →
            (w.runs es).procs i = .ret (some .locked) := by
          intro es
          induction es with
          | nil => intro w _ h; exact h
          | cons e es ih2 =>
            intro w hk h
            exact ih2 _ (fun h' => hk (List.mem_cons_of_mem _ h'))
              (locked_stays w i e (fun h' => hk (h' ▸ List.mem_cons_self ..)) h)
        exact this es _ hk2 h1
  rcases key with h | h
  · right; rw [hr] at h; exact h
  · left; rw [hr] at h; simpa using h

/-- C15 for a pkgadd process, in terms of the sequential `pkgadd`. -/
theorem C15_pkgadd_partial (w : Machine) (i : Nat) (es : List Move) (r : Option Err) (env : Env) (rules : List Rule)
    (opts : Opts) (a : Archive) (hp : w.procs i = addProg env rules opts a)
    (hk : Move.kill i ∉ es)
    (hq : ∀ es1 e es2, es = es1 ++ e :: es2 → e.pid ≠ i → ((w.runs es1).step e).sys = (w.runs es1).sys)
    (hr : (w.runs es).procs i = .ret r) :
    r = some .locked ∨
      ((w.runs es).sys, r) = pkgadd { env with lockForce := true, lockUpgrade := true, lockInstall := true } rules opts a w.sys := by
  have h := C15_undisturbed_partial w i es r hk hq hr
  rw [hp] at h
  have he : addProg env rules opts a =
      addProg { env with lockForce := true, lockUpgrade := true, lockInstall := true } rules opts a := rfl
  rw [he, solo_add _ _ _ _ _ rfl rfl rfl] at h
  exact h

/-- C15 for a pkgrm process, in terms of the sequential `pkgrm`. -/
theorem C15_pkgrm_partial (w : Machine) (i : Nat) (es : List Move) (r : Option Err) (sc : RmScripts) (name : Str)
    (hp : w.procs i = rmProg sc name) (hk : Move.kill i ∉ es)
    (hq : ∀ es1 e es2, es = es1 ++ e :: es2 → e.pid ≠ i → ((w.runs es1).step e).sys = (w.runs es1).sys)
    (hr : (w.runs es).procs i = .ret r) :
    r = some .locked ∨ ((w.runs es).sys, r) = pkgrm false sc name w.sys := by
  have h := C15_undisturbed_partial w i es r hk hq hr
  rwa [hp, solo_rm] at h

/-- A schedule meeting the hypotheses: the pkgadd of `xProcs` reads, is refused, ends; the pkgrm finishes. -/
example : let es := steps 0 3 ++ steps 1 5 ++ steps 0 3
    ((Machine.mk xSys [] xProcs).runs es).procs 0 = .ret none ∧
    ((Machine.mk xSys [] xProcs).runs es).procs 1 = .ret (some .locked) ∧ Move.kill 0 ∉ es :=
  ⟨rfl, rfl, by simp [steps, List.mem_replicate]⟩

/-- **C15 fails** (deletion on stale data): pkgrm of foo loads the database, a forced pkgadd of bar then takes the file `a` over,
then pkgrm takes the lock and deletes the file, since its memory still says that foo alone owns it. Both commands report
success; bar's record lists a file that is gone. Run one after the other, in either order, the file stays. -/
theorem C15_stale_data_deletes : ∃ (s : Sys) (procs : Nat → Prog) (es : List Move) (a : Archive) (opts : Opts),
    procs 0 = rmProg lkScripts "foo".toList ∧ procs 1 = addProg xEnv [] opts a ∧ a.name = "bar".toList ∧
    ((Machine.mk s [] procs).runs es).procs 0 = .ret none ∧ ((Machine.mk s [] procs).runs es).procs 1 = .ret none ∧
    ((mget ((Machine.mk s [] procs).runs es).sys.disk "bar".toList).map Info.files) = some ["a".toList] ∧
    ((Machine.mk s [] procs).runs es).sys.fs.exist "a".toList = false ∧
    (pkgadd xEnv [] opts a (pkgrm false lkScripts "foo".toList s).1).1.fs.exist "a".toList = true ∧
    (pkgrm false lkScripts "foo".toList (pkgadd xEnv [] opts a s).1).1.fs.exist "a".toList = true := by
  refine ⟨{ fs := [(["a".toList], .file "x".toList 0o600)],
            disk := [("foo".toList, { md := ["Nfoo".toList], files := ["a".toList] })] },
    fun i => if i = 0 then rmProg lkScripts "foo".toList
      else if i = 1 then addProg xEnv [] { xOpts with force := true } (xArch "bar" ["a"]) else .dead,
    steps 0 1 ++ steps 1 15 ++ steps 0 10, xArch "bar" ["a"], { xOpts with force := true }, rfl, rfl, rfl, rfl, rfl,
    by decide, by decide, by decide, by decide⟩

/-- **C15 fails** (conflict check on stale data): two pkgadd of different packages with a common file both look for conflicts
before either takes the lock. Both succeed without --force and the file is owned by both. -/
theorem C15_stale_data_conflict : ∃ (s : Sys) (procs : Nat → Prog) (es : List Move),
    procs 0 = addProg xEnv [] xOpts (xArch "foo" ["a"]) ∧ procs 1 = addProg xEnv [] xOpts (xArch "bar" ["a"]) ∧
    ((Machine.mk s [] procs).runs es).procs 0 = .ret none ∧ ((Machine.mk s [] procs).runs es).procs 1 = .ret none ∧
    ((mget ((Machine.mk s [] procs).runs es).sys.disk "foo".toList).map Info.files) = some ["a".toList] ∧
    ((mget ((Machine.mk s [] procs).runs es).sys.disk "bar".toList).map Info.files) = some ["a".toList] := by
  refine ⟨{ fs := [], disk := [] },
    fun i => if i = 0 then addProg xEnv [] xOpts (xArch "foo" ["a"])
      else if i = 1 then addProg xEnv [] xOpts (xArch "bar" ["a"]) else .dead,
    steps 0 3 ++ steps 1 3 ++ steps 0 10 ++ steps 1 10, rfl, rfl, rfl, rfl, by decide, by decide⟩

end Cards.Props
