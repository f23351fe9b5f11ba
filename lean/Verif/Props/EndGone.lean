import Verif.Props.EndAll
/-!
# C235: all packages of a build installed and removed
-/
namespace Cards.Props
open Cards Cards.Spec

/-- The packages with these names are removed, one after the other. -/
inductive RemovesAll (sc : RmScripts) : List Str → Sys → Sys → Prop
  | nil (s : Sys) : RemovesAll sc [] s s
  | cons (n : Str) (l : List Str) (s s' : Sys) : (pkgrm false sc n s).2 = none → RemovesAll sc l (pkgrm false sc n s).1 s' → RemovesAll sc (n :: l) s s'

theorem removes_none {sc : RmScripts} (hq : NoSideEffects sc) {l : List Str} {s s' : Sys} (h : RemovesAll sc l s s') {k : List Str} (hk : s.fs.get k = none) : s'.fs.get k = none := by
  induction h with
  | nil s => exact hk
  | cons n l s s' hok _ ih =>
    apply ih
    rw [(pkgrm_fs false sc n s).1 hok, (hq _).2, (hq _).1]
    rcases Fs.removeRev_le (toDelete s.disk n []) s.fs k with h | h
    · rw [h]; exact hk
    · exact h

/-- A file only one package has is gone when that package has been removed, whatever is removed besides. -/
theorem removes_gone {sc : RmScripts} (hq : NoSideEffects sc) {l : List Str} {s s' : Sys} (h : RemovesAll sc l s s') (hw : WF s.disk) {n f : Str} (hn : n ∈ l) (hd : ¬ IsDirName f)
    (hown : ∀ n', Owns s.disk n' f ↔ n' = n) (hfile : s.fs.get (comps f) = none ∨ ∃ c p, s.fs.get (comps f) = some (.file c p)) : s'.fs.get (comps f) = none := by
  induction h with
  | nil s => cases hn
  | cons x l s s' hok hrest ih =>
    rcases hfile with hfile | ⟨c, p, hfile⟩
    · refine removes_none hq hrest ?_
      rw [(pkgrm_fs false sc x s).1 hok, (hq _).2, (hq _).1]
      rcases Fs.removeRev_le (toDelete s.disk x []) s.fs (comps f) with h | h
      · rw [h]; exact hfile
      · exact h
    by_cases hx : x = n
    · subst hx
      refine removes_none hq hrest ?_
      exact C05_files_gone false sc x s hw f c p (fun fs => by simp only; rw [(hq fs).1]) (fun fs => by rw [(hq fs).2]) hok ⟨(hown x).mpr rfl, fun n' h => (hown n').mp h⟩ hd hfile
    · have hn' : n ∈ l := by
        rcases List.mem_cons.mp hn with h | h
        · exact absurd h.symm hx
        · exact h
      obtain ⟨d1, d2, d3, _⟩ := pkgrm_disk false sc x s hw
      refine ih d1 hn' ?_ ?_
      · intro n'
        by_cases h : n' = x
        · subst h
          constructor
          · intro ho
            rw [owns_iff_mget d1, d3 hok] at ho
            obtain ⟨_, hi, _⟩ := ho
            cases hi
          · intro h; exact absurd h hx
        · rw [owns_iff_mget d1, d2 n' h, ← owns_iff_mget hw]
          exact hown n'
      · rw [(pkgrm_fs false sc x s).1 hok, (hq _).2, (hq _).1]
        rcases Fs.removeRev_le (toDelete s.disk x []) s.fs (comps f) with h | h
        · right; exact ⟨c, p, h.trans hfile⟩
        · exact Or.inl h

theorem removes_db {sc : RmScripts} {l : List Str} {s s' : Sys} (h : RemovesAll sc l s s') (hw : WF s.disk) (n : Str) :
    mget s'.disk n = if n ∈ l then none else mget s.disk n := by
  induction h with
  | nil s => simp
  | cons x l s s' hok hrest ih =>
    obtain ⟨d1, d2, d3, _⟩ := pkgrm_disk false sc x s hw
    rw [ih d1]
    by_cases hl : n ∈ l
    · rw [if_pos hl, if_pos (List.mem_cons_of_mem _ hl)]
    · rw [if_neg hl]
      by_cases hx : n = x
      · subst hx
        rw [d3 hok]; simp
      · rw [d2 n hx, if_neg (by simp [hx, hl])]

section
variable {port : Str → Option Str} {md file : Str → Str} {groups locales : List Str} {keepLa : Bool} {pkg : Fs} {pkgs : List (Str × Tar)}
  {machine root : Str} {pre : Str → Fs → Fs × Bool} {post : Str → Fs → Fs} {env : Env} {rules : List Rule} {opts : Opts}

theorem installs_db (hb : Built pkg) (hrun : buildPort port md file groups locales keepLa pkg = some pkgs) (hnames : ∀ e ∈ pkgs, ∃ n, NamedIn (md e.1) n)
    (hfull : ∀ e ∈ pkgs, ∃ m ∈ e.2, (m.1.head?.bind List.head?) ≠ some '.') {l : List Str} {s s' : Sys}
    (h : InstallsAll pkgs machine root pre post env rules opts l s s') (hw : WF s.disk) (n : Str) :
    WF s'.disk ∧ ((∃ f ∈ l, NamedIn (md f) n) → mget s.disk n = none) ∧ ((∀ f ∈ l, ¬ NamedIn (md f) n) → mget s'.disk n = mget s.disk n) := by
  induction h with
  | nil s => 
    refine ⟨hw, ?_, fun _ => rfl⟩
    rintro ⟨f, hf, _⟩
    cases hf
  | cons f t a l s s' hf ho hfr _ ih =>
    obtain ⟨d1, d2, _⟩ := fresh_disk hfr
    obtain ⟨i1, i2, i3⟩ := ih d1
    have hname : ∀ x, NamedIn (md f) x → a.name = x := by
      intro x hx
      obtain ⟨b, b1, b2, _⟩ := built_open hb hrun hf (hfull _ hf) hx machine root (pre f) (post f)
      rw [ho] at b1
      cases b1
      exact b2
    have hself : ∃ x, NamedIn (md f) x := hnames _ hf
    refine ⟨i1, ?_, ?_⟩
    · rintro ⟨g, hg, hgn⟩
      by_cases hna : n = a.name
      · subst hna; exact fresh_absent hfr
      rcases List.mem_cons.mp hg with rfl | hg
      · exact absurd (hname n hgn).symm hna
      · rw [← d2 n hna]; exact i2 ⟨g, hg, hgn⟩
    · intro hno
      rw [i3 (fun g hg => hno g (List.mem_cons_of_mem _ hg))]
      refine d2 n ?_
      rintro rfl
      obtain ⟨x, hx⟩ := hself
      exact hno f (List.mem_cons_self ..) (hname x hx ▸ hx)

end

/-- **C235**: packages of a build are installed, in whatever order, and then all of them are removed, in whatever order. The database is as it was, and no file of the build
that belonged to one of them is on the disk. -/
theorem C235_all_removed (port : Str → Option Str) (md file : Str → Str) (groups locales : List Str) (keepLa : Bool) (pkg : Fs) (pkgs : List (Str × Tar))
    (hb : Built pkg) (hrun : buildPort port md file groups locales keepLa pkg = some pkgs) (hnames : ∀ e ∈ pkgs, ∃ n, NamedIn (md e.1) n)
    (hfull : ∀ e ∈ pkgs, ∃ m ∈ e.2, (m.1.head?.bind List.head?) ≠ some '.') (hdiff : (pkgs.map (·.1)).Nodup)
    (machine root : Str) (pre : Str → Fs → Fs × Bool) (post : Str → Fs → Fs) (env : Env) (rules : List Rule) (opts : Opts) (l : List Str) (hl : l.Nodup)
    (s s1 s2 : Sys) (hw : WF s.disk) (h : InstallsAll pkgs machine root pre post env rules opts l s s1) (sc : RmScripts) (hq : NoSideEffects sc) (ns : List Str)
    (hns : ∀ n, n ∈ ns ↔ ∃ f ∈ l, NamedIn (md f) n) (hrm : RemovesAll sc ns s1 s2) :
    (∀ n, mget s2.disk n = mget s.disk n) ∧
    ∀ k c p, (k, Node.file c p) ∈ pkg → ∀ g, Dest groups locales keepLa k (some g) → file g ∈ l → AwayFromRejected k → ¬ Excluded env.rx rules (pathText k) →
      env.extractFails k = false → (∀ m, s.fs.get k ≠ some (.dir m)) → s2.fs.get k = none := by
  refine ⟨?_, ?_⟩
  · intro n
    obtain ⟨i1, i2, i3⟩ := installs_db hb hrun hnames hfull h hw n
    rw [removes_db hrm i1]
    by_cases hn : n ∈ ns
    · rw [if_pos hn, i2 ((hns n).mp hn)]
    · rw [if_neg hn]
      exact i3 (fun f hf hfn => hn ((hns n).mpr ⟨f, hf, hfn⟩))
  · intro k c p hk g hdest hg haway hex hfails hdir
    obtain ⟨e1, n, hn, e2⟩ := C234_all_installed port md file groups locales keepLa pkg pkgs hb hrun hnames hfull hdiff machine root pre post env rules opts l hl s s1 h
      k c p hk g hdest hg haway hex hfails hdir
    obtain ⟨_, hcomps, hdn, _, _⟩ := memberName_facts (m := (k, Node.file c p)) (hb.names _ hk)
    have hc : comps (pathText k) = k := hcomps
    have := removes_gone hq hrm (installs_db hb hrun hnames hfull h hw n).1 (n := n) (f := pathText k) ((hns n).mpr ⟨_, hg, hn⟩) (by
      intro hd
      obtain ⟨q, hq'⟩ := hdn.mp hd
      cases hq') e2 (Or.inr ⟨c, p, by rw [hc]; exact e1⟩)
    rwa [hc] at this

/-! ### A case -/

/-- Both packages are installed, and both are removed: what is left of files, and of packages. -/
def xGone (a a' : Archive) (n n' : Str) : Bool × List Node × List Str :=
  let s := pkgadd xEnv [] xOpts a' (pkgadd xEnv [] xOpts a xNothing).1
  let r := pkgrm false noScripts n s.1
  let r2 := pkgrm false noScripts n' r.1
  (s.2.isNone && r.2.isNone && r2.2.isNone, (r2.1.fs.map (·.2)).filter (fun x => !x.isDir), r2.1.disk.map (·.1))

set_option synthInstance.maxSize 2000 in
example : (xPack "tool.cards-1-1").bind (fun a => (xPack "tool.devel.cards-1-1").map (fun a' => (xGone a a' a.name a'.name, xGone a a' a'.name a.name))) =
    some ((true, [], []), (true, [], [])) := by
  decide +kernel

end Cards.Props
