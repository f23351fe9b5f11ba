import Verif.Props.EndMove
import Verif.Props.EndAll
/-!
# C237: a port upgraded as a whole
-/
namespace Cards.Props
open Cards Cards.Spec

/-- The packages with these file names are installed or upgraded, one after the other, each successfully, without `--force`. -/
inductive AddsAll (pkgs : List (Str × Tar)) (machine root : Str) (pre : Str → Fs → Fs × Bool) (post : Str → Fs → Fs) (env : Env) (rules : List Rule) :
    List Str → Sys → Sys → Prop
  | nil (s : Sys) : AddsAll pkgs machine root pre post env rules [] s s
  | cons (f : Str) (t : Tar) (a : Archive) (opts : Opts) (l : List Str) (s s' : Sys) : (f, t) ∈ pkgs → openTar machine root (pre f) (post f) t = .ok a →
      opts.force = false → (pkgadd env rules opts a s).2 = none → AddsAll pkgs machine root pre post env rules l (pkgadd env rules opts a s).1 s' →
      AddsAll pkgs machine root pre post env rules (f :: l) s s'

/-- What a step without `--force` does at a place below and at which it has nothing. -/
theorem add_aside {env : Env} {rules : List Rule} {opts : Opts} {a : Archive} {s : Sys} {k : List Str} (hw : WF s.disk)
    (hforce : opts.force = false) (hok : (pkgadd env rules opts a s).2 = none) (hq : ∀ fs, (a.pre fs).1 = fs ∧ a.post fs = fs)
    (hent : ∀ e ∈ a.entries, ¬ k <+: comps e.path) (haway : AwayFromRejected k) :
    ((pkgadd env rules opts a s).1.fs.get k = s.fs.get k ∨ (pkgadd env rules opts a s).1.fs.get k = none) ∧
    ((∀ g, Owns s.disk a.name g → comps g ≠ k) → (pkgadd env rules opts a s).1.fs.get k = s.fs.get k) := by
  have hconf : conflicts (stPre opts a s) a.name (shipped env rules a) = [] := by
    obtain ⟨_, h2, _⟩ := pkgadd_disk env rules opts a s hw
    by_cases hc : conflicts (stPre opts a s) a.name (shipped env rules a) = []
    · exact hc
    · exact absurd ((h2 hok).1 hc) (by rw [hforce]; simp)
  have hst : stForce env rules opts a s = stPre opts a s := by
    unfold stForce forcePhase conf
    rw [hconf]; rfl
  have hpre : (stForce env rules opts a s).fs = s.fs := by
    rw [hst]
    show fsPre opts a s = s.fs
    unfold fsPre preRun
    split
    · exact (hq _).1
    · rfl
  have h1 : fsEnd env rules opts a s = fsNew env rules opts a s := by
    unfold fsEnd
    split
    · exact (hq _).2
    · rfl
  have h2 : (pkgadd env rules opts a s).1.fs.get k = (fsOld env rules opts a s).get k := by
    rw [(pkgadd_fs env rules opts a s).1 hok, h1]
    unfold fsNew
    exact installArchive_ne env _ _ _ _ _ haway.1 haway.2 (fun e he _ => hent e he)
  rw [h2]
  unfold fsOld
  split
  · rw [hpre]
    refine ⟨?_, ?_⟩
    · rcases Fs.removeRev_le (toDelete (stForce env rules opts a s).mem a.name (keepFileList env.rx (shipped env rules a) rules)) s.fs k with h' | h'
      · exact Or.inl h'
      · exact Or.inr h'
    · intro hno
      refine Fs.removeRev_ne _ _ _ ?_
      intro g hg
      exact hno g (mem_toDelete_force hw hg).1
  · rw [hpre]
    exact ⟨Or.inl rfl, fun _ => rfl⟩

/-- What such a step records for the package itself. -/
theorem added_owns {env : Env} {rules : List Rule} {opts : Opts} {a : Archive} {s : Sys} (hw : WF s.disk) (hok : (pkgadd env rules opts a s).2 = none) {g : Str} :
    Owns (pkgadd env rules opts a s).1.disk a.name g ↔ Ships env.rx rules a g := by
  obtain ⟨h1, h2, _⟩ := pkgadd_disk env rules opts a s hw
  obtain ⟨_, _, dep, g3, _⟩ := h2 hok
  rw [owns_iff_mget h1, g3]
  constructor
  · rintro ⟨i, hi, hf⟩
    cases hi
    exact mem_shipped.mp hf
  · intro h
    exact ⟨_, rfl, mem_shipped.mpr h⟩

/-- Nothing shipped was in the way. -/
theorem added_free {env : Env} {rules : List Rule} {opts : Opts} {a : Archive} {s : Sys} (hw : WF s.disk) (hforce : opts.force = false)
    (hok : (pkgadd env rules opts a s).2 = none) (hq : ∀ fs, (a.pre fs).1 = fs) {g : Str} (hg : Ships env.rx rules a g) : ¬ InTheWay s.disk s.fs a.name g := by
  intro hway
  have hconf : conflicts (stPre opts a s) a.name (shipped env rules a) = [] := by
    obtain ⟨_, h2, _⟩ := pkgadd_disk env rules opts a s hw
    by_cases hc : conflicts (stPre opts a s) a.name (shipped env rules a) = []
    · exact hc
    · exact absurd ((h2 hok).1 hc) (by rw [hforce]; simp)
  have hpre : fsPre opts a s = s.fs := by
    unfold fsPre preRun
    split
    · exact hq _
    · rfl
  have : g ∈ conflicts (stPre opts a s) a.name (shipped env rules a) := by
    rw [mem_conflicts_spec (show WF (stPre opts a s).mem from hw)]
    refine ⟨mem_shipped.mpr hg, ?_⟩
    show InTheWay s.disk (fsPre opts a s) a.name g
    rw [hpre]; exact hway
  rw [hconf] at this
  cases this

section
variable {port : Str → Option Str} {md file : Str → Str} {groups locales : List Str} {keepLa : Bool} {pkg : Fs} {pkgs : List (Str × Tar)}
  {machine root : Str} {pre : Str → Fs → Fs × Bool} {post : Str → Fs → Fs} {env : Env} {rules : List Rule}

/-- At the place of a file of the build that belongs to another package of it, a package of the build has nothing and comes to own nothing. -/
theorem other_step (hb : Built pkg) (hrun : buildPort port md file groups locales keepLa pkg = some pkgs) (hnames : ∀ e ∈ pkgs, ∃ n, NamedIn (md e.1) n)
    (hfull : ∀ e ∈ pkgs, ∃ m ∈ e.2, (m.1.head?.bind List.head?) ≠ some '.') (hquiet : ∀ f fs, (pre f fs).1 = fs ∧ post f fs = fs)
    {f : Str} {t : Tar} (hf : (f, t) ∈ pkgs) {k : List Str} {c : Str} {p : Nat}
    (hk : (k, Node.file c p) ∈ pkg) (hkt : (k, Node.file c p) ∈ t) (hv : visible k = true) (haway : AwayFromRejected k)
    {f' : Str} {t' : Tar} {a' : Archive} {opts : Opts} (hf' : (f', t') ∈ pkgs) (hne : f ≠ f') (ho : openTar machine root (pre f') (post f') t' = .ok a') {s : Sys}
    (hw : WF s.disk) (hforce : opts.force = false) (hok : (pkgadd env rules opts a' s).2 = none) :
    ((pkgadd env rules opts a' s).1.fs.get k = s.fs.get k ∨ (pkgadd env rules opts a' s).1.fs.get k = none) ∧
    ((∀ g, Owns s.disk a'.name g → comps g ≠ k) → (pkgadd env rules opts a' s).1.fs.get k = s.fs.get k) ∧
    (∀ g, Owns (pkgadd env rules opts a' s).1.disk a'.name g → comps g ≠ k) ∧
    (∀ n, n ≠ a'.name → ∀ g, Owns (pkgadd env rules opts a' s).1.disk n g ↔ Owns s.disk n g) ∧ WF (pkgadd env rules opts a' s).1.disk := by
  obtain ⟨n', hn'⟩ := hnames _ hf'
  obtain ⟨b, b1, _, b3, b4, _, b6, b7⟩ := built_open hb hrun hf' (hfull _ hf') hn' machine root (pre f') (post f')
  rw [ho] at b1; cases b1
  have habs : ∀ c' p', (k, Node.file c' p') ∉ t' := fun c' p' =>
    C228_no_common_file port md file groups locales keepLa pkg pkgs hb hrun f f' t t' hf hf' hne k hv c c' p p' hkt
  have hnone := no_entry_at hb hrun hf' hk hv habs
  have hent : ∀ x ∈ a'.entries, ¬ k <+: comps x.path := by
    intro x hx
    obtain ⟨m, hmt, hcase⟩ := b7 x hx
    have : comps x.path = m.1 := by
      rcases hcase with ⟨hm, _, _, rfl⟩ | ⟨_, om, _, rfl⟩
      · exact (memberName_facts (hb.names m hm)).2.1
      · exact (memberName_facts om).2.1
    rw [this]
    exact hnone m hmt
  obtain ⟨c1, c2⟩ := add_aside hw hforce hok (fun fs => by rw [b3, b4]; exact hquiet f' fs) hent haway
  refine ⟨c1, c2, ?_, fun n hn g => upgrade_others hw hforce hok hn, (pkgadd_disk env rules opts a' s hw).1⟩
  intro g hg hgk
  have hsh := (added_owns hw hok).mp hg
  obtain ⟨e, he, het, _, rfl⟩ := b6 g ⟨hsh.1, hsh.2.1⟩
  rw [(memberName_facts (hb.names e he)).2.1] at hgk
  exact hnone e het (hgk ▸ List.prefix_refl _)

/-- Once the file of a package is there, and only that package has a record of something at its place, steps of other packages leave all that alone. -/
theorem others_added (hb : Built pkg) (hrun : buildPort port md file groups locales keepLa pkg = some pkgs) (hnames : ∀ e ∈ pkgs, ∃ n, NamedIn (md e.1) n)
    (hfull : ∀ e ∈ pkgs, ∃ m ∈ e.2, (m.1.head?.bind List.head?) ≠ some '.') (hquiet : ∀ f fs, (pre f fs).1 = fs ∧ post f fs = fs)
    (hapart : ∀ e ∈ pkgs, ∀ e' ∈ pkgs, ∀ n, NamedIn (md e.1) n → NamedIn (md e'.1) n → e.1 = e'.1)
    {f : Str} {t : Tar} (hf : (f, t) ∈ pkgs) {n : Str} (hn : NamedIn (md f) n) {k : List Str} {c : Str} {p : Nat}
    (hk : (k, Node.file c p) ∈ pkg) (hkt : (k, Node.file c p) ∈ t) (hv : visible k = true) (haway : AwayFromRejected k)
    {l : List Str} {s s' : Sys} (h : AddsAll pkgs machine root pre post env rules l s s') (hl : f ∉ l) (hw : WF s.disk)
    (hmine : Owns s.disk n (pathText k)) (halone : ∀ n', n' ≠ n → ∀ g, Owns s.disk n' g → comps g ≠ k) :
    s'.fs.get k = s.fs.get k ∧ ∀ n', Owns s'.disk n' (pathText k) ↔ n' = n := by
  have hck : comps (pathText k) = k := (memberName_facts (m := (k, Node.file c p)) (hb.names _ hk)).2.1
  induction h with
  | nil s =>
    refine ⟨rfl, fun n' => ⟨fun h => ?_, fun h => h ▸ hmine⟩⟩
    by_contra hne
    exact halone n' hne _ h hck
  | cons f' t' a' opts l s s' hf' ho hforce hok _ ih =>
    rw [List.mem_cons, not_or] at hl
    obtain ⟨_, c2, c3, c4, c5⟩ := other_step hb hrun hnames hfull hquiet hf hk hkt hv haway hf' hl.1 ho hw hforce hok
    have hna : a'.name ≠ n := by
      obtain ⟨n', hn'⟩ := hnames _ hf'
      obtain ⟨b, b1, b2, _⟩ := built_open hb hrun hf' (hfull _ hf') hn' machine root (pre f') (post f')
      rw [ho] at b1; cases b1
      rw [b2]
      rintro rfl
      exact hl.1 (hapart _ hf _ hf' _ hn hn')
    obtain ⟨i1, i2⟩ := ih hl.2 c5 ((c4 n hna.symm _).mpr hmine) (by
      intro n' hn' g hg
      by_cases h : n' = a'.name
      · subst h; exact c3 g hg
      · exact halone n' hn' g ((c4 n' h g).mp hg))
    exact ⟨i1.trans (c2 (halone _ hna)), i2⟩

end

/-- **C237**: packages of one build are installed or upgraded, in whatever order, each once, every step successful and not forced, on a system where older packages of the port
may be installed. Then every file of the build that belongs to one of them is on the disk with the content and the permissions the build gave it, and is recorded as that
package's and no other's. -/
theorem C237_all_upgraded (port : Str → Option Str) (md file : Str → Str) (groups locales : List Str) (keepLa : Bool) (pkg : Fs) (pkgs : List (Str × Tar))
    (hb : Built pkg) (hrun : buildPort port md file groups locales keepLa pkg = some pkgs) (hnames : ∀ e ∈ pkgs, ∃ n, NamedIn (md e.1) n)
    (hfull : ∀ e ∈ pkgs, ∃ m ∈ e.2, (m.1.head?.bind List.head?) ≠ some '.') (hdiff : (pkgs.map (·.1)).Nodup)
    (hapart : ∀ e ∈ pkgs, ∀ e' ∈ pkgs, ∀ n, NamedIn (md e.1) n → NamedIn (md e'.1) n → e.1 = e'.1)
    (machine root : Str) (pre : Str → Fs → Fs × Bool) (post : Str → Fs → Fs) (hquiet : ∀ f fs, (pre f fs).1 = fs ∧ post f fs = fs)
    (env : Env) (rules : List Rule) (l : List Str) (hl : l.Nodup)
    (s s' : Sys) (h : AddsAll pkgs machine root pre post env rules l s s') (hw : WF s.disk)
    (k : List Str) (c : Str) (p : Nat) (hk : (k, Node.file c p) ∈ pkg) (g : Str) (hdest : Dest groups locales keepLa k (some g)) (hg : file g ∈ l)
    (haway : AwayFromRejected k) (hex : ¬ Excluded env.rx rules (pathText k)) (hprot : ¬ Protected env.rx rules (pathText k)) (hfails : env.extractFails k = false)
    (hdir : ∀ m, s.fs.get k ≠ some (.dir m)) (hone : ∀ n n', Owns s.disk n (pathText k) → Owns s.disk n' (pathText k) → n = n')
    (hplain : ∀ n f, Owns s.disk n f → comps f = k → f = pathText k) :
    s'.fs.get k = some (.file c p) ∧ ∃ n, NamedIn (md (file g)) n ∧ ∀ n', Owns s'.disk n' (pathText k) ↔ n' = n := by
  have hck : comps (pathText k) = k := (memberName_facts (m := (k, Node.file c p)) (hb.names _ hk)).2.1
  obtain ⟨t, hft, hkt, hv⟩ : ∃ t, (file g, t) ∈ pkgs ∧ (k, Node.file c p) ∈ t ∧ visible k = true := by
    obtain ⟨archs, hs, h1, _⟩ := build_at hb hrun
    obtain ⟨b1, b2, b3⟩ := built_alone hb hk
    have hcount := C93_split_exact_partial groups locales keepLa (treeOf pkg) archs hs ⟨k, false⟩ b1 rfl b2 (some g) hdest g
    rw [if_pos rfl] at hcount
    have hin : (⟨k, false⟩ : PEnt) ∈ (mget archs g).getD [] := List.count_pos_iff.mp (by rw [hcount]; exact Nat.one_pos)
    obtain ⟨es, hes⟩ : ∃ es, mget archs g = some es := by
      cases hm : mget archs g with
      | none => rw [hm] at hin; cases hin
      | some es => exact ⟨es, rfl⟩
    rw [hes] at hin
    have ha := (mget_iff_mem (split_shown hs).1).mp hes
    obtain ⟨t', ht', hfin⟩ := h1 g es ha
    have hv : visible k = true := (split_shown hs).2 g es ha _ hin
    refine ⟨t', ht', (hfin.files k _ hv).mpr (Or.inl (List.mem_map.mpr ⟨_, hin, ?_⟩)), hv⟩
    simp only
    rw [(get_iff_mem hb.once _ _).mpr hk]; rfl
  induction h with
  | nil s => cases hg
  | cons f' t' a' opts l s s' hf' ho hforce hok hrest ih =>
    obtain ⟨hnl, hl'⟩ := List.nodup_cons.mp hl
    by_cases hff : file g = f'
    · subst hff
      have htt : t' = t := (Prod.mk.inj (List.inj_on_of_nodup_map hdiff hf' hft rfl)).2
      subst htt
      obtain ⟨n, hn⟩ := hnames _ hft
      obtain ⟨t2, b, b0, b1, b2, b3⟩ := C227_file_installed port md file groups locales keepLa pkg pkgs hb hrun k c p hk g hdest n hn machine root (pre (file g)) (post (file g))
      have htt : t2 = t' := (Prod.mk.inj (List.inj_on_of_nodup_map hdiff b0 hft rfl)).2
      subst htt
      rw [ho] at b1
      cases b1
      obtain ⟨d, d1, _, d3, d4, _⟩ := built_open hb hrun hft (hfull _ hft) hn machine root (pre (file g)) (post (file g))
      rw [ho] at d1
      cases d1
      obtain ⟨o1, o2⟩ := b3 env rules opts s hw hok hex
      have hdisk := o2 hfails hdir haway (fun fs => by simp only; rw [(hquiet _ fs).1]) (fun fs => by rw [(hquiet _ fs).2]) (fun hp => hprot hp.2)
      rw [← b2] at o1 hn
      have hsh := (added_owns hw hok).mp o1
      have halone : ∀ n', n' ≠ a'.name → ∀ x, Owns (pkgadd env rules opts a' s).1.disk n' x → comps x ≠ k := by
        intro n' hn' x hx hxk
        have hx0 := (upgrade_others hw hforce hok hn').mp hx
        have := hplain n' x hx0 hxk
        subst this
        have hnd : ¬ IsDirName (pathText k) := by
          intro hd
          obtain ⟨q, hq⟩ := (memberName_facts (m := (k, Node.file c p)) (hb.names _ hk)).2.2.1.mp hd
          cases hq
        refine added_free hw hforce hok (fun fs => by rw [d3]; exact (hquiet _ fs).1) hsh ⟨hnd, Or.inl ⟨n', hn', hx0⟩, ?_⟩
        intro hown
        exact hn' (hone _ _ hx0 hown)
      obtain ⟨r1, r2⟩ := others_added hb hrun hnames hfull hquiet hapart hft hn hk hkt hv haway hrest hnl (pkgadd_disk env rules opts a' s hw).1 o1 halone
      exact ⟨r1.trans hdisk, _, hn, r2⟩
    · have hg' : file g ∈ l := by
        rcases List.mem_cons.mp hg with h | h
        · exact absurd h hff
        · exact h
      obtain ⟨c1, _, c3, c4, c5⟩ := other_step hb hrun hnames hfull hquiet hft hk hkt hv haway hf' hff ho hw hforce hok
      refine ih hl' c5 hg' ?_ ?_ ?_
      · intro m hm
        rcases c1 with h | h
        · rw [h] at hm; exact hdir m hm
        · rw [h] at hm; cases hm
      · intro n1 n2 h1 h2
        have q1 : n1 ≠ a'.name := fun h => by subst h; exact c3 _ h1 hck
        have q2 : n2 ≠ a'.name := fun h => by subst h; exact c3 _ h2 hck
        exact hone _ _ ((c4 n1 q1 _).mp h1) ((c4 n2 q2 _).mp h2)
      · intro n1 x h1 h2
        have q1 : n1 ≠ a'.name := fun h => by subst h; exact c3 _ h1 h2
        exact hplain _ _ ((c4 n1 q1 _).mp h1) h2

/-! ### A case -/

/-- The old whole port `tool` is there; `tool` is upgraded and `tool.devel` installed from a later build: the steps, and is the disk what was built? -/
example : ∃ t t', ("tool.cards-1-1".toList, t) ∈ (buildPort (fun _ => none) xBuiltMeta xBuiltFile ["devel".toList] [] false xBuiltFs).getD [] ∧
    ("tool.devel.cards-1-1".toList, t') ∈ (buildPort (fun _ => none) xBuiltMeta xBuiltFile ["devel".toList] [] false xBuiltFs).getD [] ∧
    ∃ s s', s.disk.map (fun e => (e.1, e.2.files)) = [("tool".toList, ["usr/".toList, "usr/bin/".toList, "usr/bin/tool".toList, "usr/include/".toList, "usr/include/tool.h".toList])] ∧
      AddsAll ((buildPort (fun _ => none) xBuiltMeta xBuiltFile ["devel".toList] [] false xBuiltFs).getD []) "x86_64".toList "/mnt".toList
        (fun _ fs => (fs, true)) (fun _ => id) xEnv [] ["tool.cards-1-1".toList, "tool.devel.cards-1-1".toList] s s' ∧
      s'.fs.get ["usr".toList, "include".toList, "tool.h".toList] = xBuiltFs.get ["usr".toList, "include".toList, "tool.h".toList] := by
  have h0 : xWhole.isSome := by decide +kernel
  have h1 : (xPack "tool.cards-1-1").isSome := by decide +kernel
  have h2 : (xPack "tool.devel.cards-1-1").isSome := by decide +kernel
  obtain ⟨w, hwh⟩ := Option.isSome_iff_exists.mp h0
  obtain ⟨a, ha⟩ := Option.isSome_iff_exists.mp h1
  obtain ⟨a', ha'⟩ := Option.isSome_iff_exists.mp h2
  obtain ⟨t, hmem, hb⟩ := opened_of_find ha
  obtain ⟨t', hmem', hb'⟩ := opened_of_find ha'
  have key : xWhole.all (fun w => (xPack "tool.cards-1-1").all (fun a => (xPack "tool.devel.cards-1-1").all (fun a' =>
      decide ((pkgadd xEnv [] xOpts w xNothing).1.disk.map (fun e => (e.1, e.2.files)) =
        [("tool".toList, ["usr/".toList, "usr/bin/".toList, "usr/bin/tool".toList, "usr/include/".toList, "usr/include/tool.h".toList])]) &&
      ((pkgadd xEnv [] { xOpts with upgrade := true } a (pkgadd xEnv [] xOpts w xNothing).1).2.isNone &&
      ((pkgadd xEnv [] xOpts a' (pkgadd xEnv [] { xOpts with upgrade := true } a (pkgadd xEnv [] xOpts w xNothing).1).1).2.isNone &&
      decide ((pkgadd xEnv [] xOpts a' (pkgadd xEnv [] { xOpts with upgrade := true } a (pkgadd xEnv [] xOpts w xNothing).1).1).1.fs.get ["usr".toList, "include".toList, "tool.h".toList] =
        xBuiltFs.get ["usr".toList, "include".toList, "tool.h".toList])))))) = true := by decide +kernel
  rw [hwh, ha, ha'] at key
  simp only [Option.all_some, Bool.and_eq_true, decide_eq_true_eq, Option.isNone_iff_eq_none] at key
  obtain ⟨k1, k2, k3, k4⟩ := key
  exact ⟨t, t', hmem, hmem', _, _, k1, AddsAll.cons _ t a _ _ _ _ hmem hb rfl k2 (AddsAll.cons _ t' a' _ _ _ _ hmem' hb' rfl k3 (AddsAll.nil _)), k4⟩

end Cards.Props
