import Verif.Props.EndUp
/-!
# C238: what a new build of a port no longer has is gone once the port is upgraded
-/
namespace Cards.Props
open Cards Cards.Spec

section
variable {port : Str → Option Str} {md file : Str → Str} {groups locales : List Str} {keepLa : Bool} {pkg : Fs} {pkgs : List (Str × Tar)}
  {machine root : Str} {pre : Str → Fs → Fs × Bool} {post : Str → Fs → Fs} {env : Env} {rules : List Rule}

/-- At a place where, and below which, the build has nothing, no package of it has an entry, and none of them ships a name of it. -/
theorem nothing_there (hb : Built pkg) (hrun : buildPort port md file groups locales keepLa pkg = some pkgs) (hnames : ∀ e ∈ pkgs, ∃ n, NamedIn (md e.1) n)
    (hfull : ∀ e ∈ pkgs, ∃ m ∈ e.2, (m.1.head?.bind List.head?) ≠ some '.') {k : List Str} (hno : ∀ e ∈ pkg, ¬ k <+: e.1)
    {f : Str} {t : Tar} {a : Archive} (hf : (f, t) ∈ pkgs) (ho : openTar machine root (pre f) (post f) t = .ok a) :
    (∀ e ∈ a.entries, ¬ k <+: comps e.path) ∧ ∀ x, Ships env.rx rules a x → comps x ≠ k := by
  obtain ⟨n, hn⟩ := hnames _ hf
  obtain ⟨b, b1, _, _, _, _, b6, b7⟩ := built_open hb hrun hf (hfull _ hf) hn machine root (pre f) (post f)
  rw [ho] at b1; cases b1
  refine ⟨?_, ?_⟩
  · intro e he hpre
    obtain ⟨m, _, hcase⟩ := b7 e he
    rcases hcase with ⟨hm, _, _, rfl⟩ | ⟨⟨q, hq, _, q2, _⟩, om, _, rfl⟩
    · simp only at hpre
      rw [(memberName_facts (hb.names m hm)).2.1] at hpre
      exact hno m hm hpre
    · simp only at hpre
      rw [(memberName_facts om).2.1] at hpre
      exact hno q hq (hpre.trans q2)
  · intro x hx hxk
    obtain ⟨e, he, _, _, rfl⟩ := b6 x ⟨hx.1, hx.2.1⟩
    rw [(memberName_facts (hb.names e he)).2.1] at hxk
    exact hno e he (hxk ▸ List.prefix_refl _)

/-- Nothing comes to such a place. -/
theorem stays_gone (hb : Built pkg) (hrun : buildPort port md file groups locales keepLa pkg = some pkgs) (hnames : ∀ e ∈ pkgs, ∃ n, NamedIn (md e.1) n)
    (hfull : ∀ e ∈ pkgs, ∃ m ∈ e.2, (m.1.head?.bind List.head?) ≠ some '.') (hquiet : ∀ f fs, (pre f fs).1 = fs ∧ post f fs = fs)
    {k : List Str} (hno : ∀ e ∈ pkg, ¬ k <+: e.1) (haway : AwayFromRejected k) {l : List Str} {s s' : Sys}
    (h : AddsAll pkgs machine root pre post env rules l s s') (hw : WF s.disk) (hk : s.fs.get k = none) : s'.fs.get k = none := by
  induction h with
  | nil s => exact hk
  | cons f t a opts l s s' hf ho hforce hok _ ih =>
    obtain ⟨n, hn⟩ := hnames _ hf
    obtain ⟨b, b1, _, b3, b4, _⟩ := built_open hb hrun hf (hfull _ hf) hn machine root (pre f) (post f)
    rw [ho] at b1; cases b1
    refine ih (pkgadd_disk env rules opts a s hw).1 ?_
    rcases (add_aside hw hforce hok (fun fs => by rw [b3, b4]; exact hquiet f fs) (nothing_there (env := env) (rules := rules) hb hrun hnames hfull hno hf ho).1 haway).1 with h | h
    · rw [h]; exact hk
    · exact h

end

/-- **C238**: packages of one build are installed or upgraded, in whatever order, each once, every step successful and not forced. A file that only a package of that name had
before, and at and below whose place the build has nothing, is gone afterwards and nobody's. -/
theorem C238_rest_gone (port : Str → Option Str) (md file : Str → Str) (groups locales : List Str) (keepLa : Bool) (pkg : Fs) (pkgs : List (Str × Tar))
    (hb : Built pkg) (hrun : buildPort port md file groups locales keepLa pkg = some pkgs) (hnames : ∀ e ∈ pkgs, ∃ n, NamedIn (md e.1) n)
    (hfull : ∀ e ∈ pkgs, ∃ m ∈ e.2, (m.1.head?.bind List.head?) ≠ some '.')
    (machine root : Str) (pre : Str → Fs → Fs × Bool) (post : Str → Fs → Fs) (hquiet : ∀ f fs, (pre f fs).1 = fs ∧ post f fs = fs)
    (env : Env) (rules : List Rule) (l : List Str) (s s' : Sys) (h : AddsAll pkgs machine root pre post env rules l s s') (hw : WF s.disk)
    (f n : Str) (hf : f ∈ l) (hn : NamedIn (md f) n) (g : Str) (hown : ∀ n', Owns s.disk n' g ↔ n' = n) (hnd : ¬ IsDirName g)
    (hdir : ∀ m, s.fs.get (comps g) ≠ some (.dir m)) (haway : AwayFromRejected (comps g)) (hno : ∀ e ∈ pkg, ¬ comps g <+: e.1) :
    s'.fs.get (comps g) = none ∧ ∀ n', ¬ Owns s'.disk n' g := by
  -- nobody's: once lost, it is not recorded again
  have lost : ∀ {l : List Str} {s s' : Sys}, AddsAll pkgs machine root pre post env rules l s s' → WF s.disk → (∀ n', ¬ Owns s.disk n' g) → ∀ n', ¬ Owns s'.disk n' g := by
    intro l s s' h
    induction h with
    | nil s => exact fun _ h => h
    | cons f t a opts l s s' hf ho hforce hok _ ih =>
      intro hw hnone
      refine ih (pkgadd_disk env rules opts a s hw).1 ?_
      intro n' h'
      by_cases hna : n' = a.name
      · subst hna
        exact (nothing_there (env := env) (rules := rules) hb hrun hnames hfull hno hf ho).2 g ((added_owns hw hok).mp h') rfl
      · exact hnone n' ((upgrade_others hw hforce hok hna).mp h')
  induction h with
  | nil s => cases hf
  | cons f' t' a' opts l s s' hf' ho hforce hok hrest ih =>
    obtain ⟨n1, hn1⟩ := hnames _ hf'
    obtain ⟨b, b1, b2, b3, b4, _⟩ := built_open hb hrun hf' (hfull _ hf') hn1 machine root (pre f') (post f')
    rw [ho] at b1; cases b1
    obtain ⟨hent, hships⟩ := nothing_there (env := env) (rules := rules) hb hrun hnames hfull hno hf' ho
    have hq : ∀ fs, (a'.pre fs).1 = fs ∧ a'.post fs = fs := fun fs => by rw [b3, b4]; exact hquiet f' fs
    have hw' := (pkgadd_disk env rules opts a' s hw).1
    by_cases hna : a'.name = n
    · subst hna
      have hup : opts.upgrade = true := by
        by_contra hu
        obtain ⟨_, h2, _⟩ := pkgadd_disk env rules opts a' s hw
        obtain ⟨_, _, dep, _, g4, _⟩ := h2 hok
        have := mget_none_iff.mpr (g4 (by simpa using hu)).2
        obtain ⟨i, hi, _⟩ := (owns_iff_mget hw).mp ((hown _).mpr rfl)
        rw [this] at hi; cases hi
      have hgone := upgrade_gone hw hup hforce hok (fun fs => by simp only; rw [(hq fs).1]) (fun fs => by rw [(hq fs).2])
        ⟨(hown _).mpr rfl, fun n' h' => (hown n').mp h'⟩ hnd hdir (fun h => hships g h rfl) hent haway
      refine ⟨stays_gone hb hrun hnames hfull hquiet hno haway hrest hw' hgone, lost hrest hw' ?_⟩
      intro n' h'
      by_cases hna : n' = a'.name
      · subst hna
        exact hships g ((added_owns hw hok).mp h') rfl
      · exact hna ((hown n').mp ((upgrade_others hw hforce hok hna).mp h'))
    · have hf2 : f ∈ l := by
        rcases List.mem_cons.mp hf with h | h
        · exfalso
          subst h
          obtain ⟨d, d1, d2, _⟩ := built_open hb hrun hf' (hfull _ hf') hn machine root (pre f) (post f)
          rw [ho] at d1; cases d1
          exact hna d2
        · exact h
      refine ih hw' hf2 ?_ ?_
      · intro n'
        by_cases h : n' = a'.name
        · subst h
          constructor
          · intro h'; exact absurd rfl (hships g ((added_owns hw hok).mp h'))
          · intro h'; exact absurd h' hna
        · exact (upgrade_others hw hforce hok h).trans (hown n')
      · intro m hm
        rcases (add_aside hw hforce hok hq hent haway).1 with h | h
        · rw [h] at hm; exact hdir m hm
        · rw [h] at hm; cases hm

/-! ### A case -/

/-- `usr/bin/tool` belongs to `tool` alone, the next build has nothing there, `tool` is upgraded to it: the theorem's hypotheses, and what it says. -/
example : ∃ t s s', ("tool.cards-1-1".toList, t) ∈ (buildPort (fun _ => none) xBuiltMeta xBuiltFile ["devel".toList] [] false xBuiltFs2).getD [] ∧
    s.disk.map (fun e => (e.1, e.2.files)) = [("tool".toList, ["usr/".toList, "usr/bin/".toList, "usr/bin/tool".toList])] ∧
    s.fs.get ["usr".toList, "bin".toList, "tool".toList] = xBuiltFs.get ["usr".toList, "bin".toList, "tool".toList] ∧
    (∀ e ∈ xBuiltFs2, ¬ ["usr".toList, "bin".toList, "tool".toList] <+: e.1) ∧
    AddsAll ((buildPort (fun _ => none) xBuiltMeta xBuiltFile ["devel".toList] [] false xBuiltFs2).getD []) "x86_64".toList "/mnt".toList
      (fun _ fs => (fs, true)) (fun _ => id) xEnv [] ["tool.cards-1-1".toList] s s' ∧
    s'.fs.get ["usr".toList, "bin".toList, "tool".toList] = none ∧ s'.disk.map (fun e => (e.1, e.2.files)) = [("tool".toList, ["usr/".toList, "usr/bin/".toList, "usr/bin/tool2".toList])] := by
  have h1 : (xPack "tool.cards-1-1").isSome := by decide +kernel
  have h2 : xPack2.isSome := by decide +kernel
  obtain ⟨a, ha⟩ := Option.isSome_iff_exists.mp h1
  obtain ⟨a2, ha2⟩ := Option.isSome_iff_exists.mp h2
  obtain ⟨t, hmem, hb⟩ := opened_of_find ha2
  have key : (xPack "tool.cards-1-1").all (fun a => xPack2.all (fun a2 =>
      decide ((pkgadd xEnv [] xOpts a xNothing).1.disk.map (fun e => (e.1, e.2.files)) = [("tool".toList, ["usr/".toList, "usr/bin/".toList, "usr/bin/tool".toList])]) &&
      (decide ((pkgadd xEnv [] xOpts a xNothing).1.fs.get ["usr".toList, "bin".toList, "tool".toList] = xBuiltFs.get ["usr".toList, "bin".toList, "tool".toList]) &&
      ((pkgadd xEnv [] { xOpts with upgrade := true } a2 (pkgadd xEnv [] xOpts a xNothing).1).2.isNone &&
      (decide ((pkgadd xEnv [] { xOpts with upgrade := true } a2 (pkgadd xEnv [] xOpts a xNothing).1).1.fs.get ["usr".toList, "bin".toList, "tool".toList] = none) &&
      decide ((pkgadd xEnv [] { xOpts with upgrade := true } a2 (pkgadd xEnv [] xOpts a xNothing).1).1.disk.map (fun e => (e.1, e.2.files)) =
        [("tool".toList, ["usr/".toList, "usr/bin/".toList, "usr/bin/tool2".toList])])))))) = true := by decide +kernel
  rw [ha, ha2] at key
  simp only [Option.all_some, Bool.and_eq_true, decide_eq_true_eq, Option.isNone_iff_eq_none] at key
  obtain ⟨k1, k2, k3, k4, k5⟩ := key
  exact ⟨t, _, _, hmem, k1, k2, by decide +kernel, AddsAll.cons _ t a2 _ _ _ _ hmem hb rfl k3 (AddsAll.nil _), k4, k5⟩

end Cards.Props
