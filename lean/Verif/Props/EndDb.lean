import Verif.Props.EndOrder
/-!
# C241: the records after a port is upgraded
-/
namespace Cards.Props
open Cards Cards.Spec

/-- Every step is with a package of the build. -/
theorem adds_built {pkgs : List (Str × Tar)} {machine root : Str} {pre : Str → Fs → Fs × Bool} {post : Str → Fs → Fs} {env : Env} {rules : List Rule} {l : List Str} {s s' : Sys}
    (h : AddsAll pkgs machine root pre post env rules l s s') : ∀ f ∈ l, ∃ t, (f, t) ∈ pkgs := by
  induction h with
  | nil s => intro f hf; cases hf
  | cons f t a opts l s s' hf _ _ _ _ ih =>
    intro f' hf'
    rcases List.mem_cons.mp hf' with h | h
    · exact ⟨t, h ▸ hf⟩
    · exact ih f' h

/-- The records of packages with other names stay. -/
theorem C241_others_recorded (port : Str → Option Str) (md file : Str → Str) (groups locales : List Str) (keepLa : Bool) (pkg : Fs) (pkgs : List (Str × Tar))
    (hb : Built pkg) (hrun : buildPort port md file groups locales keepLa pkg = some pkgs) (hnames : ∀ e ∈ pkgs, ∃ n, NamedIn (md e.1) n)
    (hfull : ∀ e ∈ pkgs, ∃ m ∈ e.2, (m.1.head?.bind List.head?) ≠ some '.')
    (machine root : Str) (pre : Str → Fs → Fs × Bool) (post : Str → Fs → Fs)
    (env : Env) (rules : List Rule) (l : List Str) (s s' : Sys) (h : AddsAll pkgs machine root pre post env rules l s s') (hw : WF s.disk)
    (n : Str) (hn : ∀ f ∈ l, ¬ NamedIn (md f) n) (g : Str) : Owns s'.disk n g ↔ Owns s.disk n g := by
  induction h with
  | nil s => exact Iff.rfl
  | cons f t a opts l s s' hf ho hforce hok _ ih =>
    obtain ⟨n', hn'⟩ := hnames _ hf
    obtain ⟨d, d1, d2, _⟩ := built_open hb hrun hf (hfull _ hf) hn' machine root (pre f) (post f)
    rw [ho] at d1
    cases d1
    have hne : n ≠ a.name := by
      rw [d2]
      rintro rfl
      exact hn f (by simp) hn'
    exact (ih (pkgadd_disk env rules opts a s hw).1 (fun f' hf' => hn f' (by simp [hf']))).trans (upgrade_others hw hforce hok hne)

/-- **C241**: packages of one build are installed or upgraded, in whatever order, each once, every step successful and not forced. Each is then recorded with exactly the files
its package file ships that no rule excludes, and the records of all other packages are what they were (`C241_others_recorded`). -/
theorem C241_recorded (port : Str → Option Str) (md file : Str → Str) (groups locales : List Str) (keepLa : Bool) (pkg : Fs) (pkgs : List (Str × Tar))
    (hb : Built pkg) (hrun : buildPort port md file groups locales keepLa pkg = some pkgs) (hnames : ∀ e ∈ pkgs, ∃ n, NamedIn (md e.1) n)
    (hfull : ∀ e ∈ pkgs, ∃ m ∈ e.2, (m.1.head?.bind List.head?) ≠ some '.') (hdiff : (pkgs.map (·.1)).Nodup)
    (hapart : ∀ e ∈ pkgs, ∀ e' ∈ pkgs, ∀ n, NamedIn (md e.1) n → NamedIn (md e'.1) n → e.1 = e'.1)
    (machine root : Str) (pre : Str → Fs → Fs × Bool) (post : Str → Fs → Fs)
    (env : Env) (rules : List Rule) (l : List Str) (hl : l.Nodup) (s s' : Sys) (h : AddsAll pkgs machine root pre post env rules l s s') (hw : WF s.disk)
    (f n : Str) (t : Tar) (hf : f ∈ l) (hft : (f, t) ∈ pkgs) (hn : NamedIn (md f) n) :
    ∃ a, openTar machine root (pre f) (post f) t = .ok a ∧ a.name = n ∧ ∀ g, Owns s'.disk n g ↔ Ships env.rx rules a g := by
  induction h with
  | nil s => cases hf
  | cons f' t' a' opts l s s' hf' ho hforce hok hrest ih =>
    obtain ⟨hnl, hl'⟩ := List.nodup_cons.mp hl
    by_cases hff : f = f'
    · subst hff
      have htt : t' = t := (Prod.mk.inj (List.inj_on_of_nodup_map hdiff hf' hft rfl)).2
      subst htt
      obtain ⟨d, d1, d2, _⟩ := built_open hb hrun hf' (hfull _ hf') hn machine root (pre f) (post f)
      rw [ho] at d1
      cases d1
      refine ⟨a', ho, d2, ?_⟩
      intro g
      have hothers : ∀ f' ∈ l, ¬ NamedIn (md f') n := by
        intro f' hf2 hn'
        have hmem : ∃ t, (f', t) ∈ pkgs := adds_built hrest f' hf2
        obtain ⟨t2, ht2⟩ := hmem
        have := hapart _ hft _ ht2 n hn hn'
        simp only at this
        exact hnl (this ▸ hf2)
      rw [C241_others_recorded port md file groups locales keepLa pkg pkgs hb hrun hnames hfull machine root pre post env rules l _ _ hrest
        (pkgadd_disk env rules opts a' s hw).1 n hothers g, ← d2]
      exact added_owns hw hok
    · have hf2 : f ∈ l := by
        rcases List.mem_cons.mp hf with h | h
        · exact absurd h hff
        · exact h
      exact ih hl' (pkgadd_disk env rules opts a' s hw).1 hf2

/-! ### A case -/

/-- The old whole port, then both packages of the next build: the records. -/
def xRecords (w a a' : Archive) : List (Str × List Str) :=
  let s := pkgadd xEnv [] xOpts w xNothing
  let s2 := pkgadd xEnv [] { xOpts with upgrade := true } a s.1
  let s3 := pkgadd xEnv [] xOpts a' s2.1
  if s.2.isNone && s2.2.isNone && s3.2.isNone then s3.1.disk.map (fun e => (e.1, e.2.files)) else []

example : xWhole.bind (fun w => xPack2.bind (fun a => xDevel2.map (xRecords w a))) =
    some [("tool".toList, ["usr/".toList, "usr/bin/".toList, "usr/bin/tool2".toList]), ("tool.devel".toList, ["usr/include/".toList, "usr/include/tool.h".toList])] := by
  decide +kernel

end Cards.Props
