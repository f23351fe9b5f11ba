import Verif.Props.EndOnly
/-!
# C240: the order in which the packages of a port are upgraded does not matter
-/
namespace Cards.Props
open Cards Cards.Spec

/-- A place at and below which the build has nothing, and that no record of a package of its names holds, stays as it is. -/
theorem C240_others_untouched (port : Str → Option Str) (md file : Str → Str) (groups locales : List Str) (keepLa : Bool) (pkg : Fs) (pkgs : List (Str × Tar))
    (hb : Built pkg) (hrun : buildPort port md file groups locales keepLa pkg = some pkgs) (hnames : ∀ e ∈ pkgs, ∃ n, NamedIn (md e.1) n)
    (hfull : ∀ e ∈ pkgs, ∃ m ∈ e.2, (m.1.head?.bind List.head?) ≠ some '.')
    (machine root : Str) (pre : Str → Fs → Fs × Bool) (post : Str → Fs → Fs) (hquiet : ∀ f fs, (pre f fs).1 = fs ∧ post f fs = fs)
    (env : Env) (rules : List Rule) (l : List Str) (s s' : Sys) (h : AddsAll pkgs machine root pre post env rules l s s') (hw : WF s.disk)
    (k : List Str) (haway : AwayFromRejected k) (hno : ∀ e ∈ pkg, ¬ k <+: e.1)
    (hforeign : ∀ f ∈ l, ∀ n, NamedIn (md f) n → ∀ g, Owns s.disk n g → comps g ≠ k) :
    s'.fs.get k = s.fs.get k ∧ ∀ n g, comps g = k → (Owns s'.disk n g ↔ Owns s.disk n g) := by
  induction h with
  | nil s => exact ⟨rfl, fun _ _ _ => Iff.rfl⟩
  | cons f t a opts l s s' hf ho hforce hok _ ih =>
    obtain ⟨n, hn⟩ := hnames _ hf
    obtain ⟨d, d1, d2, d3, d4, _⟩ := built_open hb hrun hf (hfull _ hf) hn machine root (pre f) (post f)
    rw [ho] at d1
    cases d1
    obtain ⟨hent, hships⟩ := nothing_there (env := env) (rules := rules) hb hrun hnames hfull hno hf ho
    obtain ⟨_, c2⟩ := add_aside hw hforce hok (fun fs => by rw [d3, d4]; exact hquiet f fs) hent haway
    have hrec : ∀ n' g, comps g = k → (Owns (pkgadd env rules opts a s).1.disk n' g ↔ Owns s.disk n' g) := by
      intro n' g hg
      by_cases h : n' = a.name
      · subst h
        constructor
        · intro h'; exact absurd hg (hships g ((added_owns hw hok).mp h'))
        · intro h'; exact absurd hg (hforeign f (by simp) _ (d2 ▸ hn) g h')
      · exact upgrade_others hw hforce hok h
    obtain ⟨i1, i2⟩ := ih (pkgadd_disk env rules opts a s hw).1 (by
      intro f' hf' n' hn' g hg hgk
      exact hforeign f' (by simp [hf']) n' hn' g ((hrec n' g hgk).mp hg) hgk)
    refine ⟨i1.trans (c2 (fun g hg => hforeign f (by simp) _ (d2 ▸ hn) g hg)), ?_⟩
    intro n' g hg
    exact (i2 n' g hg).trans (hrec n' g hg)

/-- **C240**: the same packages of one build are installed or upgraded in two orders, on the same system, every step of both successful and not forced. At the place of a file of
the build that belongs to one of the packages the two systems have the same file; and at a place at and below which the build has nothing, too — if one of the packages alone
had it, it is gone in both, and if none had it, it is what it was. -/
theorem C240_order_immaterial (port : Str → Option Str) (md file : Str → Str) (groups locales : List Str) (keepLa : Bool) (pkg : Fs) (pkgs : List (Str × Tar))
    (hb : Built pkg) (hrun : buildPort port md file groups locales keepLa pkg = some pkgs) (hnames : ∀ e ∈ pkgs, ∃ n, NamedIn (md e.1) n)
    (hfull : ∀ e ∈ pkgs, ∃ m ∈ e.2, (m.1.head?.bind List.head?) ≠ some '.') (hdiff : (pkgs.map (·.1)).Nodup)
    (hapart : ∀ e ∈ pkgs, ∀ e' ∈ pkgs, ∀ n, NamedIn (md e.1) n → NamedIn (md e'.1) n → e.1 = e'.1)
    (machine root : Str) (pre : Str → Fs → Fs × Bool) (post : Str → Fs → Fs) (hquiet : ∀ f fs, (pre f fs).1 = fs ∧ post f fs = fs)
    (env : Env) (rules : List Rule) (l₁ l₂ : List Str) (hl : l₁.Nodup) (hperm : l₁.Perm l₂)
    (s s₁ s₂ : Sys) (h₁ : AddsAll pkgs machine root pre post env rules l₁ s s₁) (h₂ : AddsAll pkgs machine root pre post env rules l₂ s s₂) (hw : WF s.disk)
    (k : List Str) (haway : AwayFromRejected k) (hdir : ∀ m, s.fs.get k ≠ some (.dir m))
    (hone : ∀ n n' g g', Owns s.disk n g → Owns s.disk n' g' → comps g = k → comps g' = k → n = n' ∧ g = g' ∧ g = pathText k)
    (hcase : (∃ c p g, (k, Node.file c p) ∈ pkg ∧ Dest groups locales keepLa k (some g) ∧ file g ∈ l₁ ∧ ¬ Excluded env.rx rules (pathText k) ∧
        ¬ Protected env.rx rules (pathText k) ∧ env.extractFails k = false) ∨
      ((∀ e ∈ pkg, ¬ k <+: e.1) ∧ ∀ n g, Owns s.disk n g → comps g = k → ¬ IsDirName g)) :
    s₁.fs.get k = s₂.fs.get k := by
  rcases hcase with ⟨c, p, g, hk, hdest, hg, hex, hprot, hfails⟩ | ⟨hno, hnd⟩
  · have hck : comps (pathText k) = k := (memberName_facts (m := (k, Node.file c p)) (hb.names _ hk)).2.1
    have main : ∀ l s', l.Nodup → file g ∈ l → AddsAll pkgs machine root pre post env rules l s s' → s'.fs.get k = some (.file c p) := fun l s' hl hg h =>
      (C237_all_upgraded port md file groups locales keepLa pkg pkgs hb hrun hnames hfull hdiff hapart machine root pre post hquiet env rules l hl s s' h hw k c p hk g hdest hg
        haway hex hprot hfails hdir (fun n n' h h' => (hone n n' _ _ h h' hck hck).1) (fun n f h hf => (hone n n f f h h hf hf).2.2)).1
    rw [main l₁ s₁ hl hg h₁, main l₂ s₂ (hperm.nodup_iff.mp hl) (hperm.mem_iff.mp hg) h₂]
  · by_cases hmine : ∃ f ∈ l₁, ∃ n, NamedIn (md f) n ∧ ∃ g, Owns s.disk n g ∧ comps g = k
    · obtain ⟨f, hf, n, hn, g, hown, rfl⟩ := hmine
      have main : ∀ l s', f ∈ l → AddsAll pkgs machine root pre post env rules l s s' → s'.fs.get (comps g) = none := fun l s' hf h =>
        (C238_rest_gone port md file groups locales keepLa pkg pkgs hb hrun hnames hfull machine root pre post hquiet env rules l s s' h hw f n hf hn g
          (fun n' => ⟨fun h' => (hone n' n g g h' hown rfl rfl).1, fun h' => h' ▸ hown⟩) (hnd n g hown rfl) hdir haway hno).1
      rw [main l₁ s₁ hf h₁, main l₂ s₂ (hperm.mem_iff.mp hf) h₂]
    · have main : ∀ l s', (∀ f ∈ l, f ∈ l₁) → AddsAll pkgs machine root pre post env rules l s s' → s'.fs.get k = s.fs.get k := fun l s' hsub h =>
        (C240_others_untouched port md file groups locales keepLa pkg pkgs hb hrun hnames hfull machine root pre post hquiet env rules l s s' h hw k haway hno
          (fun f hf n hn g hg hgk => hmine ⟨f, hsub f hf, n, hn, g, hg, hgk⟩)).1
      rw [main l₁ s₁ (fun _ h => h) h₁, main l₂ s₂ (fun f h => hperm.mem_iff.mpr h) h₂]

/-! ### A case -/

/-- Both packages of the next build upgraded in the one order and the other, where both packages of the first are: did each step work, are the trees the same as sets, and what is there? -/
def xOrders (m d m2 d2 : Archive) : Bool × Bool × Bool × Bool × Bool × List (List Str) :=
  let s := (pkgadd xEnv [] xOpts d (pkgadd xEnv [] xOpts m xNothing).1).1
  let o := { xOpts with upgrade := true }
  let a := pkgadd xEnv [] o m2 s
  let b := pkgadd xEnv [] o d2 a.1
  let a' := pkgadd xEnv [] o d2 s
  let b' := pkgadd xEnv [] o m2 a'.1
  (a.2.isNone, b.2.isNone, a'.2.isNone, b'.2.isNone, b.1.fs.all (fun e => b'.1.fs.get e.1 = some e.2) && b.1.fs.length = b'.1.fs.length,
    (b.1.fs.filter (fun e => match e.2 with | .file _ _ => true | _ => false)).map (·.1))

set_option synthInstance.maxSize 2000 in
example : (xPack "tool.cards-1-1").bind (fun m => (xPack "tool.devel.cards-1-1").bind (fun d => xPack2.bind (fun m2 => xDevel2.map (xOrders m d m2)))) =
    some (true, true, true, true, true, [["usr".toList, "include".toList, "tool.h".toList], ["usr".toList, "bin".toList, "tool2".toList]]) := by
  decide +kernel

end Cards.Props
