import Verif.Model.EndToEnd
import Verif.Props.PkgmkTar
import Verif.Props.SplitAll
import Verif.Props.Archive
import Verif.Props.TransFs
import Verif.Props.RoundTrip
import Verif.Props.PkgmkMeta
/-!
# C227, C228: what was built is what is installed
-/
namespace Cards.Props
open Cards Cards.Spec

/-- An ordinary name of a file: not empty, no slash, no newline, no NUL. -/
def Ordinary (k : Str) : Prop := k ≠ [] ∧ '/' ∉ k ∧ '\n' ∉ k ∧ '\x00' ∉ k

/-- An ordinary path. -/
def OrdinaryPath (p : List Str) : Prop := p ≠ [] ∧ ∀ k ∈ p, Ordinary k

theorem pathText_joined (p : List Str) : pathText p = joined p := by
  induction p with
  | nil => rfl
  | cons x p ih =>
    cases p with
    | nil => rfl
    | cons y p => simp only [pathText, joined, ih]

theorem joined_noend {p : List Str} (h : ∀ k ∈ p, k ≠ [] ∧ '/' ∉ k) : ¬ IsDirName (joined p) := by
  rintro ⟨g, hg⟩
  induction p generalizing g with
  | nil => simp [joined] at hg
  | cons x p ih =>
    cases p with
    | nil =>
      simp only [joined] at hg
      exact (h x (by simp)).2 (by rw [hg]; simp)
    | cons y p =>
      simp only [joined] at hg
      have hne : joined (y :: p) ≠ [] := by
        have := (h y (by simp)).1
        cases p with
        | nil => simpa [joined] using this
        | cons z p => simp [joined]
      refine ih (fun k hk => h k (by simp [hk])) ((joined (y :: p)).dropLast) ?_
      have hl : (x ++ '/' :: joined (y :: p)).getLast? = some '/' := by rw [hg]; simp
      have hl2 : (joined (y :: p)).getLast? = some '/' := by
        rw [List.getLast?_append] at hl
        simp only [List.getLast?_cons] at hl
        cases hj : (joined (y :: p)).getLast? with
        | none => rw [List.getLast?_eq_none_iff] at hj; exact absurd hj hne
        | some c => rw [hj] at hl; simpa using hl
      rw [List.getLast?_eq_some_iff] at hl2
      obtain ⟨ys, hys⟩ := hl2
      rw [hys]; simp

theorem memberName_facts {m : List Str × Node} (h : OrdinaryPath m.1) :
    PlainName (memberName m) ∧ comps (memberName m) = m.1 ∧ (IsDirName (memberName m) ↔ ∃ p, m.2 = .dir p) ∧ TextLine (memberName m) ∧ memberName m ≠ [] := by
  have hk : ∀ k ∈ m.1, k ≠ [] ∧ '/' ∉ k := fun k hk => ⟨(h.2 k hk).1, (h.2 k hk).2.1⟩
  have hj : ∀ c : Char, c ≠ '/' → (∀ k ∈ m.1, c ∉ k) → c ∉ joined m.1 := by
    intro c hc
    generalize m.1 = p
    induction p with
    | nil => simp [joined]
    | cons x p ih =>
      intro hx
      cases p with
      | nil => simpa [joined] using hx x (by simp)
      | cons y p =>
        simp only [joined, List.mem_append, List.mem_cons, not_or]
        exact ⟨hx x (by simp), hc, ih (fun k hk => hx k (by simp [hk]))⟩
  have hn := hj '\n' (by decide) (fun k hk => (h.2 k hk).2.2.1)
  have hz := hj '\x00' (by decide) (fun k hk => (h.2 k hk).2.2.2)
  have hne : joined m.1 ≠ [] := by
    obtain ⟨h1, h2⟩ := h
    revert h1 h2
    generalize m.1 = p
    intro h1 h2
    cases p with
    | nil => exact absurd rfl h1
    | cons x p =>
      have := (h2 x (by simp)).1
      cases p with
      | nil => simpa [joined] using this
      | cons z p => simp [joined]
  obtain ⟨c1, c2⟩ := comps_joined hk
  have he := joined_noend hk
  unfold memberName
  rw [pathText_joined]
  cases hm : m.2 with
  | dir q =>
    refine ⟨⟨m.1, h.1, hk, Or.inr rfl⟩, c2, ⟨fun _ => ⟨q, rfl⟩, fun _ => ⟨_, rfl⟩⟩, ⟨?_, ?_⟩, by simp⟩
    · simpa using hn
    · simpa using hz
  | file d q =>
    exact ⟨⟨m.1, h.1, hk, Or.inl rfl⟩, c1, ⟨fun hd => absurd hd he, fun ⟨_, hd⟩ => by cases hd⟩, ⟨hn, hz⟩, hne⟩

theorem memberName_head {m : List Str × Node} (h : OrdinaryPath m.1) : (memberName m).head? = (m.1.head?.bind List.head?) := by
  obtain ⟨p, n⟩ := m
  obtain ⟨h1, h2⟩ := h
  simp only at h1 h2 ⊢
  cases p with
  | nil => exact absurd rfl h1
  | cons x p =>
    have hx := (h2 x (by simp)).1
    obtain ⟨c, r, rfl⟩ : ∃ c r, x = c :: r := by
      cases x with
      | nil => exact absurd rfl hx
      | cons c r => exact ⟨c, r, rfl⟩
    unfold memberName
    cases n <;> cases p <;> simp [pathText]

theorem listing_text (t : Tar) : TextFile (t.map memberName) (listing t) := by
  induction t with
  | nil => exact TextFile.nil
  | cons m t ih =>
    have : listing (m :: t) = memberName m ++ '\n' :: listing t := by
      obtain ⟨p, n⟩ := m
      unfold listing memberName
      rw [List.flatMap_cons]
      cases n with
      | dir q =>
        have : ("/\n".toList : Str) = ['/', '\n'] := by decide
        simp only [this]; simp
      | file d q =>
        have : ("\n".toList : Str) = ['\n'] := by decide
        simp only [this]; simp
    rw [this]
    exact TextFile.cons _ _ _ ih

theorem visible_iff {p : List Str} (h : OrdinaryPath p) : visible p = true ↔ (p.head?.bind List.head?) ≠ some '.' := by
  cases p with
  | nil => exact absurd rfl h.1
  | cons x p => simp [visible]

theorem visible_member {m : List Str × Node} (h : OrdinaryPath m.1) : visible m.1 = true ↔ (memberName m).head? ≠ some '.' := by
  rw [memberName_head h, visible_iff h]

theorem hidden_point : ∀ f ∈ hiddenNames, f.head? = some '.' := by decide +kernel

/-- What is unpacked from a finished package. -/
theorem mem_tarEntries {t : Tar} {e : Cards.Entry} : e ∈ tarEntries t ↔ ∃ m ∈ t, memberName m ∉ hiddenNames ∧ e = ⟨memberName m, m.2⟩ := by
  unfold tarEntries
  simp only [List.mem_map, List.mem_filter, Bool.not_eq_true', List.contains_eq_mem, decide_eq_false_iff_not]
  constructor
  · rintro ⟨m, ⟨h1, h2⟩, rfl⟩; exact ⟨m, h1, h2, rfl⟩
  · rintro ⟨m, h1, h2, rfl⟩; exact ⟨m, ⟨h1, h2⟩, rfl⟩

theorem ordinary_script : ∀ s ∈ scriptFiles, s.2 ≠ [] ∧ '/' ∉ s.2 ∧ '\n' ∉ s.2 ∧ '\x00' ∉ s.2 := by decide +kernel

theorem ordinary_hidden : ∀ f ∈ hiddenNames, f ≠ [] ∧ '/' ∉ f ∧ '\n' ∉ f ∧ '\x00' ∉ f := by decide +kernel

theorem ordinary_one {x : Str} (h : Ordinary x) : OrdinaryPath [x] := ⟨by simp, fun k hk => by rw [List.mem_singleton] at hk; rw [hk]; exact h⟩

theorem ordinary_prefix {p q : List Str} (h : OrdinaryPath q) (hp : p <+: q) (hne : p ≠ []) : OrdinaryPath p :=
  ⟨hne, fun k hk => h.2 k (hp.subset hk)⟩

theorem scripts_mem {port : Str → Option Str} {name : Str} {m : List Str × Node} (h : m ∈ scriptsOf port name) :
    ∃ s ∈ scriptFiles, m.1 = [s.2] ∧ ∃ d, m.2 = .file d 0o644 := by
  unfold scriptsOf at h
  obtain ⟨s, hs, he⟩ := List.mem_filterMap.mp h
  obtain ⟨d, _, rfl⟩ := Option.map_eq_some_iff.mp he
  exact ⟨s, hs, rfl, d, rfl⟩

/-- The members of a finished package. -/
theorem finished_members {md : Str} {t t' : Tar} {port : Str → Option Str} {name : Str} (hf : Finished md t (scriptsOf port name) t')
    (ho : ∀ m ∈ t, OrdinaryPath m.1) {m : List Str × Node} (hm : m ∈ t') :
    OrdinaryPath m.1 ∧ (memberName m ∈ hiddenNames ↔ visible m.1 = false) := by
  have hord : OrdinaryPath m.1 ∧ (visible m.1 = false → memberName m ∈ hiddenNames) := by
    obtain ⟨k, n⟩ := m
    by_cases hv : visible k = true
    · refine ⟨?_, fun h => by rw [hv] at h; cases h⟩
      rcases (hf.files k n hv).mp hm with h | ⟨_, ⟨m, hm', hne, hp, _⟩, _⟩
      · exact ho _ h
      · exact ordinary_prefix (ho m hm') hp hne
    · rw [Bool.not_eq_true] at hv
      have key : ∀ x ∈ hiddenNames, ∀ d q, k = [x] → n = .file d q → OrdinaryPath k ∧ (visible k = false → memberName (k, n) ∈ hiddenNames) := by
        rintro x hx d q rfl rfl
        refine ⟨ordinary_one (ordinary_hidden x hx), fun _ => ?_⟩
        simpa [memberName, pathText] using hx
      rcases (hf.hidden k n hv).mp hm with ⟨rfl, rfl⟩ | ⟨rfl, rfl⟩ | h
      · exact key _ (by simp [hiddenNames]) _ _ rfl rfl
      · exact key _ (by simp [hiddenNames]) _ _ rfl rfl
      · obtain ⟨s, hs, h1, d, h2⟩ := scripts_mem h
        exact key s.2 (script_names s hs).1 _ _ h1 h2
  refine ⟨hord.1, fun h => ?_, hord.2⟩
  have := hidden_point _ h
  by_contra hv
  rw [Bool.not_eq_false] at hv
  exact (visible_member hord.1).mp hv this

/-- The package can be opened, and what is found is what was put in. -/
theorem open_finished {md : Str} {t t' : Tar} {port : Str → Option Str} {name : Str} (hf : Finished md t (scriptsOf port name) t')
    (ho : ∀ m ∈ t, OrdinaryPath m.1) (hne : t ≠ []) {ls : List Str} (hmd : TextFile ls md) (hls : ∀ l ∈ ls, TextLine l ∧ l ≠ []) {n : Str}
    (hn : FirstField ls 'N' n) (machine root : Str) (pre : Fs → Fs × Bool) (post : Fs → Fs) :
    ∃ a, openTar machine root pre post t' = .ok a ∧ a.name = n ∧ a.md = ls ∧ a.mtree = (t ++ scriptsOf port name).map memberName ∧
      a.entries = tarEntries t' ∧ a.pre = pre ∧ a.post = post := by
  obtain ⟨rest, hr⟩ := hf.begins
  have hd : Described (tarTexts t') ls ((t ++ scriptsOf port name).map memberName) := by
    refine ⟨⟨md, ⟨[], tarTexts (([".MTREE".toList], Node.file (listing (t ++ scriptsOf port name)) 0o644) :: rest), ?_, by simp⟩, hmd⟩, ⟨_, ⟨[(".META".toList, md)], tarTexts rest, ?_, ?_⟩, listing_text _⟩, hls, ?_, ?_, ?_⟩
    · rw [hr]; rfl
    · rw [hr]; rfl
    · intro e he
      rw [List.mem_singleton] at he
      rw [he]
      show ".META".toList ≠ ".MTREE".toList
      decide +kernel
    · intro l hl
      obtain ⟨m, hm, rfl⟩ := List.mem_map.mp hl
      have : OrdinaryPath m.1 := by
        rcases List.mem_append.mp hm with hm | hm
        · exact ho m hm
        · obtain ⟨s, hs, h1, _⟩ := scripts_mem hm
          rw [h1]; exact ordinary_one (ordinary_script s hs)
      exact ⟨(memberName_facts this).2.2.2.1, (memberName_facts this).2.2.2.2⟩
    · rintro rfl
      obtain ⟨a, b, h, _⟩ := hn
      simp at h
    · simpa using fun h => absurd h hne
  have h1 := (C73_opened_partial _ _ _ hd).1 ⟨ls, (t ++ scriptsOf port name).map memberName, n, (firstWith 'a' ls).getD []⟩
  have h2 := h1.mpr ⟨rfl, rfl, hn, fieldOr_iff.mp rfl⟩
  unfold openTar
  rw [h2]
  exact ⟨_, rfl, rfl, rfl, rfl, rfl, rfl, rfl⟩

theorem pairwise_mem_map {α β : Type} (f : α → β) (R : β → β → Prop) {l : List α} (S : α → α → Prop) (hs : l.Pairwise S)
    (h : ∀ a ∈ l, ∀ b ∈ l, S a b → R (f a) (f b)) : (l.map f).Pairwise R := by
  induction l with
  | nil => simp
  | cons a l ih =>
    rw [List.pairwise_cons] at hs
    rw [List.map_cons, List.pairwise_cons]
    refine ⟨fun b hb => ?_, ih hs.2 (fun x hx y hy => h x (by simp [hx]) y (by simp [hy]))⟩
    obtain ⟨c, hc, rfl⟩ := List.mem_map.mp hb
    exact h a (by simp) c (by simp [hc]) (hs.1 c hc)

/-- It is an archive as `pkgadd` expects it. -/
theorem good_finished {md : Str} {t t' : Tar} {port : Str → Option Str} {name : Str} (hf : Finished md t (scriptsOf port name) t')
    (hg : GoodTar t) (hv : ∀ m ∈ t, visible m.1 = true) (ho : ∀ m ∈ t, OrdinaryPath m.1) {a : Archive}
    (h1 : a.mtree = (t ++ scriptsOf port name).map memberName) (h2 : a.entries = tarEntries t') : GoodArchive a := by
  have hmem : ∀ e ∈ a.entries, ∃ m ∈ t', visible m.1 = true ∧ OrdinaryPath m.1 ∧ e = ⟨memberName m, m.2⟩ := by
    intro e he
    rw [h2, mem_tarEntries] at he
    obtain ⟨m, hm, hh, rfl⟩ := he
    obtain ⟨o1, o2⟩ := finished_members hf ho hm
    refine ⟨m, hm, ?_, o1, rfl⟩
    by_contra hc
    rw [Bool.not_eq_true] at hc
    exact hh (o2.mpr hc)
  refine ⟨?_, ?_, ?_, ?_, ?_⟩
  · intro e he
    obtain ⟨m, _, _, o, rfl⟩ := hmem e he
    exact (memberName_facts o).1
  · rw [h2]
    unfold tarEntries
    have hn : t'.Pairwise (fun m m' => m.1 ≠ m'.1) := List.pairwise_map.mp hf.once
    refine pairwise_mem_map _ _ _ (hn.sublist List.filter_sublist) ?_
    intro m hm m' hm' hne
    have o := (finished_members hf ho (List.mem_filter.mp hm).1).1
    have o' := (finished_members hf ho (List.mem_filter.mp hm').1).1
    simp only
    rw [(memberName_facts o).2.1, (memberName_facts o').2.1]
    exact hne
  · intro e he
    obtain ⟨m, _, _, o, rfl⟩ := hmem e he
    exact (memberName_facts o).2.2.1
  · intro e he e' he' hin
    obtain ⟨m, hm, hvm, o, rfl⟩ := hmem e he
    obtain ⟨m', hm', hvm', o', rfl⟩ := hmem e' he'
    simp only at hin ⊢
    rw [(memberName_facts o).2.1, (memberName_facts o').2.1] at hin
    rw [(memberName_facts o).2.2.1]
    obtain ⟨c, r, hcr⟩ := hin
    have hpre : m.1 <+: m'.1 := by rw [hcr]; exact List.prefix_append ..
    have hneq : m.1 ≠ m'.1 := by
      intro h; rw [hcr] at h
      have := congrArg List.length h
      simp at this
    rcases (hf.files m.1 m.2 hvm).mp hm with h | ⟨_, _, h⟩
    · have hup : ∃ q ∈ t, m.1 ∈ parents q.1 := by
        rcases (hf.files m'.1 m'.2 hvm').mp hm' with h' | ⟨_, ⟨q, hq, _, hp, hn⟩, _⟩
        · exact ⟨m', h', mem_parents.mpr ⟨o.1, hpre, hneq⟩⟩
        · refine ⟨q, hq, mem_parents.mpr ⟨o.1, hpre.trans hp, fun h => ?_⟩⟩
          have l1 := hp.length_le
          rw [← h, hcr] at l1
          simp at l1
      obtain ⟨q, hq, hpq⟩ := hup
      exact hg.dirs q hq _ _ h hpq
    · exact ⟨_, h⟩
  · intro f hfm hpt
    rw [h1] at hfm
    obtain ⟨m, hm, rfl⟩ := List.mem_map.mp hfm
    rcases List.mem_append.mp hm with hm | hm
    · refine ⟨⟨memberName m, m.2⟩, ?_, rfl⟩
      have hm' : m ∈ t' := (hf.files m.1 m.2 (hv m hm)).mpr (Or.inl hm)
      rw [h2, mem_tarEntries]
      refine ⟨m, hm', fun hh => ?_, rfl⟩
      have := (finished_members hf ho hm').2.mp hh
      rw [hv m hm] at this; cases this
    · exfalso
      obtain ⟨s, hs, e1, _⟩ := scripts_mem hm
      have o : OrdinaryPath m.1 := by rw [e1]; exact ordinary_one (ordinary_script s hs)
      have hvis := (visible_member o).mpr hpt
      rw [e1, script_hidden s hs] at hvis
      cases hvis

/-! ## The packages of a build -/

/-- What is in the archives is not hidden, and there is one archive for a name. -/
def Shown (s : PackSt) : Prop := MSorted s.arch ∧ ∀ a, ∀ f ∈ s.get a, visible f.path = true

theorem shown_put {s : PackSt} (h : Shown s) (a : Str) {es : List PEnt} (he : ∀ f ∈ es, visible f.path = true) : Shown (s.put a es) := by
  refine ⟨msorted_mset h.1, fun b f hf => ?_⟩
  rw [get_put] at hf
  split at hf
  · rcases List.mem_append.mp hf with hf | hf
    · exact h.2 a f hf
    · exact he f hf
  · exact h.2 b f hf

theorem shown_tree {s : PackSt} (h : Shown s) (tr : List PEnt) : Shown { s with tree := tr } := h

theorem visible_below {d p : List Str} (h : d <+: p) (hd : visible d = true) : visible p = true := by
  obtain ⟨r, rfl⟩ := h
  cases d with
  | nil => simp [visible] at hd
  | cons x d => simpa [visible] using hd

theorem shown_packDir {s : PackSt} (h : Shown s) (a : Str) {d : List Str} (hd : visible d = true) : Shown (packDir a s d) := by
  unfold packDir
  split
  · exact shown_put h a (fun f hf => visible_below (under_iff.mp (List.mem_filter.mp hf).2) hd)
  · exact h

theorem shown_rmDir {s : PackSt} (h : Shown s) (d : List Str) : Shown (rmDir s d) := by
  unfold rmDir
  split
  · exact shown_tree h _
  · exact h

theorem shown_packLibDir {s : PackSt} (h : Shown s) (a : Str) {d : List Str} (hd : visible d = true) : Shown (packLibDir a s d) := by
  unfold packLibDir
  split
  · exact shown_tree (shown_put h a (fun f hf => visible_below (under_iff.mp (List.mem_filter.mp (List.mem_filter.mp hf).1).2) hd)) _
  · exact h

theorem foldl_inv_mem {α β : Type} (P : β → Prop) (step : β → α → β) (l : List α) (hstep : ∀ s, ∀ x ∈ l, P s → P (step s x)) : ∀ s, P s → P (l.foldl step s) := by
  induction l with
  | nil => exact fun s h => h
  | cons x l ih =>
    exact fun s h => ih (fun s y hy => hstep s y (List.mem_cons_of_mem _ hy)) _ (hstep s x (List.mem_cons_self ..) h)

theorem prefixes_visible {t : List PEnt} {p : List Str} (h : p ∈ prefixes t) : visible p = true := by
  unfold prefixes at h
  rcases List.mem_cons.mp h with rfl | h
  · decide +kernel
  · obtain ⟨x, _, rfl⟩ := List.mem_map.mp h
    exact visible_below (d := ["opt".toList]) ⟨[x], rfl⟩ (by decide +kernel)

theorem loopDirs_visible {t : List PEnt} {subs : List (List Str)} {d : List Str} (h : d ∈ loopDirs t subs) : visible d = true := by
  unfold loopDirs at h
  obtain ⟨p, hp, h⟩ := List.mem_flatMap.mp h
  obtain ⟨x, _, rfl⟩ := List.mem_map.mp h
  exact visible_below (List.prefix_append ..) (prefixes_visible hp)

theorem localeDirs_visible {t : List PEnt} {l : Str} {d : List Str} (h : d ∈ localeDirs t l) : visible d = true := by
  unfold localeDirs at h
  obtain ⟨p, hp, h⟩ := List.mem_flatMap.mp h
  obtain ⟨x, _, rfl⟩ := List.mem_map.mp h
  exact visible_below (List.prefix_append ..) (prefixes_visible hp)

theorem serviceDirs_visible : ∀ d ∈ serviceDirs, visible d = true := by decide +kernel

theorem shown_packGroup {s : PackSt} (h : Shown s) (g : Str) : Shown (packGroup s g) := by
  unfold packGroup
  have hr : ∀ (ds : List (List Str)) s, Shown s → Shown (ds.foldl rmDir s) := fun ds => foldl_inv Shown rmDir (fun s x h => shown_rmDir h x) ds
  have hp : ∀ (ds : List (List Str)), (∀ d ∈ ds, visible d = true) → ∀ s, Shown s → Shown (ds.foldl (packDir g) s) :=
    fun ds hd => foldl_inv_mem Shown (packDir g) ds (fun s x hx h => shown_packDir h g (hd x hx))
  split
  · exact hr _ _ (foldl_inv_mem Shown (packRmDir g) _ (fun s x hx h => shown_rmDir (shown_packDir h g (loopDirs_visible hx)) x) _ h)
  split
  · exact hr _ _ (hp _ (fun d hd => loopDirs_visible hd) _ h)
  split
  · exact hr _ _ (hp _ (fun d hd => loopDirs_visible hd) _ h)
  split
  · exact hr _ _ (foldl_inv_mem Shown (packLibDir g) _ (fun s x hx h => shown_packLibDir h g (loopDirs_visible hx)) _ h)
  split
  · exact shown_tree (hr _ _ (hp _ serviceDirs_visible _ h)) _
  · exact h

theorem split_shown {groups locales : List Str} {keepLa : Bool} {t : List PEnt} {archs : List (Str × List PEnt)}
    (hrun : splitPackages groups locales keepLa t = some archs) : MSorted archs ∧ ∀ a es, (a, es) ∈ archs → ∀ f ∈ es, visible f.path = true := by
  unfold splitPackages at hrun
  simp only at hrun
  have h0 : Shown ⟨t, []⟩ := ⟨List.Pairwise.nil, fun a f hf => (by cases hf)⟩
  have h1 := foldl_inv Shown packGroup (fun s x h => shown_packGroup h x) groups _ h0
  have h2 := foldl_inv Shown packLocale (fun s x h => foldl_inv_mem Shown (packRmDir x) _ (fun s d hd h => shown_rmDir (shown_packDir h x (localeDirs_visible hd)) d) _ h) locales _ h1
  have h3 : Shown (dropLocales (locales.foldl packLocale (groups.foldl packGroup ⟨t, []⟩))) :=
    foldl_inv Shown rmDir (fun s x h => shown_rmDir h x) _ _ h2
  generalize dropLocales (locales.foldl packLocale (groups.foldl packGroup ⟨t, []⟩)) = s2 at hrun h3
  cases hc : checkBuild keepLa s2 with
  | none => rw [hc] at hrun; cases hrun
  | some s3 =>
    rw [hc] at hrun
    simp only at hrun
    split at hrun
    case isFalse => cases hrun
    have ha : archs = (packMain s3).arch := (Option.some.inj hrun).symm
    subst ha
    have h4 : Shown s3 := by
      rw [checkBuild_some hc]
      split
      · exact h3
      · exact shown_tree h3 _
    have h5 : Shown (packMain s3) := by
      unfold packMain
      refine shown_put h4 [] (fun f hf => ?_)
      have := (List.mem_filter.mp hf).2
      revert this
      cases f.path with
      | nil => simp
      | cons x r => simp [visible]
    refine ⟨h5.1, fun a es ha f hf => h5.2 a f ?_⟩
    unfold PackSt.get
    rw [mem_mget_of_sorted h5.1 ha]
    exact hf

/-- A tree as a build leaves it in `$PKG`: every path once, whatever is above something is a directory, ordinary names, and no file with the name of a script at
the top. -/
structure Built (pkg : Fs) : Prop where
  once : (pkg.map (·.1)).Nodup
  tree : ∀ e ∈ pkg, ∀ k, k ≠ [] → k <+: e.1 → k ≠ e.1 → ∃ p, (k, Node.dir p) ∈ pkg
  names : ∀ e ∈ pkg, OrdinaryPath e.1
  noScript : ∀ e ∈ pkg, ∀ s ∈ [".PRE", ".POST", ".PRER", ".POSTR"], e.1 ≠ [s.toList]

theorem built_noScripts {pkg : Fs} (h : Built pkg) : NoScripts pkg := by
  intro s hs
  cases hg : pkg.get [s.2] with
  | none => rfl
  | some n =>
    exfalso
    have hm := (get_iff_mem h.once [s.2] n).mp hg
    have key : ∀ s ∈ scriptFiles, ∃ x ∈ [".PRE", ".POST", ".PRER", ".POSTR"], s.2 = x.toList := by decide +kernel
    obtain ⟨x, hx, he⟩ := key s hs
    exact h.noScript _ hm x hx (by rw [he])

/-- What is packed is in the build. -/
theorem tarOf_mem {pkg : Fs} (hb : Built pkg) {groups locales : List Str} {keepLa : Bool} {archs : List (Str × List PEnt)}
    (hrun : splitPackages groups locales keepLa (treeOf pkg) = some archs) {h : Str} {es : List PEnt} (ha : (h, es) ∈ archs) :
    ∀ m ∈ tarOf pkg es, m ∈ pkg := by
  intro m hm
  obtain ⟨e, he, rfl⟩ := List.mem_map.mp hm
  obtain ⟨hs, hv⟩ := split_shown hrun
  have hvis := hv h es ha e he
  have hne : e.path ≠ [] := by intro h; rw [h] at hvis; simp [visible] at hvis
  have hst := C93_nothing_else groups locales keepLa (treeOf pkg) archs hrun h e (by rw [mem_mget_of_sorted hs ha]; exact he)
  have hin : ∃ n, (e.path, n) ∈ pkg := by
    rcases hst with h1 | ⟨_, g, h1, hp⟩
    · obtain ⟨q, hq, rfl⟩ := List.mem_map.mp h1
      exact ⟨q.2, hq⟩
    · obtain ⟨q, hq, rfl⟩ := List.mem_map.mp h1
      have hp := hp.1
      by_cases heq : e.path = q.1
      · rw [heq]; exact ⟨q.2, hq⟩
      · obtain ⟨p, hp⟩ := hb.tree q hq e.path hne hp heq
        exact ⟨_, hp⟩
  obtain ⟨n, hn⟩ := hin
  rw [(get_iff_mem hb.once _ _).mpr hn]
  exact hn

theorem built_same {pkg : Fs} (hb : Built pkg) {k : List Str} {n n' : Node} (h : (k, n) ∈ pkg) (h' : (k, n') ∈ pkg) : n = n' := by
  have h1 := (get_iff_mem hb.once k n).mpr h
  rw [(get_iff_mem hb.once k n').mpr h'] at h1
  exact (Option.some.inj h1).symm

theorem tarOf_good {pkg : Fs} (hb : Built pkg) {t : Tar} (ht : ∀ m ∈ t, m ∈ pkg) : GoodTar t := by
  refine ⟨fun k n n' h h' => built_same hb (ht _ h) (ht _ h'), fun m hm k n hk hp => ?_⟩
  obtain ⟨h1, h2, h3⟩ := mem_parents.mp hp
  obtain ⟨p, hd⟩ := hb.tree m (ht m hm) k h1 h2 h3
  exact ⟨p, built_same hb (ht _ hk) hd⟩

/-- A package of the build: what was packed for it, and how it is finished. -/
theorem build_at {port : Str → Option Str} {md file : Str → Str} {groups locales : List Str} {keepLa : Bool} {pkg : Fs} {pkgs : List (Str × Tar)} (hb : Built pkg)
    (hrun : buildPort port md file groups locales keepLa pkg = some pkgs) : ∃ archs, splitPackages groups locales keepLa (treeOf pkg) = some archs ∧
      (∀ h es, (h, es) ∈ archs → ∃ t', (file h, t') ∈ pkgs ∧ Finished (md (file h)) (tarOf pkg es) (scriptsOf port (getPackageName (file h))) t') ∧
      ∀ f t', (f, t') ∈ pkgs → ∃ h es, f = file h ∧ (h, es) ∈ archs ∧ Finished (md f) (tarOf pkg es) (scriptsOf port (getPackageName f)) t' := by
  unfold buildPort at hrun
  cases hs : splitPackages groups locales keepLa (treeOf pkg) with
  | none => rw [hs] at hrun; cases hrun
  | some archs =>
    rw [hs] at hrun
    simp only [Option.some.injEq] at hrun
    refine ⟨archs, rfl, ?_⟩
    obtain ⟨_, hv⟩ := split_shown hs
    have hg : ∀ e ∈ archs.map (fun a => (file a.1, tarOf pkg a.2)), GoodTar e.2 ∧ ∀ m ∈ e.2, visible m.1 = true := by
      intro e he
      obtain ⟨a, ha, rfl⟩ := List.mem_map.mp he
      refine ⟨tarOf_good hb (tarOf_mem hb hs (h := a.1) (es := a.2) ha), fun m hm => ?_⟩
      obtain ⟨x, hx, rfl⟩ := List.mem_map.mp hm
      exact hv a.1 a.2 ha x hx
    have hfin := C159_finished_partial port md pkg (built_noScripts hb) _ hg
    rw [hrun] at hfin
    have hlen : pkgs.length = (archs.map (fun a => (file a.1, tarOf pkg a.2))).length := by
      have := congrArg List.length (C159_packages port md pkg [] (archs.map (fun a => (file a.1, tarOf pkg a.2))))
      rw [hrun] at this
      simpa using this
    constructor
    · intro h es ha
      obtain ⟨i, hi, hget⟩ := List.getElem_of_mem ha
      obtain ⟨t', h1, h2⟩ := hfin i (file h) (tarOf pkg es) (by rw [List.getElem?_map, List.getElem?_eq_getElem hi, hget]; rfl)
      exact ⟨t', List.mem_of_getElem? h1, h2⟩
    · intro f t' hm
      obtain ⟨i, hi, hget⟩ := List.getElem_of_mem hm
      have hi' : i < archs.length := by rw [hlen, List.length_map] at hi; exact hi
      obtain ⟨t'', h1, h2⟩ := hfin i (file archs[i].1) (tarOf pkg archs[i].2) (by rw [List.getElem?_map, List.getElem?_eq_getElem hi']; rfl)
      rw [List.getElem?_eq_getElem hi, hget] at h1
      have e := Option.some.inj h1
      have e1 : f = file archs[i].1 := congrArg Prod.fst e
      have e2 : t' = t'' := congrArg Prod.snd e
      subst e2
      refine ⟨archs[i].1, archs[i].2, e1, List.getElem_mem hi', ?_⟩
      rw [e1]; exact h2

/-- The description of a package file is a text whose name line says `n`. -/
def NamedIn (c n : Str) : Prop := ∃ ls, TextFile ls c ∧ (∀ l ∈ ls, TextLine l ∧ l ≠ []) ∧ FirstField ls 'N' n

theorem built_alone {pkg : Fs} (hb : Built pkg) {k : List Str} {c : Str} {p : Nat} (hk : (k, Node.file c p) ∈ pkg) :
    (treeOf pkg).count ⟨k, false⟩ = 1 ∧ Alone ⟨k, false⟩ (treeOf pkg) ∧ k ≠ [] := by
  have hmem : (⟨k, false⟩ : PEnt) ∈ treeOf pkg := List.mem_map.mpr ⟨_, hk, rfl⟩
  have hnd : (treeOf pkg).Nodup := by
    have h2 : ((treeOf pkg).map (·.path)).Nodup := by
      have : (treeOf pkg).map (·.path) = pkg.map (·.1) := by simp [treeOf, Function.comp_def]
      rw [this]; exact hb.once
    exact List.Nodup.of_map _ h2
  refine ⟨List.count_eq_one_of_mem hnd hmem, ?_, (hb.names _ hk).1⟩
  intro f hf hp
  obtain ⟨e, he, rfl⟩ := List.mem_map.mp hf
  by_cases heq : k = e.1
  · have : Node.file c p = e.2 := built_same hb hk (by rw [heq]; exact he)
    rw [← this, heq]; rfl
  · obtain ⟨q, hq⟩ := hb.tree e he k (hb.names _ hk).1 hp heq
    have := built_same hb hk hq
    cases this

theorem isDir_node {n : Node} (h : ¬ ∃ p, n = .dir p) : ∃ c p, n = .file c p := by
  cases n with
  | dir p => exact absurd ⟨p, rfl⟩ h
  | file c p => exact ⟨c, p, rfl⟩

theorem file_in_arch {pkg : Fs} (hb : Built pkg) {groups locales : List Str} {keepLa : Bool} {archs : List (Str × List PEnt)}
    (hrun : splitPackages groups locales keepLa (treeOf pkg) = some archs) {h : Str} {es : List PEnt} (ha : (h, es) ∈ archs) {k : List Str} {c : Str} {p : Nat}
    (hm : (k, Node.file c p) ∈ tarOf pkg es) : (⟨k, false⟩ : PEnt) ∈ es := by
  have hin := tarOf_mem hb hrun ha _ hm
  obtain ⟨e, he, h2⟩ := List.mem_map.mp hm
  have hek : e.path = k := congrArg Prod.fst h2
  obtain ⟨hs, _⟩ := split_shown hrun
  have hst := C93_nothing_else groups locales keepLa (treeOf pkg) archs hrun h e (by rw [mem_mget_of_sorted hs ha]; exact he)
  obtain ⟨_, hal, _⟩ := built_alone hb hin
  rcases hst with h1 | ⟨_, g, h1, hp, hq⟩
  · have := hal e h1 (by rw [hek])
    rw [← this]; exact he
  · exfalso
    rw [hek] at hp hq
    rw [hal g h1 hp] at hq
    simp at hq

/-- A package of the build that has something in it, opened. -/
theorem built_open {port : Str → Option Str} {md file : Str → Str} {groups locales : List Str} {keepLa : Bool} {pkg : Fs} {pkgs : List (Str × Tar)}
    (hb : Built pkg) (hrun : buildPort port md file groups locales keepLa pkg = some pkgs) {f : Str} {t' : Tar} (hf : (f, t') ∈ pkgs)
    (hsome : ∃ m ∈ t', (m.1.head?.bind List.head?) ≠ some '.') {n : Str} (hn : NamedIn (md f) n)
    (machine root : Str) (pre : Fs → Fs × Bool) (post : Fs → Fs) :
    ∃ a, openTar machine root pre post t' = .ok a ∧ a.name = n ∧ a.pre = pre ∧ a.post = post ∧ GoodArchive a ∧
      (∀ g, g ∈ a.mtree ∧ g.head? ≠ some '.' → ∃ e ∈ pkg, e ∈ t' ∧ visible e.1 = true ∧ memberName e = g) ∧
      ∀ e ∈ a.entries, ∃ m ∈ t', m ∈ pkg ∧ visible m.1 = true ∧ memberName m ∈ a.mtree ∧ e = ⟨memberName m, m.2⟩ ∨
        (∃ q ∈ pkg, m.1 ≠ [] ∧ m.1 <+: q.1 ∧ m.1 ≠ q.1) ∧ OrdinaryPath m.1 ∧ (∃ x, m.2 = .dir x) ∧ e = ⟨memberName m, m.2⟩ := by
  obtain ⟨archs, hs, _, h2⟩ := build_at hb hrun
  obtain ⟨h, es, rfl, ha, hfin⟩ := h2 f t' hf
  have hmem := tarOf_mem hb hs ha
  have ho : ∀ m ∈ tarOf pkg es, OrdinaryPath m.1 := fun m hm => hb.names m (hmem m hm)
  have hv : ∀ m ∈ tarOf pkg es, visible m.1 = true := by
    intro m hm
    obtain ⟨x, hx, rfl⟩ := List.mem_map.mp hm
    exact (split_shown hs).2 h es ha x hx
  have hne : tarOf pkg es ≠ [] := by
    obtain ⟨m, hm, hh⟩ := hsome
    have hvm := (visible_iff (finished_members hfin ho hm).1).mpr hh
    rcases (hfin.files m.1 m.2 hvm).mp hm with h | ⟨_, ⟨q, hq, _⟩, _⟩
    · exact List.ne_nil_of_mem h
    · exact List.ne_nil_of_mem hq
  obtain ⟨ls, l1, l2, l3⟩ := hn
  obtain ⟨a, a1, a2, _, a4, a5, a6, a7⟩ := open_finished hfin ho hne l1 l2 l3 machine root pre post
  refine ⟨a, a1, a2, a6, a7, good_finished hfin (tarOf_good hb hmem) hv ho a4 a5, ?_, ?_⟩
  · rintro g ⟨hg, hpt⟩
    rw [a4] at hg
    obtain ⟨m, hm, rfl⟩ := List.mem_map.mp hg
    rcases List.mem_append.mp hm with hm | hm
    · exact ⟨m, hmem m hm, (hfin.files m.1 m.2 (hv m hm)).mpr (Or.inl hm), hv m hm, rfl⟩
    · exfalso
      obtain ⟨s, hs', e1, _⟩ := scripts_mem hm
      have o : OrdinaryPath m.1 := by rw [e1]; exact ordinary_one (ordinary_script s hs')
      have hvis := (visible_member o).mpr hpt
      rw [e1, script_hidden s hs'] at hvis
      cases hvis
  · intro e he
    rw [a5, mem_tarEntries] at he
    obtain ⟨m, hm, hh, rfl⟩ := he
    obtain ⟨o1, o2⟩ := finished_members hfin ho hm
    have hvm : visible m.1 = true := by
      by_contra hc
      rw [Bool.not_eq_true] at hc
      exact hh (o2.mpr hc)
    refine ⟨m, hm, ?_⟩
    rcases (hfin.files m.1 m.2 hvm).mp hm with h | ⟨_, ⟨q, hq, q1, q2, q3⟩, hx⟩
    · exact Or.inl ⟨hmem m h, hvm, by rw [a4]; exact List.mem_map.mpr ⟨m, List.mem_append_left _ h, rfl⟩, rfl⟩
    · exact Or.inr ⟨⟨q, hmem q hq, q1, q2, q3⟩, o1, ⟨_, hx⟩, rfl⟩

/-- **C227**: whatever the build, every package file that has something in it can be opened, with the name its description gives, it is an archive as `pkgadd`
expects it, and the files it says it has are files of the build. -/
theorem C227_packages_open (port : Str → Option Str) (md file : Str → Str) (groups locales : List Str) (keepLa : Bool) (pkg : Fs) (pkgs : List (Str × Tar))
    (hb : Built pkg) (hrun : buildPort port md file groups locales keepLa pkg = some pkgs) (f : Str) (t' : Tar) (hf : (f, t') ∈ pkgs)
    (hsome : ∃ m ∈ t', (m.1.head?.bind List.head?) ≠ some '.') (n : Str) (hn : NamedIn (md f) n)
    (machine root : Str) (pre : Fs → Fs × Bool) (post : Fs → Fs) :
    ∃ a, openTar machine root pre post t' = .ok a ∧ a.name = n ∧ a.pre = pre ∧ a.post = post ∧ GoodArchive a ∧
      ∀ g, g ∈ a.mtree ∧ g.head? ≠ some '.' → ∃ e ∈ pkg, memberName e = g := by
  obtain ⟨a, h1, h2, h3, h4, h5, h6, _⟩ := built_open hb hrun hf hsome hn machine root pre post
  exact ⟨a, h1, h2, h3, h4, h5, fun g hg => by obtain ⟨e, he, _, _, e3⟩ := h6 g hg; exact ⟨e, he, e3⟩⟩

theorem memberName_file (k : List Str) (c : Str) (p : Nat) : memberName (k, .file c p) = pathText k := rfl

/-- **C227**, a file from the build to the disk: a file the build made goes to the package of its place, and after that package is installed it is recorded as the
package's (unless a rule excludes it), and is on the disk with the content and the permissions the build gave it. -/
theorem C227_file_installed (port : Str → Option Str) (md file : Str → Str) (groups locales : List Str) (keepLa : Bool) (pkg : Fs) (pkgs : List (Str × Tar))
    (hb : Built pkg) (hrun : buildPort port md file groups locales keepLa pkg = some pkgs) (k : List Str) (c : Str) (p : Nat) (hk : (k, Node.file c p) ∈ pkg)
    (g : Str) (hdest : Dest groups locales keepLa k (some g)) (n : Str) (hn : NamedIn (md (file g)) n)
    (machine root : Str) (pre : Fs → Fs × Bool) (post : Fs → Fs) :
    ∃ t' a, (file g, t') ∈ pkgs ∧ openTar machine root pre post t' = .ok a ∧ a.name = n ∧
      ∀ env rules opts s, WF s.disk → (pkgadd env rules opts a s).2 = none → ¬ Excluded env.rx rules (pathText k) →
        Owns (pkgadd env rules opts a s).1.disk n (pathText k) ∧
        (env.extractFails k = false → (∀ m, s.fs.get k ≠ some (.dir m)) → AwayFromRejected k → Leaves (fun fs => (pre fs).1) k → Leaves post k →
          ¬ (opts.upgrade = true ∧ Protected env.rx rules (pathText k)) → (pkgadd env rules opts a s).1.fs.get k = some (.file c p)) := by
  obtain ⟨archs, hs, h1, _⟩ := build_at hb hrun
  obtain ⟨b1, b2, b3⟩ := built_alone hb hk
  have hcount := C93_split_exact_partial groups locales keepLa (treeOf pkg) archs hs ⟨k, false⟩ b1 rfl b2 (some g) hdest g
  rw [if_pos rfl] at hcount
  have hin : (⟨k, false⟩ : PEnt) ∈ (mget archs g).getD [] := List.count_pos_iff.mp (by rw [hcount]; exact Nat.one_pos)
  obtain ⟨es, hes⟩ : ∃ es, mget archs g = some es := by
    cases hm : mget archs g with
    | none => rw [hm] at hin; cases hin
    | some es => exact ⟨es, rfl⟩
  rw [hes] at hin
  have ha := (mget_iff_mem (split_shown hs).1).mp hes
  obtain ⟨t', ht', hfin⟩ := h1 g es ha
  have hmem := tarOf_mem hb hs ha
  have ho : ∀ m ∈ tarOf pkg es, OrdinaryPath m.1 := fun m hm => hb.names m (hmem m hm)
  have hv : ∀ m ∈ tarOf pkg es, visible m.1 = true := by
    intro m hm
    obtain ⟨x, hx, rfl⟩ := List.mem_map.mp hm
    exact (split_shown hs).2 g es ha x hx
  have hkt : (k, Node.file c p) ∈ tarOf pkg es := by
    refine List.mem_map.mpr ⟨_, hin, ?_⟩
    simp only
    rw [(get_iff_mem hb.once _ _).mpr hk]; rfl
  obtain ⟨ls, l1, l2, l3⟩ := hn
  obtain ⟨a, a1, a2, _, a4, a5, a6, a7⟩ := open_finished hfin ho (List.ne_nil_of_mem hkt) l1 l2 l3 machine root pre post
  have hgood := good_finished hfin (tarOf_good hb hmem) hv ho a4 a5
  have hok := hb.names _ hk
  have hc : comps (pathText k) = k := (memberName_facts (m := (k, Node.file c p)) hok).2.1
  have hnd : ¬ IsDirName (pathText k) := by
    intro hd
    obtain ⟨q, hq⟩ := (memberName_facts (m := (k, Node.file c p)) hok).2.2.1.mp hd
    cases hq
  refine ⟨t', a, ht', a1, a2, ?_⟩
  intro env rules opts s hw hdone hex
  have hown : Owns (pkgadd env rules opts a s).1.disk a.name (pathText k) := by
    rw [C07_recorded_iff_not_excluded env rules opts a s hw hdone]
    refine ⟨?_, (visible_member (m := (k, Node.file c p)) hok).mp (hv _ hkt), hex⟩
    rw [a4]
    exact List.mem_map.mpr ⟨_, List.mem_append_left _ hkt, rfl⟩
  refine ⟨a2 ▸ hown, fun e1 e2 e3 e4 e5 e6 => ?_⟩
  have hkt' : (k, Node.file c p) ∈ t' := (hfin.files k _ (hv _ hkt)).mpr (Or.inl hkt)
  have hent : (⟨pathText k, .file c p⟩ : Cards.Entry) ∈ a.entries := by
    rw [a5, mem_tarEntries]
    refine ⟨_, hkt', fun hh => ?_, rfl⟩
    have := (finished_members hfin ho hkt').2.mp hh
    rw [hv _ hkt] at this; cases this
  have h8 := (C08_recorded_on_disk env rules opts a s hw hgood hdone (pathText k) hown (by rw [hc]; exact e1) (fun _ => by rw [hc]; exact e2)
    (fun hd => absurd hd hnd) (fun _ => by rw [hc]; exact e3) ⟨by rw [hc, a6]; exact e4, by rw [hc, a7]; exact e5⟩).2 hnd e6 _ hent rfl
  rw [hc] at h8
  exact h8

/-- **C228**: the packages made from one build never contain the same file: of two of them, with different file names, none lists a file (that is not a directory)
the other lists. -/
theorem C228_no_common_file (port : Str → Option Str) (md file : Str → Str) (groups locales : List Str) (keepLa : Bool) (pkg : Fs) (pkgs : List (Str × Tar))
    (hb : Built pkg) (hrun : buildPort port md file groups locales keepLa pkg = some pkgs) (f f' : Str) (t t' : Tar) (hf : (f, t) ∈ pkgs) (hf' : (f', t') ∈ pkgs)
    (hne : f ≠ f') (k : List Str) (hk : visible k = true) (c c' : Str) (p p' : Nat) : (k, Node.file c p) ∈ t → (k, Node.file c' p') ∉ t' := by
  obtain ⟨archs, hs, _, h2⟩ := build_at hb hrun
  obtain ⟨h, es, rfl, ha, hfin⟩ := h2 f t hf
  obtain ⟨h', es', rfl, ha', hfin'⟩ := h2 f' t' hf'
  intro hm hm'
  have key : ∀ {x es t} {c : Str} {p : Nat}, (x, es) ∈ archs → Finished (md (file x)) (tarOf pkg es) (scriptsOf port (getPackageName (file x))) t → (k, Node.file c p) ∈ t →
      (k, Node.file c p) ∈ tarOf pkg es := by
    intro x es t c p _ hfin hm
    rcases (hfin.files k _ hk).mp hm with h | ⟨_, _, h⟩
    · exact h
    · cases h
  have k1 := key ha hfin hm
  have k2 := key ha' hfin' hm'
  have i1 := file_in_arch hb hs ha k1
  have i2 := file_in_arch hb hs ha' k2
  obtain ⟨b1, b2, b3⟩ := built_alone hb (tarOf_mem hb hs ha _ k1)
  obtain ⟨o, ho⟩ := C93_dest_total groups locales keepLa k b3
  have hc := C93_split_exact_partial groups locales keepLa (treeOf pkg) archs hs ⟨k, false⟩ b1 rfl b2 o ho
  have hso := (split_shown hs).1
  have c1 := hc h
  have c2 := hc h'
  rw [mem_mget_of_sorted hso ha] at c1
  rw [mem_mget_of_sorted hso ha'] at c2
  simp only [Option.getD_some] at c1 c2
  have p1 := List.count_pos_iff.mpr i1
  have p2 := List.count_pos_iff.mpr i2
  have e1 : o = some h := by by_contra hx; rw [if_neg hx] at c1; omega
  have e2 : o = some h' := by by_contra hx; rw [if_neg hx] at c2; omega
  rw [e1] at e2
  exact hne (by rw [Option.some.inj e2])

/-- **C228**, installing them: when one package of the build has been installed, it is in the way of no other: whatever hinders the installation of another package of
the same build was there before. -/
theorem C228_not_in_the_way (port : Str → Option Str) (md file : Str → Str) (groups locales : List Str) (keepLa : Bool) (pkg : Fs) (pkgs : List (Str × Tar))
    (hb : Built pkg) (hrun : buildPort port md file groups locales keepLa pkg = some pkgs) (f f' : Str) (t t' : Tar) (hf : (f, t) ∈ pkgs) (hf' : (f', t') ∈ pkgs)
    (hne : f ≠ f') (hsome : ∃ m ∈ t, (m.1.head?.bind List.head?) ≠ some '.') (hsome' : ∃ m ∈ t', (m.1.head?.bind List.head?) ≠ some '.')
    (n n' : Str) (hn : NamedIn (md f) n) (hn' : NamedIn (md f') n') (machine root : Str) (pre pre' : Fs → Fs × Bool) (post post' : Fs → Fs)
    (a a' : Archive) (ha : openTar machine root pre post t = .ok a) (ha' : openTar machine root pre' post' t' = .ok a')
    (env : Env) (rules : List Rule) (opts : Opts) (s : Sys) (hfresh : FreshInstall env rules opts a s) (g : Str) (hg : Ships env.rx rules a' g)
    (hway : InTheWay (pkgadd env rules opts a s).1.disk (pkgadd env rules opts a s).1.fs a'.name g) : InTheWay s.disk s.fs a'.name g := by
  obtain ⟨b, b1, _, _, _, _, b6, b7⟩ := built_open hb hrun hf hsome hn machine root pre post
  obtain ⟨b', b1', _, _, _, _, b6', _⟩ := built_open hb hrun hf' hsome' hn' machine root pre' post'
  rw [ha] at b1
  rw [ha'] at b1'
  cases b1
  cases b1'
  obtain ⟨w1, w2, w3⟩ := hway
  obtain ⟨e, he, het, hev, rfl⟩ := b6' g ⟨hg.1, hg.2.1⟩
  have ho := hb.names e he
  obtain ⟨_, hcomps, hdir, _, _⟩ := memberName_facts ho
  obtain ⟨c, p, hnode⟩ := isDir_node (fun h => w1 (hdir.mpr h))
  obtain ⟨k, nd⟩ := e
  simp only at hnode hcomps ho hev
  subst hnode
  have habs : ∀ c' p', (k, Node.file c' p') ∉ t := fun c' p' hm =>
    C228_no_common_file port md file groups locales keepLa pkg pkgs hb hrun f f' t t' hf hf' hne k hev c' c p' p hm het
  refine ⟨w1, ?_, ?_⟩
  · rcases w2 with ⟨n2, hn2, ho2⟩ | ⟨nd, hget, hd2⟩
    · left
      refine ⟨n2, hn2, ?_⟩
      by_cases h : n2 = a.name
      · exfalso
        subst h
        have hsh := (owned_iff hfresh).mp ho2
        obtain ⟨m, hm, hmt, hmv, hmn⟩ := b6 _ ⟨hsh.1, hsh.2.1⟩
        have hk : m.1 = k := by
          rw [← (memberName_facts (hb.names m hm)).2.1, hmn, hcomps]
        have hm2 : m.2 = .file c p := built_same hb (k := k) (by rw [← hk]; exact hm) he
        exact habs c p (by rw [← hk, ← hm2]; exact hmt)
      · exact (other_owns hfresh h).mp ho2
    · right
      rw [hcomps] at hget
      refine ⟨nd, ?_, hd2⟩
      rw [hcomps, ← hget, fresh_fs hfresh]
      refine (extracted_ne env _ a.entries s.fs k ?_).symm
      intro e' he' _
      obtain ⟨m, hmt, hcase⟩ := b7 e' he'
      rcases hcase with ⟨hm, hmv, _, rfl⟩ | ⟨⟨q, hq, q1, q2, q3⟩, om, _, rfl⟩
      · simp only
        rw [(memberName_facts (hb.names m hm)).2.1]
        constructor
        · intro hk
          have hm2 : m.2 = .file c p := built_same hb (k := k) (by rw [← hk]; exact hm) he
          exact habs c p (by rw [← hk, ← hm2]; exact hmt)
        · intro hk
          obtain ⟨k1, k2, k3⟩ := mem_parents.mp hk
          obtain ⟨x, hx⟩ := hb.tree m hm k k1 k2 k3
          cases built_same hb he hx
      · simp only
        rw [(memberName_facts om).2.1]
        constructor
        · intro hk
          obtain ⟨x, hx⟩ := hb.tree q hq m.1 q1 q2 q3
          rw [hk] at hx
          cases built_same hb he hx
        · intro hk
          obtain ⟨k1, k2, k3⟩ := mem_parents.mp hk
          obtain ⟨x, hx⟩ := hb.tree q hq k k1 (k2.trans q2) (by
            intro h
            have l1 := k2.length_le
            have l2 := q2.length_le
            rw [← h] at l2
            exact k3 (k2.eq_of_length (Nat.le_antisymm l1 l2)))
          cases built_same hb he hx
  · intro hown
    by_cases h : a'.name = a.name
    · have := fresh_absent hfresh
      rw [h, owns_iff_mget hfresh.wf, this] at hown
      obtain ⟨_, hx, _⟩ := hown
      cases hx
    · exact w3 ((other_owns hfresh h).mpr hown)

/-- **C227**, the description: what `pkgmk` writes as the description of the package `full` (values without newlines or NUL) gives it that name, as the two theorems above
ask for. -/
theorem C227_description_names (e : MetaEnv) (v : MetaVars) (full : Str) (ho : OneLine e v full) (md : List Str) (h : metaLines e v full = some md)
    (hl : ∀ l ∈ md, TextLine l) (c : Str) (hc : TextFile md c) : NamedIn c full := by
  have hs := C96_meta_exact_partial e v full ho md h
  refine ⟨md, hc, fun l hm => ⟨hl l hm, ?_⟩, ?_⟩
  · obtain ⟨x, y, rfl, _⟩ := hs.letters l hm
    simp
  · obtain ⟨rest, hr⟩ := hs.first
    exact ⟨[], rest, hr, by simp⟩

/-! ### A case -/

/-- A build with a program and a header. -/
def xBuiltFs : Fs :=
  [(["usr".toList], .dir 0o755), (["usr".toList, "bin".toList], .dir 0o755), (["usr".toList, "bin".toList, "tool".toList], .file "elf".toList 0o755),
   (["usr".toList, "include".toList], .dir 0o755), (["usr".toList, "include".toList, "tool.h".toList], .file "int".toList 0o644)]

/-- The names of its package files. -/
def xBuiltFile (g : Str) : Str := if g = [] then "tool.cards-1-1".toList else "tool.".toList ++ g ++ ".cards-1-1".toList

/-- Their descriptions. -/
def xBuiltMeta (f : Str) : Str := 'N' :: getPackageName f ++ ['\n']

theorem xBuilt_built : Built xBuiltFs where
  once := by decide +kernel
  tree := by
    have key : ∀ e ∈ xBuiltFs, ∀ k ∈ parents e.1, (k, Node.dir 0o755) ∈ xBuiltFs := by decide +kernel
    exact fun e he k h1 h2 h3 => ⟨_, key e he k (mem_parents.mpr ⟨h1, h2, h3⟩)⟩
  names := by
    have key : ∀ e ∈ xBuiltFs, e.1 ≠ [] ∧ ∀ k ∈ e.1, k ≠ [] ∧ '/' ∉ k ∧ '\n' ∉ k ∧ '\x00' ∉ k := by decide +kernel
    exact key
  noScript := by decide +kernel

theorem xBuilt_run : buildPort (fun _ => none) xBuiltMeta xBuiltFile ["devel".toList] [] false xBuiltFs = some
    [("tool.cards-1-1".toList, [([".META".toList], .file "Ntool\n".toList 0o644), ([".MTREE".toList], .file "usr/\nusr/bin/\nusr/bin/tool\n".toList 0o644),
        (["usr".toList, "bin".toList, "tool".toList], .file "elf".toList 0o755), (["usr".toList, "bin".toList], .dir 0o755), (["usr".toList], .dir 0o755)]),
     ("tool.devel.cards-1-1".toList, [([".META".toList], .file "Ntool.devel\n".toList 0o644), ([".MTREE".toList], .file "usr/include/\nusr/include/tool.h\n".toList 0o644),
        (["usr".toList, "include".toList, "tool.h".toList], .file "int".toList 0o644), (["usr".toList, "include".toList], .dir 0o755), (["usr".toList], .dir 0o755)])] := by
  decide +kernel

theorem xBuilt_describes (f : Str) (h : '\n' ∉ getPackageName f ∧ '\x00' ∉ getPackageName f) : NamedIn (xBuiltMeta f) (getPackageName f) := by
  refine ⟨['N' :: getPackageName f], TextFile.cons _ _ _ TextFile.nil, ?_, ⟨[], [], rfl, by simp⟩⟩
  intro l hl
  rw [List.mem_singleton] at hl
  subst hl
  refine ⟨⟨?_, ?_⟩, by simp⟩
  · rw [List.mem_cons, not_or]; exact ⟨by decide, h.1⟩
  · rw [List.mem_cons, not_or]; exact ⟨by decide, h.2⟩

/-- The header goes to the package `tool.devel`. -/
example : Dest ["devel".toList] [] false ["usr".toList, "include".toList, "tool.h".toList] (some "devel".toList) := by
  refine Dest.group _ ⟨[], [], rfl, ?_, by simp⟩ (fun h => by cases h)
  exact Or.inl ⟨["usr".toList], ["include".toList], Home.usr, by decide +kernel, "tool.h".toList, [], rfl⟩

/-- The package `tool.devel` is opened and installed: the header is there, and recorded. -/
example : ∀ t', ("tool.devel.cards-1-1".toList, t') ∈ (buildPort (fun _ => none) xBuiltMeta xBuiltFile ["devel".toList] [] false xBuiltFs).getD [] →
    (match openTar "x86_64".toList "/mnt".toList (fun fs => (fs, true)) id t' with
     | .ok a => ((pkgadd xEnv [] xOpts a xSys).2, (pkgadd xEnv [] xOpts a xSys).1.fs.get ["usr".toList, "include".toList, "tool.h".toList],
        (mget (pkgadd xEnv [] xOpts a xSys).1.disk "tool.devel".toList).map (·.files))
     | .error _ => (none, none, none)) = (none, some (.file "int".toList 0o644), some ["usr/include/".toList, "usr/include/tool.h".toList]) := by
  rw [xBuilt_run]
  intro t' h
  simp only [Option.getD_some, List.mem_cons, Prod.mk.injEq, List.not_mem_nil, or_false] at h
  rcases h with ⟨h, _⟩ | ⟨_, rfl⟩
  · exact absurd h (by decide +kernel)
  · decide +kernel

end Cards.Props
