import Verif.Lemmas.Create
import Verif.Props.Ports
import Mathlib.Data.List.TakeWhile
/-!
# The environment of a build
-/
namespace Cards
open Cards.Spec

theorem firstLine_iff {a : Archive} {c : Char} {x : Str} : a.firstLine c = x ↔ FirstLine a c x := by
  unfold Archive.firstLine FirstLine
  generalize a.md = l
  induction l with
  | nil => simp [eq_comm]
  | cons y l ih =>
    by_cases hy : y.head? = some c
    · obtain ⟨t, rfl⟩ : ∃ t, y = c :: t := by
        cases y with
        | nil => simp at hy
        | cons d t => simp only [List.head?_cons, Option.some.injEq] at hy; exact ⟨t, by rw [hy]⟩
      simp only [List.filterMap_cons, List.head?_cons, if_true, List.drop_succ_cons, List.drop_zero, Option.getD_some]
      constructor
      · rintro rfl
        exact Or.inl ⟨[], l, rfl, by simp⟩
      · rintro (⟨pre, post, h, hp⟩ | ⟨_, h⟩)
        · cases pre with
          | nil => simp only [List.nil_append, List.cons.injEq, true_and] at h; exact h.1
          | cons z pre =>
            simp only [List.cons_append, List.cons.injEq] at h
            exact absurd (hp z (by simp)) (by rw [← h.1]; simp)
        · exact absurd (h _ (List.mem_cons_self ..)) (by simp)
    · rw [List.filterMap_cons, if_neg hy]
      simp only
      rw [ih]
      constructor
      · rintro (⟨pre, post, h, hp⟩ | ⟨hx, h⟩)
        · refine Or.inl ⟨y :: pre, post, by rw [h]; rfl, ?_⟩
          intro z hz
          rcases List.mem_cons.mp hz with rfl | hz
          · exact hy
          · exact hp z hz
        · refine Or.inr ⟨hx, ?_⟩
          intro z hz
          rcases List.mem_cons.mp hz with rfl | hz
          · exact hy
          · exact h z hz
      · rintro (⟨pre, post, h, hp⟩ | ⟨hx, h⟩)
        · cases pre with
          | nil => simp only [List.nil_append, List.cons.injEq] at h; rw [h.1] at hy; simp at hy
          | cons z pre =>
            simp only [List.cons_append, List.cons.injEq] at h
            exact Or.inl ⟨pre, post, h.2, fun w hw => hp w (by simp [hw])⟩
        · exact Or.inr ⟨hx, fun z hz => h z (by simp [hz])⟩

theorem depCopies_wanted {groups : List Str} {a : Archive} : depCopies groups a ≠ [] ↔ GroupWanted groups a := by
  unfold depCopies GroupWanted
  simp only [← firstLine_iff]
  split
  · rename_i h; simp [h]
  · rename_i h
    rw [ne_eq, List.filter_eq_nil_iff]
    push Not
    simp only [decide_eq_true_eq]
    constructor
    · rintro ⟨k, hk, e⟩; exact Or.inr ⟨k, hk, e⟩
    · rintro (h' | ⟨k, hk, e⟩)
      · exact absurd h' h
      · exact ⟨k, hk, e⟩

/-- Running one archive several times. -/
theorem copies_spec {β : Type} (C : CreEnv) (hm : C.noMeta = false) (a : Archive) (cs : List β) (s : InstSt) (hs : CreInv s.st) :
    let r := seqSteps (fun _ => createIfNew C false a) cs s
    r.1.sess = s.sess ∧ WF r.1.st.disk ∧ (UniqueOwner s.st.disk → UniqueOwner r.1.st.disk) ∧
    (r.2 = none → CreInv r.1.st ∧ (∀ n, (n ≠ a.name ∨ s.st.nameExists n = true ∨ cs = []) → mget r.1.st.disk n = mget s.st.disk n) ∧
      (cs ≠ [] → s.st.nameExists a.name = false → Installed r.1.st.disk a.name) ∧
      (∀ n, r.1.st.nameExists n = s.st.nameExists n)) := by
  induction cs generalizing s with
  | nil =>
    simp only [seqSteps]
    exact ⟨trivial, hs.sane.disk, id, fun _ => ⟨hs, fun _ _ => trivial, by simp, fun _ => trivial⟩⟩
  | cons c cs ih =>
    obtain ⟨a1, a2, a3, a4⟩ := createIfNew_spec C hm false a s hs
    simp only [seqSteps]
    cases hr : createIfNew C false a s with
    | mk t e =>
      rw [hr] at a1 a2 a3 a4
      cases e with
      | some e => exact ⟨a1, a2, a3, by simp⟩
      | none =>
        obtain ⟨b1, b2, b3, b4⟩ := a4 rfl
        obtain ⟨c1, c2, c3, c4⟩ := ih t b1
        refine ⟨c1.trans a1, c2, fun hu => c3 (a3 hu), fun hok => ?_⟩
        obtain ⟨d1, d2, d3, d4⟩ := c4 hok
        simp only at b2 b3 b4
        refine ⟨d1, ?_, ?_, fun n => (d4 n).trans (b4 n)⟩
        · intro n hn
          have hn' : n ≠ a.name ∨ s.st.nameExists n = true := by
            rcases hn with h | h | h
            · exact Or.inl h
            · exact Or.inr h
            · simp at h
          rw [← b2 n hn']
          apply d2
          rcases hn' with h | h
          · exact Or.inl h
          · exact Or.inr (Or.inl ((b4 n).trans h))
        · intro _ hx
          by_cases hcs : cs = []
          · subst hcs
            obtain ⟨i, hi, _⟩ := b3 hx
            exact ⟨i, mget_some_mem hi⟩
          · exact d3 hcs ((b4 _).trans hx)

theorem installed_of_mget {db db' : Db} {n : Str} (h : mget db n = mget db' n) (hi : Installed db' n) : Installed db n := by
  rw [← mget_isSome_installed] at hi ⊢
  rwa [h]

/-- One package file of a dependency. -/
theorem depFile_spec (C : CreEnv) (hm : C.noMeta = false) (path : Str) (s : InstSt) (hs : CreInv s.st) :
    let r := depFile C path s
    r.1.sess = s.sess ∧ WF r.1.st.disk ∧ (UniqueOwner s.st.disk → UniqueOwner r.1.st.disk) ∧
    (r.2 = none → CreInv r.1.st ∧ ∃ a, (mget s.sess.files path).bind C.E.pkgOf = some a ∧
      (∀ n, (n ≠ a.name ∨ s.st.nameExists n = true ∨ ¬ GroupWanted C.E.groups a) → mget r.1.st.disk n = mget s.st.disk n) ∧
      (GroupWanted C.E.groups a → s.st.nameExists a.name = false → Installed r.1.st.disk a.name) ∧
      (∀ n, r.1.st.nameExists n = s.st.nameExists n)) := by
  simp only [depFile]
  cases hf : (mget s.sess.files path).bind C.E.pkgOf with
  | none => simp only; exact ⟨trivial, hs.sane.disk, id, by simp⟩
  | some a =>
    obtain ⟨a1, a2, a3, a4⟩ := copies_spec C hm a (depCopies C.E.groups a) s hs
    refine ⟨a1, a2, a3, fun hok => ?_⟩
    obtain ⟨b1, b2, b3, b4⟩ := a4 hok
    refine ⟨b1, a, rfl, ?_, fun hw => b3 (depCopies_wanted.mpr hw), b4⟩
    intro n hn
    apply b2
    rcases hn with h | h | h
    · exact Or.inl h
    · exact Or.inr (Or.inl h)
    · right; right
      by_contra hc
      exact h (depCopies_wanted.mp hc)

/-- The archives read from a list of package files. -/
def ReadFrom (C : CreEnv) (files : List (Str × Str)) (ps : List Str) (a : Archive) : Prop :=
  ∃ p ∈ ps, (mget files p).bind C.E.pkgOf = some a

theorem depFiles_ok (C : CreEnv) (hm : C.noMeta = false) (ps : List Str) (s r : InstSt) (hs : CreInv s.st)
    (h : seqSteps (depFile C) ps s = (r, none)) :
    CreInv r.st ∧ r.sess = s.sess ∧ (∀ n, r.st.nameExists n = s.st.nameExists n) ∧
    (∀ n, Installed s.st.disk n → Installed r.st.disk n) ∧
    (∀ n, mget r.st.disk n ≠ mget s.st.disk n → ∃ a, ReadFrom C s.sess.files ps a ∧ GroupWanted C.E.groups a ∧ a.name = n ∧ s.st.nameExists n = false) ∧
    (∀ a, ReadFrom C s.sess.files ps a → GroupWanted C.E.groups a → s.st.nameExists a.name = false → Installed r.st.disk a.name) := by
  induction ps generalizing s with
  | nil =>
    simp only [seqSteps, Prod.mk.injEq, and_true] at h
    subst h
    refine ⟨hs, rfl, fun _ => rfl, fun _ h => h, fun n h => absurd rfl h, ?_⟩
    rintro a ⟨p, hp, _⟩; simp at hp
  | cons x xs ih =>
    obtain ⟨h1, h2⟩ := seqSteps_cons.mp h
    obtain ⟨a1, _, _, a4⟩ := depFile_spec C hm x s hs
    obtain ⟨b1, a, b2, b3, b4, b5⟩ := a4 h1
    obtain ⟨c1, c2, c3, c4, c5, c6⟩ := ih _ b1 h2
    have hmono : ∀ n, Installed s.st.disk n → Installed (depFile C x s).1.st.disk n := by
      intro n hn
      by_cases hc : n ≠ a.name ∨ s.st.nameExists n = true ∨ ¬ GroupWanted C.E.groups a
      · exact installed_of_mget (b3 n hc) hn
      · push Not at hc
        obtain ⟨rfl, e1, e2⟩ := hc
        exact b4 e2 (by simpa using e1)
    refine ⟨c1, c2.trans a1, fun n => (c3 n).trans (b5 n), fun n hn => c4 n (hmono n hn), ?_, ?_⟩
    · intro n hn
      by_cases hd : mget r.st.disk n = mget (depFile C x s).1.st.disk n
      · by_cases hc : n ≠ a.name ∨ s.st.nameExists n = true ∨ ¬ GroupWanted C.E.groups a
        · exact absurd (hd.trans (b3 n hc)) hn
        · push Not at hc
          obtain ⟨e0, e1, e2⟩ := hc
          exact ⟨a, ⟨x, by simp, b2⟩, e2, e0.symm, by simpa using e1⟩
      · obtain ⟨a', ⟨p, hp, hp2⟩, g2, g3, g4⟩ := c5 n hd
        rw [a1] at hp2
        exact ⟨a', ⟨p, by simp [hp], hp2⟩, g2, g3, (b5 n).symm.trans g4⟩
    · rintro a' ⟨p, hp, hp2⟩ hw hx
      rcases List.mem_cons.mp hp with rfl | hp
      · rw [b2] at hp2
        obtain rfl := Option.some.inj hp2
        exact c4 _ (b4 hw hx)
      · exact c6 a' ⟨p, hp, by rw [a1]; exact hp2⟩ hw ((b5 _).trans hx)

theorem depFiles_any (C : CreEnv) (hm : C.noMeta = false) (ps : List Str) (s : InstSt) (hs : CreInv s.st) :
    WF (seqSteps (depFile C) ps s).1.st.disk ∧ (UniqueOwner s.st.disk → UniqueOwner (seqSteps (depFile C) ps s).1.st.disk) ∧
    (seqSteps (depFile C) ps s).1.sess = s.sess := by
  refine (seqSteps_inv (fun t => CreInv t.st ∧ (UniqueOwner s.st.disk → UniqueOwner t.st.disk) ∧ t.sess = s.sess)
    (fun t => WF t.st.disk ∧ (UniqueOwner s.st.disk → UniqueOwner t.st.disk) ∧ t.sess = s.sess) ps ?_ s ⟨hs, id, rfl⟩ ⟨hs.sane.disk, id, rfl⟩).1
  rintro x - t ⟨h1, h2, h3⟩
  obtain ⟨a1, a2, a3, a4⟩ := depFile_spec C hm x t h1
  exact ⟨⟨a2, fun hu => a3 (h2 hu), a1.trans h3⟩, fun hok => ⟨(a4 hok).1, fun hu => a3 (h2 hu), a1.trans h3⟩⟩

theorem mem_pathsOfGroup' {m : List (Str × RepoPkg)} (n x : Str) :
    x ∈ pathsOfGroup m n ↔ ∃ b, mget m n = some b ∧ ∃ p, (p = b ∨ ∃ k, (k, p) ∈ m ∧ p.baseName = n) ∧ x = p.path := by
  have key : ∀ (l : List (Str × RepoPkg)) (acc : List Str),
      x ∈ l.foldl (fun acc p => if p.2.baseName = n then sinsert (p.2.dirName ++ '/' :: p.2.fileName) acc else acc) acc ↔
        x ∈ acc ∨ ∃ q ∈ l, q.2.baseName = n ∧ x = q.2.dirName ++ '/' :: q.2.fileName := by
    intro l
    induction l with
    | nil => intro acc; simp
    | cons y l ih =>
      intro acc
      rw [List.foldl_cons, ih]
      by_cases hy : y.2.baseName = n
      · rw [if_pos hy, mem_sinsert]
        simp only [List.mem_cons, exists_eq_or_imp]
        tauto
      · rw [if_neg hy]
        simp only [List.mem_cons, exists_eq_or_imp]
        tauto
  unfold pathsOfGroup
  cases hb : mget m n with
  | none => simp
  | some b =>
    simp only [Option.some.injEq, exists_eq_left']
    rw [key]
    simp only [List.mem_singleton]
    constructor
    · rintro (h | ⟨q, hq, h1, h2⟩)
      · exact ⟨b, Or.inl rfl, h⟩
      · exact ⟨q.2, Or.inr ⟨q.1, hq, h1⟩, h2⟩
    · rintro ⟨p, rfl | ⟨k, hk, h1⟩, h2⟩
      · exact Or.inl h2
      · exact Or.inr ⟨(k, p), hk, h1, h2⟩

theorem readFrom_offered {C : CreEnv} {files : List (Str × Str)} {repo : List (Str × RepoPkg)} {ds : List Str} {a : Archive} :
    ReadFrom C files (ds.flatMap (pathsOfGroup repo)) a ↔ ∃ d ∈ ds, OfferedFor C.E.pkgOf repo files d a := by
  unfold ReadFrom OfferedFor
  simp only [List.mem_flatMap, mem_pathsOfGroup']
  constructor
  · rintro ⟨x, ⟨d, hd, b, hb, p, hp, rfl⟩, h⟩
    obtain ⟨c, hc, ha⟩ := Option.bind_eq_some_iff.mp h
    exact ⟨d, hd, b, hb, p, hp, c, hc, ha⟩
  · rintro ⟨d, hd, b, hb, p, hp, c, hc, ha⟩
    exact ⟨p.path, ⟨d, hd, b, hb, p, hp, rfl⟩, by rw [hc]; exact ha⟩

/-- The dependencies `installDependencies` walks through: all of them, each after the ones it needs. -/
theorem depOrder_spec (T : Ports) (h : FreshPorts T) (name : Str) (hn : name ∈ keys T) (hc : CycleFree T name)
    (hd : ∀ x d, Relation.ReflTransGen (Declares T) name x → Declares T x d → d ∈ keys T ∧ '.' ∉ d) :
    ∃ T' list, loadPorts T = some T' ∧ dependsList T' (T'.length + 1) name [] = some list ∧
      (∀ n, n ∈ depOrder T' list name ↔ PortDependsOn T name n) ∧ (depOrder T' list name).Nodup ∧
      (depOrder T' list name).Pairwise (fun x y => ¬ (Declares T x y ∧ x ≠ y)) := by
  obtain ⟨T', lines, e, hp, h1, h2, h3⟩ := Props.C18_printed_partial T h name hn hc hd
  unfold dependsPrint at hp
  obtain ⟨list, hl, hlines⟩ := Option.map_eq_some_iff.mp hp
  refine ⟨T', list, e, hl, ?_⟩
  have hq : ∀ (l : List Nat), (l.flatMap (fun l => (list.filter (fun i => portLevel T' i = l)).map (fun i => (l, i)))).map (·.2) =
      l.flatMap (fun l => list.filter (fun i => portLevel T' i = l)) := by
    intro l
    rw [List.map_flatMap]
    apply List.flatMap_congr
    intro i _
    rw [List.map_map]
    exact List.map_id _
  have hmap : lines.map (·.2) = (List.range (portLevel T' name)).flatMap (fun l => list.filter (fun i => portLevel T' i = l)) ++ [name] := by
    rw [← hlines, List.map_append, hq]; rfl
  have hne : ∀ x ∈ (List.range (portLevel T' name)).flatMap (fun l => list.filter (fun i => portLevel T' i = l)), x ≠ name := by
    rw [hmap, List.nodup_append] at h2
    intro x hx
    exact h2.2.2 x hx name (by simp)
  have horder : depOrder T' list name = (List.range (portLevel T' name)).flatMap (fun l => list.filter (fun i => portLevel T' i = l)) := by
    unfold depOrder
    rw [List.takeWhile_eq_self_iff]
    intro x hx
    simpa using hne x hx
  rw [← horder] at hmap hne
  refine ⟨?_, ?_, ?_⟩
  · intro n
    have : n ∈ lines.map (·.2) ↔ Relation.ReflTransGen (Declares T) name n := by
      constructor
      · intro hx
        obtain ⟨⟨l, m⟩, hm, rfl⟩ := List.mem_map.mp hx
        exact ((h1 l m).mp hm).1
      · intro hx
        exact List.mem_map.mpr ⟨(portLevel T' n, n), (h1 _ _).mpr ⟨hx, rfl⟩, rfl⟩
    unfold PortDependsOn
    rw [← this, hmap, List.mem_append, List.mem_singleton]
    constructor
    · intro hx; exact ⟨Or.inl hx, hne n hx⟩
    · rintro ⟨h' | h', h''⟩
      · exact h'
      · exact absurd h' h''
  · rw [hmap, List.nodup_append] at h2; exact h2.1
  · have h3' : (lines.map (·.2)).Pairwise (fun x y => ¬ (Declares T x y ∧ x ≠ y)) := by
      rw [List.pairwise_map]; exact h3
    rw [hmap, List.pairwise_append] at h3'
    exact h3'.1

end Cards
