import Verif.Props.Repo
/-!
# C27: sets and collections list exactly their members
-/
namespace Cards.Props
open Cards

theorem line_msorted {s s' : RepoSt} {p : Str} (h : s.line p = some s') (hs : MSorted s.map) : MSorted s'.map := by
  unfold RepoSt.line at h
  split at h
  · split at h
    · simp only [Option.some.injEq] at h; subst h; exact hs
    · simp only [Option.some.injEq] at h; subst h; exact hs
  · split at h
    · simp only [Option.some.injEq] at h
      subst h
      unfold RepoSt.finish
      simp only
      apply msorted_mset
      split
      · split
        · exact hs
        · exact msorted_mset hs
      · exact hs
    · split at h
      · split at h
        · simp at h
        · simp only [Option.some.injEq] at h; subst h; rw [fld_map]; exact hs
      · simp only [Option.some.injEq] at h; subst h; exact hs

theorem lines_msorted (ls : List Str) {s s' : RepoSt} (h : ls.foldlM RepoSt.line s = some s') (hs : MSorted s.map) : MSorted s'.map := by
  induction ls generalizing s with
  | nil => simp at h; subst h; exact hs
  | cons l ls ih =>
    rw [List.foldlM_cons] at h
    cases h1 : s.line l with
    | none => rw [h1] at h; simp at h
    | some t => rw [h1] at h; exact ih h (line_msorted h1 hs)

theorem parseRepo_msorted {init : RepoPkg} {cs : List Coll} {m : List (Str × RepoPkg)} (h : parseRepo init cs = some m) : MSorted m := by
  suffices H : ∀ (cs : List Coll) (st st' : RepoPkg × List (Str × RepoPkg)), cs.foldlM readColl st = some st' → MSorted st.2 → MSorted st'.2 by
    unfold parseRepo at h
    cases h1 : cs.foldlM readColl (init, []) with
    | none => rw [h1] at h; simp at h
    | some st => rw [h1] at h; simp at h; subst h; exact H cs _ _ h1 List.Pairwise.nil
  intro cs
  induction cs with
  | nil => intro st st' h hs; simp at h; subst h; exact hs
  | cons c cs ih =>
    intro st st' h hs
    rw [List.foldlM_cons] at h
    cases h1 : readColl st c with
    | none => rw [h1] at h; simp at h
    | some t =>
      rw [h1] at h
      refine ih t st' h ?_
      unfold readColl at h1
      simp only at h1
      split at h1
      · simp only [Option.some.injEq] at h1; subst h1; exact hs
      · split at h1
        · simp at h1
        · rename_i hr
          simp only [Option.some.injEq] at h1; subst h1
          exact lines_msorted _ hr hs

theorem mem_fold_insert (m : List (Str × RepoPkg)) (q : Str × RepoPkg → Prop) [DecidablePred q] (acc : List Str) (x : Str) :
    x ∈ m.foldl (fun acc p => if q p then sinsert p.1 acc else acc) acc ↔ x ∈ acc ∨ ∃ p, (x, p) ∈ m ∧ q (x, p) := by
  induction m generalizing acc with
  | nil => simp
  | cons y m ih =>
    rw [List.foldl_cons, ih]
    constructor
    · rintro (h | ⟨p, h1, h2⟩)
      · split at h
        · rename_i hq
          rcases mem_sinsert.mp h with rfl | h
          · exact .inr ⟨y.2, by simp, hq⟩
          · exact .inl h
        · exact .inl h
      · exact .inr ⟨p, by simp [h1], h2⟩
    · rintro (h | ⟨p, h1, h2⟩)
      · left; split
        · exact mem_sinsert.mpr (.inr h)
        · exact h
      · rcases List.mem_cons.mp h1 with e | h1
        · subst e; left; rw [if_pos h2]; exact mem_sinsert.mpr (.inl rfl)
        · exact .inr ⟨p, h1, h2⟩

theorem mem_packagesOfSet {m : List (Str × RepoPkg)} (hm : MSorted m) (n x : Str) :
    x ∈ packagesOfSet m n ↔ ∃ p, mget m x = some p ∧ n ∈ p.sets ∧ p.group = [] := by
  unfold packagesOfSet
  rw [mem_fold_insert m (fun p => (p.2.sets.any (fun s => s = n && p.2.group = [])) = true)]
  simp only [List.not_mem_nil, false_or, List.any_eq_true, Bool.and_eq_true, decide_eq_true_eq]
  constructor
  · rintro ⟨p, h1, s, h2, rfl, h3⟩
    exact ⟨p, (mget_iff_mem hm).mpr h1, h2, h3⟩
  · rintro ⟨p, h1, h2, h3⟩
    exact ⟨p, (mget_iff_mem hm).mp h1, n, h2, rfl, h3⟩

theorem mem_packagesOfCollection {m : List (Str × RepoPkg)} (hm : MSorted m) (n x : Str) :
    x ∈ packagesOfCollection m n ↔ ∃ p, mget m x = some p ∧ p.collection = n ∧ p.group = [] ∧ p.nls = [] := by
  unfold packagesOfCollection
  rw [mem_fold_insert m (fun p => p.2.collection = n ∧ p.2.group = [] ∧ p.2.nls = [])]
  simp only [List.not_mem_nil, false_or]
  constructor
  · rintro ⟨p, h1, h2⟩
    exact ⟨p, (mget_iff_mem hm).mpr h1, h2⟩
  · rintro ⟨p, h1, h2⟩
    exact ⟨p, (mget_iff_mem hm).mp h1, h2⟩

/-- The package files describe different packages. -/
def DistinctNames (cs : List (Coll × List Rec)) : Prop :=
  (allRecs cs).Pairwise (fun a b => ∀ n, a.2.Has 'N' n → ¬ b.2.Has 'N' n)

/-- The description says the package is a sub-package of a group (languages are described with another letter). -/
def Rec.IsGroup (r : Rec) : Prop := ∃ v, v ≠ [] ∧ r.Has 'g' v

/-- The description says the package is a language package. -/
def Rec.IsNls (r : Rec) : Prop := ∃ v, v ≠ [] ∧ r.Has 'n' v

theorem describes_group {p : RepoPkg} {r : Rec} {c : Coll} (h : Describes p r c) : p.group = [] ↔ ¬ Rec.IsGroup r := by
  by_cases hg : ∃ v, r.Has 'g' v
  · obtain ⟨v, hv⟩ := hg
    have := h.group v hv
    constructor
    · rintro e ⟨w, hw, hw'⟩
      exact hw ((h.group w hw').symm.trans e)
    · intro hn
      rw [this]
      by_contra hne
      exact hn ⟨v, hne, hv⟩
  · push Not at hg
    exact ⟨fun _ ⟨v, _, hv⟩ => hg v hv, fun _ => h.noGroup hg⟩

theorem describes_nls {p : RepoPkg} {r : Rec} {c : Coll} (h : Describes p r c) : p.nls = [] ↔ ¬ Rec.IsNls r := by
  by_cases hg : ∃ v, r.Has 'n' v
  · obtain ⟨v, hv⟩ := hg
    have := h.nls v hv
    constructor
    · rintro e ⟨w, hw, hw'⟩
      exact hw ((h.nls w hw').symm.trans e)
    · intro hn
      rw [this]
      by_contra hne
      exact hn ⟨v, hne, hv⟩
  · push Not at hg
    exact ⟨fun _ ⟨v, _, hv⟩ => hg v hv, fun _ => h.noNls hg⟩

theorem entry_of_name (cs : List (Coll × List Rec)) (hd : DistinctNames cs) {m : List (Str × RepoPkg)}
    (h1 : ∀ a c r b, allRecs cs = a ++ (c, r) :: b → ∀ n, r.Has 'N' n → (∀ x ∈ b, ¬ x.2.Has 'N' n) → ∃ p, mget m n = some p ∧ Describes p r c)
    {x : Coll × Rec} (hx : x ∈ allRecs cs) {n : Str} (hn : x.2.Has 'N' n) : ∃ p, mget m n = some p ∧ Describes p x.2 x.1 := by
  obtain ⟨a, b, e⟩ := List.append_of_mem hx
  refine h1 a x.1 x.2 b e n hn ?_
  intro y hy
  unfold DistinctNames at hd
  rw [e, List.pairwise_append] at hd
  exact (List.pairwise_cons.mp hd.2.1).1 y hy n hn

/-- **C27**, sets: for every repository written by `cards repo`, the packages of a set are exactly the packages, other than sub-packages of a group, whose
description names the set. -/
theorem C27_set_members (init : RepoPkg) (cs : List (Coll × List Rec))
    (h : ∀ x ∈ cs, x.1.repo = some (writeRepo x.2) ∧ x.1.name ≠ [] ∧ ∀ r ∈ x.2, RecOk r) (hd : DistinctNames cs) :
    ∃ m, parseRepo init (cs.map (·.1)) = some m ∧ ∀ set n, n ∈ packagesOfSet m set ↔
      ∃ x ∈ allRecs cs, x.2.Has 'N' n ∧ x.2.Has 's' set ∧ ¬ Rec.IsGroup x.2 := by
  obtain ⟨m, h0, h1, h2⟩ := C26_roundtrip_partial init cs h
  refine ⟨m, h0, fun set n => ?_⟩
  rw [mem_packagesOfSet (parseRepo_msorted h0)]
  constructor
  · rintro ⟨p, hp, hs, hg⟩
    have hk : n ∈ keys m := by
      by_contra hk
      rw [mget_none_iff.mpr hk] at hp; simp at hp
    obtain ⟨x, hx, hn⟩ := (h2 n).mp hk
    obtain ⟨q, hq, hdq⟩ := entry_of_name cs hd h1 hx hn
    rw [hp] at hq
    simp only [Option.some.injEq] at hq
    subst hq
    exact ⟨x, hx, hn, (hdq.sets set).mp hs, (describes_group hdq).mp hg⟩
  · rintro ⟨x, hx, hn, hs, hg⟩
    obtain ⟨q, hq, hdq⟩ := entry_of_name cs hd h1 hx hn
    exact ⟨q, hq, (hdq.sets set).mpr hs, (describes_group hdq).mpr hg⟩

/-- **C27**, collections: for every repository written by `cards repo` whose descriptions all name their collection (pkgmk always writes it), the packages of a
collection are exactly the packages of that collection that are neither sub-packages of a group nor language packages. -/
theorem C27_collection_members (init : RepoPkg) (cs : List (Coll × List Rec))
    (h : ∀ x ∈ cs, x.1.repo = some (writeRepo x.2) ∧ x.1.name ≠ [] ∧ ∀ r ∈ x.2, RecOk r) (hd : DistinctNames cs)
    (hc : ∀ x ∈ allRecs cs, ∃ v, x.2.Has 'c' v) :
    ∃ m, parseRepo init (cs.map (·.1)) = some m ∧ ∀ coll n, n ∈ packagesOfCollection m coll ↔
      ∃ x ∈ allRecs cs, x.2.Has 'N' n ∧ x.2.Has 'c' coll ∧ ¬ Rec.IsGroup x.2 ∧ ¬ Rec.IsNls x.2 := by
  obtain ⟨m, h0, h1, h2⟩ := C26_roundtrip_partial init cs h
  refine ⟨m, h0, fun coll n => ?_⟩
  rw [mem_packagesOfCollection (parseRepo_msorted h0)]
  constructor
  · rintro ⟨p, hp, hs, hg, hl⟩
    have hk : n ∈ keys m := by
      by_contra hk
      rw [mget_none_iff.mpr hk] at hp; simp at hp
    obtain ⟨x, hx, hn⟩ := (h2 n).mp hk
    obtain ⟨q, hq, hdq⟩ := entry_of_name cs hd h1 hx hn
    rw [hp] at hq
    simp only [Option.some.injEq] at hq
    subst hq
    obtain ⟨v, hv⟩ := hc x hx
    have : v = coll := (hdq.collection v hv).symm.trans hs
    subst this
    exact ⟨x, hx, hn, hv, (describes_group hdq).mp hg, (describes_nls hdq).mp hl⟩
  · rintro ⟨x, hx, hn, hs, hg, hl⟩
    obtain ⟨q, hq, hdq⟩ := entry_of_name cs hd h1 hx hn
    exact ⟨q, hq, hdq.collection coll hs, (describes_group hdq).mpr hg, (describes_nls hdq).mpr hl⟩

theorem mem_pathsOfGroup {m : List (Str × RepoPkg)} (hm : MSorted m) (n x : Str) :
    x ∈ pathsOfGroup m n ↔ ∃ b, mget m n = some b ∧
      (x = b.dirName ++ '/' :: b.fileName ∨ ∃ k p, mget m k = some p ∧ p.baseName = n ∧ x = p.dirName ++ '/' :: p.fileName) := by
  have key : ∀ (l : List (Str × RepoPkg)) (acc : List Str),
      x ∈ l.foldl (fun acc p => if p.2.baseName = n then sinsert (p.2.dirName ++ '/' :: p.2.fileName) acc else acc) acc ↔
        x ∈ acc ∨ ∃ q ∈ l, q.2.baseName = n ∧ x = q.2.dirName ++ '/' :: q.2.fileName := by
    intro l
    induction l with
    | nil => intro acc; simp
    | cons y l ih =>
      intro acc
      rw [List.foldl_cons, ih]
      by_cases hy : y.2.baseName = n
      · rw [if_pos hy, mem_sinsert]
        simp only [List.mem_cons, exists_eq_or_imp]
        tauto
      · rw [if_neg hy]
        simp only [List.mem_cons, exists_eq_or_imp]
        tauto
  unfold pathsOfGroup
  cases hb : mget m n with
  | none => simp
  | some b =>
    simp only [Option.some.injEq, exists_eq_left']
    rw [key]
    simp only [List.mem_singleton]
    constructor
    · rintro (h | ⟨q, hq, h1, h2⟩)
      · exact Or.inl h
      · exact Or.inr ⟨q.1, q.2, (mget_iff_mem hm).mpr hq, h1, h2⟩
    · rintro (h | ⟨k, p, hq, h1, h2⟩)
      · exact Or.inl h
      · exact Or.inr ⟨(k, p), (mget_iff_mem hm).mp hq, h1, h2⟩

/-- **C27**, a package with its sub-packages: for every repository written by `cards repo` whose descriptions are those of packages or of sub-packages, the files
that go with a package of the repository are exactly its own and those of its sub-packages. -/
theorem C27_group_members (init : RepoPkg) (cs : List (Coll × List Rec))
    (h : ∀ x ∈ cs, x.1.repo = some (writeRepo x.2) ∧ x.1.name ≠ [] ∧ ∀ r ∈ x.2, RecOk r) (hd : DistinctNames cs)
    (hs : ∀ x ∈ allRecs cs, (∃ b g, x.2.SubOf b g) ∨ ∀ v, ¬ x.2.Has 'g' v ∧ ¬ x.2.Has 'n' v) :
    ∃ m, parseRepo init (cs.map (·.1)) = some m ∧ ∀ n path, n ≠ [] → (path ∈ pathsOfGroup m n ↔
      (∃ y ∈ allRecs cs, y.2.Has 'N' n) ∧
      ∃ x ∈ allRecs cs, (x.2.Has 'N' n ∨ ∃ g, x.2.SubOf n g) ∧ path = (x.1.dir ++ '/' :: x.1.name) ++ '/' :: x.2.file) := by
  obtain ⟨m, h0, h1, h2⟩ := C26_roundtrip_partial init cs h
  refine ⟨m, h0, fun n path hne => ?_⟩
  rw [mem_pathsOfGroup (parseRepo_msorted h0)]
  have sub : ∀ {x : Coll × Rec} {b g : Str}, x.2.SubOf b g → x.2.Has 'N' (b ++ '.' :: g) := by
    rintro x b g ⟨⟨rest, e⟩, _, _⟩
    unfold Rec.Has; rw [e]; simp
  constructor
  · rintro ⟨b, hb, hx⟩
    have hk : n ∈ keys m := by
      by_contra hk
      rw [mget_none_iff.mpr hk] at hb; simp at hb
    obtain ⟨y, hy, hyn⟩ := (h2 n).mp hk
    refine ⟨⟨y, hy, hyn⟩, ?_⟩
    rcases hx with rfl | ⟨k, p, hp, hbase, rfl⟩
    · obtain ⟨q, hq, hdq⟩ := entry_of_name cs hd h1 hy hyn
      rw [hb] at hq
      simp only [Option.some.injEq] at hq
      subst hq
      exact ⟨y, hy, Or.inl hyn, by rw [hdq.dir, hdq.file]⟩
    · have hk : k ∈ keys m := by
        by_contra hk
        rw [mget_none_iff.mpr hk] at hp; simp at hp
      obtain ⟨x, hx, hxn⟩ := (h2 k).mp hk
      obtain ⟨q, hq, hdq⟩ := entry_of_name cs hd h1 hx hxn
      rw [hp] at hq
      simp only [Option.some.injEq] at hq
      subst hq
      refine ⟨x, hx, Or.inr ?_, by rw [hdq.dir, hdq.file]⟩
      rcases hs x hx with ⟨b', g, hsub⟩ | hno
      · have := hdq.base b' g hsub
        rw [hbase] at this
        exact ⟨g, this ▸ hsub⟩
      · exact absurd (hbase.symm.trans (hdq.noBase hno)) hne
  · rintro ⟨⟨y, hy, hyn⟩, x, hx, hxn, rfl⟩
    obtain ⟨b, hb, hdb⟩ := entry_of_name cs hd h1 hy hyn
    refine ⟨b, hb, ?_⟩
    rcases hxn with hxn | ⟨g, hsub⟩
    · obtain ⟨q, hq, hdq⟩ := entry_of_name cs hd h1 hx hxn
      rw [hb] at hq
      simp only [Option.some.injEq] at hq
      subst hq
      exact Or.inl (by rw [hdq.dir, hdq.file])
    · obtain ⟨q, hq, hdq⟩ := entry_of_name cs hd h1 hx (sub hsub)
      exact Or.inr ⟨_, q, hq, hdq.base n g hsub, by rw [hdq.dir, hdq.file]⟩

/-- The hypothesis on the descriptions holds for the sub-package and the package of the examples. -/
example : rSub.SubOf "zstd".toList "ca".toList ∧ ∀ v, ¬ rZlib.Has 'g' v ∧ ¬ rZlib.Has 'n' v := by
  refine ⟨⟨⟨_, rfl⟩, Or.inl (by unfold Rec.Has; decide), ?_⟩, ?_⟩
  · rintro v (h | h)
    · exact rSub_ok.single 'g' (by decide) v _ h (by unfold Rec.Has; decide)
    · have : ∀ l ∈ rSub.md, l.head? ≠ some 'n' := by decide
      exact absurd rfl (this _ h)
  · intro v
    have : ∀ l ∈ rZlib.md, l.head? ≠ some 'g' ∧ l.head? ≠ some 'n' := by decide
    exact ⟨fun h => (this _ h).1 rfl, fun h => (this _ h).2 rfl⟩

/-- The hypotheses hold for the repository of the examples; the set "libs" has the member zlib and no other. -/
example : ∃ m, parseRepo defaultPkg [xColl [rZlib, rSub]] = some m ∧ (∀ n, n ∈ packagesOfSet m "libs".toList ↔ n = "zlib".toList) := by
  obtain ⟨m, h0, h1⟩ := C27_set_members defaultPkg [(xColl [rZlib, rSub], [rZlib, rSub])] (by
    intro x hx
    simp only [List.mem_singleton] at hx
    subst hx
    refine ⟨(xColl_spec _).1, (xColl_spec _).2, ?_⟩
    intro r hr
    simp only [List.mem_cons, List.not_mem_nil, or_false] at hr
    rcases hr with rfl | rfl
    · exact rZlib_ok
    · exact rSub_ok) (by
    simp only [DistinctNames, allRecs, List.flatMap_cons, List.flatMap_nil, List.map_cons, List.map_nil, List.append_nil]
    refine List.pairwise_cons.mpr ⟨?_, List.pairwise_singleton _ _⟩
    intro b hb n hn
    simp only [List.mem_singleton] at hb
    subst hb
    have e : n = "zlib".toList := rZlib_ok.single 'N' (by decide) n _ hn (by unfold Rec.Has; decide)
    rw [e]
    show ¬ rSub.Has 'N' _
    unfold Rec.Has; decide)
  refine ⟨m, h0, fun n => ?_⟩
  rw [h1]
  constructor
  · rintro ⟨x, hx, hn, hs, _⟩
    simp only [allRecs, List.flatMap_cons, List.flatMap_nil, List.map_cons, List.map_nil, List.append_nil, List.mem_cons, List.not_mem_nil,
      or_false] at hx
    rcases hx with rfl | rfl
    · exact rZlib_ok.single 'N' (by decide) n _ hn (by unfold Rec.Has; decide)
    · exact absurd (show rSub.Has 's' _ from hs) (by unfold Rec.Has; decide)
  · rintro rfl
    refine ⟨(xColl [rZlib, rSub], rZlib), by simp [allRecs], by unfold Rec.Has; decide, by unfold Rec.Has; decide, ?_⟩
    rintro ⟨v, _, hv⟩
    have : ∀ l ∈ rZlib.md, l.head? ≠ some 'g' := by decide
    exact this _ hv rfl

end Cards.Props
