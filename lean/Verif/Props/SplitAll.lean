import Mathlib.Tactic.Common
import Verif.Props.Split
/-!
# C93: the packages of a port hold what the build has made, as a whole
-/
namespace Cards.Props
open Cards Cards.Spec

/-! ## The directories of the loops -/

theorem home_unique {h h' p : List Str} (hh : Home h) (hh' : Home h') (a : h <+: p) (b : h' <+: p) : h = h' := by
  obtain ⟨r, rfl⟩ := a
  obtain ⟨r', e⟩ := b
  cases hh <;> cases hh'
  · rfl
  · simp only [List.cons_append, List.nil_append, List.cons.injEq] at e
    exact absurd e.1 (by decide)
  · simp only [List.cons_append, List.nil_append, List.cons.injEq] at e
    exact absurd e.1 (by decide)
  · simp only [List.cons_append, List.nil_append, List.cons.injEq] at e
    rw [e.2.1]

theorem mem_optNames {t : List PEnt} {x : Str} : x ∈ optNames t ↔ x.head? ≠ some '.' ∧ ∃ e ∈ t, ∃ r, e.path = "opt".toList :: x :: r := by
  unfold optNames
  rw [mem_sofList, List.mem_filterMap]
  constructor
  · rintro ⟨e, he, hm⟩
    split at hm
    · rename_i o y r hp
      split at hm
      · rename_i hc
        cases hm
        exact ⟨hc.2, e, he, r, by rw [hp, hc.1]⟩
      · cases hm
    · cases hm
  · rintro ⟨hx, e, he, r, hp⟩
    refine ⟨e, he, ?_⟩
    rw [hp]
    simp only
    rw [if_pos ⟨trivial, hx⟩]

theorem mem_prefixes_home {t : List PEnt} {p : List Str} (h : p ∈ prefixes t) : Home p := by
  unfold prefixes at h
  rcases List.mem_cons.mp h with rfl | h
  · exact Home.usr
  · obtain ⟨x, hx, rfl⟩ := List.mem_map.mp h
    exact Home.opt x (mem_optNames.mp hx).1

theorem home_mem_prefixes {t : List PEnt} {e : PEnt} (he : e ∈ t) {h : List Str} (hh : Home h) (hp : h <+: e.path) : h ∈ prefixes t := by
  unfold prefixes
  cases hh with
  | usr => exact List.mem_cons_self ..
  | opt x hx =>
    obtain ⟨r, hr⟩ := hp
    exact List.mem_cons_of_mem _ (List.mem_map.mpr ⟨x, mem_optNames.mpr ⟨hx, e, he, r, hr.symm⟩, rfl⟩)

theorem mem_loopDirs {t : List PEnt} {subs : List (List Str)} {d : List Str} : d ∈ loopDirs t subs ↔ ∃ p ∈ prefixes t, ∃ s ∈ subs, d = p ++ s := by
  unfold loopDirs
  simp only [List.mem_flatMap, List.mem_map]
  constructor
  · rintro ⟨p, hp, s, hs, rfl⟩
    exact ⟨p, hp, s, hs, rfl⟩
  · rintro ⟨p, hp, s, hs, rfl⟩
    exact ⟨p, hp, s, hs, rfl⟩

theorem loopDirs_below {t : List PEnt} {e : PEnt} (he : e ∈ t) (subs : List (List Str)) :
    (∃ d ∈ loopDirs t subs, Below d e.path) ↔ ∃ h s, Home h ∧ s ∈ subs ∧ Below (h ++ s) e.path := by
  constructor
  · rintro ⟨d, hd, hb⟩
    obtain ⟨p, hp, s, hs, rfl⟩ := mem_loopDirs.mp hd
    exact ⟨p, s, mem_prefixes_home hp, hs, hb⟩
  · rintro ⟨h, s, hh, hs, hb⟩
    exact ⟨h ++ s, mem_loopDirs.mpr ⟨h, home_mem_prefixes he hh ((List.prefix_append h s).trans (below_prefix hb)), s, hs, rfl⟩, hb⟩

theorem nodup_optNames (t : List PEnt) : (optNames t).Nodup := by
  have h := sorted_sofList (t.filterMap (fun e =>
    match e.path with
    | o :: x :: _ => if o = "opt".toList ∧ x.head? ≠ some '.' then some x else none
    | _ => none))
  refine List.Pairwise.imp ?_ h
  intro a b hab e
  subst e
  exact str_lt_irrefl a hab

theorem nodup_prefixes (t : List PEnt) : (prefixes t).Nodup := by
  unfold prefixes
  rw [List.nodup_cons]
  constructor
  · intro hm
    obtain ⟨x, _, hx⟩ := List.mem_map.mp hm
    have := congrArg List.length hx
    simp at this
  · refine List.Pairwise.map _ ?_ (nodup_optNames t)
    intro a b hab e
    exact hab (by simpa using e)

theorem nodup_loopDirs (t : List PEnt) {subs : List (List Str)} (hs : subs.Nodup) : (loopDirs t subs).Nodup := by
  unfold loopDirs
  unfold List.Nodup
  rw [List.pairwise_flatMap]
  constructor
  · intro p _
    refine List.Pairwise.map _ ?_ hs
    intro a b hab e
    exact hab (List.append_cancel_left e)
  · refine List.Pairwise.imp_of_mem ?_ (nodup_prefixes t)
    intro p q hp hq hpq x hx y hy e
    obtain ⟨s, _, rfl⟩ := List.mem_map.mp hx
    obtain ⟨s', _, rfl⟩ := List.mem_map.mp hy
    exact hpq (home_unique (mem_prefixes_home hp) (mem_prefixes_home hq) (List.prefix_append p s) (by rw [e]; exact List.prefix_append q s'))

theorem countP_one {α : Type} (P : α → Bool) : ∀ l : List α, l.Nodup → (∀ a ∈ l, ∀ b ∈ l, P a = true → P b = true → a = b) → (∃ a ∈ l, P a = true) →
    l.countP P = 1 := by
  intro l
  induction l with
  | nil => rintro _ _ ⟨a, h, _⟩; cases h
  | cons x l ih =>
    intro hn hu hex
    rw [List.nodup_cons] at hn
    by_cases hx : P x = true
    · rw [List.countP_cons_of_pos hx, List.countP_eq_zero.mpr]
      intro b hb hpb
      have := hu x (by simp) b (by simp [hb]) hx hpb
      subst this
      exact hn.1 hb
    · rw [List.countP_cons_of_neg hx]
      refine ih hn.2 (fun a ha b hb => hu a (by simp [ha]) b (by simp [hb])) ?_
      obtain ⟨a, ha, hpa⟩ := hex
      rcases List.mem_cons.mp ha with rfl | ha
      · exact absurd hpa hx
      · exact ⟨a, ha, hpa⟩

theorem prefix_same_length {α : Type} {a b p : List α} (ha : a <+: p) (hb : b <+: p) (h : a.length = b.length) : a = b := by
  obtain ⟨r, rfl⟩ := ha
  obtain ⟨r', e⟩ := hb
  exact ((List.append_inj e h.symm).1).symm

/-- Directories of the same depth below the homes: at most one is above the file. -/
theorem loopDirs_one {t : List PEnt} {subs : List (List Str)} {n : Nat} (hl : ∀ s ∈ subs, s.length = n) {p a b : List Str}
    (ha : a ∈ loopDirs t subs) (hb : b ∈ loopDirs t subs) (hpa : Below a p) (hpb : Below b p) : a = b := by
  obtain ⟨h, hh, s, hs, rfl⟩ := mem_loopDirs.mp ha
  obtain ⟨h', hh', s', hs', rfl⟩ := mem_loopDirs.mp hb
  have e := home_unique (mem_prefixes_home hh) (mem_prefixes_home hh') ((List.prefix_append h s).trans (below_prefix hpa))
    ((List.prefix_append h' s').trans (below_prefix hpb))
  subst e
  exact prefix_same_length (below_prefix hpa) (below_prefix hpb) (by simp [hl s hs, hl s' hs'])

/-! ## One group -/

open Classical in
/-- Packing all and then removing all. -/
theorem pack_then_rm {e : PEnt} (hd : e.dir = false) (a : Str) (ds ds' : List (List Str)) {s : PackSt} (h : Here e s)
    (hn : ds.Nodup) (hu : ∀ x ∈ ds, ∀ y ∈ ds, Below x e.path → Below y e.path → x = y)
    (heq : (∃ d ∈ ds, Below d e.path) ↔ (∃ d ∈ ds', Below d e.path)) :
    ((∃ d ∈ ds, Below d e.path) → Gone e (some a) (ds'.foldl rmDir (ds.foldl (packDir a) s))) ∧
    ((¬ ∃ d ∈ ds, Below d e.path) → Here e (ds'.foldl rmDir (ds.foldl (packDir a) s))) := by
  obtain ⟨p1, p2⟩ := pack_fold hd a ds s h.one h.alone
  obtain ⟨r1, r2, r3, r4⟩ := rm_fold hd ds' (ds.foldl (packDir a) s) (by rw [p1]; exact h.alone)
  constructor
  · intro hx
    refine ⟨r3 (Or.inl (heq.mp hx)), fun b => ?_⟩
    rw [r1, p2, h.none, countP_one _ ds hn (fun x hx y hy h1 h2 => hu x hx y hy (by simpa using h1) (by simpa using h2))
      (by obtain ⟨d, hd, hb⟩ := hx; exact ⟨d, hd, by simpa using hb⟩)]
    by_cases hab : b = a
    · subst hab; simp
    · rw [if_neg hab, if_neg (fun h => hab (Option.some.inj h).symm)]
  · intro hx
    refine ⟨?_, fun b => ?_, r2⟩
    · rw [r4 (fun d hd hb => hx (heq.mpr ⟨d, hd, hb⟩)), p1, h.one]
    · rw [r1, p2, h.none, List.countP_eq_zero.mpr (fun d hd hb => hx ⟨d, hd, by simpa using hb⟩)]
      simp

theorem notBelow {ds : List (List Str)} {p : List Str} (h : ¬ ∃ d ∈ ds, Below d p) : ∀ d ∈ ds, ¬ Below d p := fun d hd hb => h ⟨d, hd, hb⟩

theorem inGroup_home {g : Str} {p : List Str} (hg : g ≠ "service".toList) : InGroup g p ↔ ∃ h s, Home h ∧ s ∈ homeDirs g ∧ Below (h ++ s) p := by
  unfold InGroup
  constructor
  · rintro (h | h)
    · exact h
    · exact absurd h.1 hg
  · exact Or.inl

theorem homeDirs_devel : homeDirs "devel".toList = develSubs := by decide +kernel
theorem homeDirs_doc : homeDirs "doc".toList = docSubs := by decide +kernel
theorem homeDirs_man : homeDirs "man".toList = manSubs := by decide +kernel
theorem homeDirs_lib : homeDirs "lib".toList = libSubs := by decide +kernel
theorem homeDirs_service : homeDirs "service".toList = [] := by decide +kernel

theorem group_devel {e : PEnt} (hd : e.dir = false) {s : PackSt} (h : Here e s) :
    (InGroup "devel".toList e.path → Gone e (some "devel".toList) (packGroup s "devel".toList)) ∧
    (¬ InGroup "devel".toList e.path → Here e (packGroup s "devel".toList)) := by
  rw [inGroup_home (by decide +kernel), homeDirs_devel, ← loopDirs_below h.mem]
  unfold packGroup
  rw [if_pos rfl]
  obtain ⟨f1, f2⟩ := packRm_fold hd "devel".toList (loopDirs s.tree develSubs) s h
  constructor
  · intro hx
    exact foldl_gone rmDir (fun s x h => rmDir_gone h x) _ _ (f1 hx)
  · intro hx
    have hh := f2 (notBelow hx)
    refine (rm_fold_here hd _ _ hh).2 (notBelow ?_)
    rw [loopDirs_below hh.mem, ← loopDirs_below h.mem]
    exact hx

theorem group_pairs {e : PEnt} (hd : e.dir = false) {s : PackSt} (h : Here e s) (a : Str) (subs : List (List Str)) (hn : subs.Nodup) {n : Nat}
    (hl : ∀ x ∈ subs, x.length = n) :
    ((∃ d ∈ loopDirs s.tree subs, Below d e.path) → Gone e (some a)
      ((loopDirs ((loopDirs s.tree subs).foldl (packDir a) s).tree subs).foldl rmDir ((loopDirs s.tree subs).foldl (packDir a) s))) ∧
    ((¬ ∃ d ∈ loopDirs s.tree subs, Below d e.path) → Here e
      ((loopDirs ((loopDirs s.tree subs).foldl (packDir a) s).tree subs).foldl rmDir ((loopDirs s.tree subs).foldl (packDir a) s))) := by
  have ht := (pack_fold hd a (loopDirs s.tree subs) s h.one h.alone).1
  rw [ht]
  exact pack_then_rm hd a _ _ h (nodup_loopDirs _ hn) (fun x hx y hy => loopDirs_one hl hx hy) Iff.rfl

theorem group_doc {e : PEnt} (hd : e.dir = false) {s : PackSt} (h : Here e s) :
    (InGroup "doc".toList e.path → Gone e (some "doc".toList) (packGroup s "doc".toList)) ∧
    (¬ InGroup "doc".toList e.path → Here e (packGroup s "doc".toList)) := by
  rw [inGroup_home (by decide +kernel), homeDirs_doc, ← loopDirs_below h.mem]
  unfold packGroup
  rw [if_neg (by decide +kernel), if_pos rfl]
  exact group_pairs hd h _ docSubs (by decide +kernel) (n := 2) (by decide +kernel)

theorem group_man {e : PEnt} (hd : e.dir = false) {s : PackSt} (h : Here e s) :
    (InGroup "man".toList e.path → Gone e (some "man".toList) (packGroup s "man".toList)) ∧
    (¬ InGroup "man".toList e.path → Here e (packGroup s "man".toList)) := by
  rw [inGroup_home (by decide +kernel), homeDirs_man, ← loopDirs_below h.mem]
  unfold packGroup
  rw [if_neg (by decide +kernel), if_neg (by decide +kernel), if_pos rfl]
  exact group_pairs hd h _ manSubs (by decide +kernel) (n := 2) (by decide +kernel)

theorem libPkgconfig_in {p : List Str} (h : LibPkgconfig p) : InGroup "lib".toList p := by
  rw [inGroup_home (by decide +kernel), homeDirs_lib]
  obtain ⟨h, hh, hb⟩ := h
  rcases hb with ⟨x, r, e⟩ | ⟨x, r, e⟩
  · exact ⟨h, ["lib".toList], hh, by decide +kernel, "pkgconfig".toList, x :: r, by rw [e]; simp⟩
  · exact ⟨h, ["lib64".toList], hh, by decide +kernel, "pkgconfig".toList, x :: r, by rw [e]; simp⟩

theorem mem_libSubs {s : List Str} : s ∈ libSubs ↔ s = ["lib".toList] ∨ s = ["lib64".toList] := by
  unfold libSubs
  simp only [List.mem_cons, List.not_mem_nil, or_false]

theorem group_lib {e : PEnt} (hd : e.dir = false) {s : PackSt} (h : Here e s) :
    (InGroup "lib".toList e.path → ¬ LibPkgconfig e.path → Gone e (some "lib".toList) (packGroup s "lib".toList)) ∧
    (LibPkgconfig e.path → Gone e none (packGroup s "lib".toList)) ∧
    (¬ InGroup "lib".toList e.path → Here e (packGroup s "lib".toList)) := by
  have hin := inGroup_home (g := "lib".toList) (p := e.path) (by decide +kernel)
  rw [homeDirs_lib] at hin
  unfold packGroup
  rw [if_neg (by decide +kernel), if_neg (by decide +kernel), if_neg (by decide +kernel), if_pos rfl]
  obtain ⟨f1, f2⟩ := lib_fold hd "lib".toList (loopDirs s.tree libSubs) s h
  refine ⟨fun hx hp => ?_, fun hp => ?_, fun hx => ?_⟩
  · refine foldl_gone rmDir (fun s x h => rmDir_gone h x) _ _ (f1 ?_)
    obtain ⟨h', s', hh, hs, hb⟩ := hin.mp hx
    refine ⟨h' ++ s', mem_loopDirs.mpr ⟨h', home_mem_prefixes h.mem hh ((List.prefix_append h' s').trans (below_prefix hb)), s', hs, rfl⟩, hb, ?_⟩
    intro hc
    rcases mem_libSubs.mp hs with rfl | rfl
    · exact hp ⟨h', hh, Or.inl (by simpa using hc)⟩
    · exact hp ⟨h', hh, Or.inr (by simpa using hc)⟩
  · have hh := f2 (by
      intro d hdm hb
      obtain ⟨q, hq, s', hs', rfl⟩ := mem_loopDirs.mp hdm
      obtain ⟨h', hh', hc⟩ := hp
      have hqp : q <+: e.path := (List.prefix_append q s').trans (below_prefix hb)
      have hhp : h' <+: e.path := by
        rcases hc with hc | hc
        · exact (List.prefix_append h' _).trans (below_prefix hc)
        · exact (List.prefix_append h' _).trans (below_prefix hc)
      have := home_unique (mem_prefixes_home hq) hh' hqp hhp
      subst this
      rcases hc with hc | hc
      · have hs : s' = ["lib".toList] := by
          have : q ++ ["lib".toList] <+: e.path := (by
            have := below_prefix hc
            rw [show q ++ ["lib".toList, "pkgconfig".toList] = (q ++ ["lib".toList]) ++ ["pkgconfig".toList] by simp] at this
            exact (List.prefix_append _ _).trans this)
          exact List.append_cancel_left (prefix_same_length (below_prefix hb) this (by rcases mem_libSubs.mp hs' with rfl | rfl <;> simp))
        subst hs
        simpa using hc
      · have hs : s' = ["lib64".toList] := by
          have : q ++ ["lib64".toList] <+: e.path := (by
            have := below_prefix hc
            rw [show q ++ ["lib64".toList, "pkgconfig".toList] = (q ++ ["lib64".toList]) ++ ["pkgconfig".toList] by simp] at this
            exact (List.prefix_append _ _).trans this)
          exact List.append_cancel_left (prefix_same_length (below_prefix hb) this (by rcases mem_libSubs.mp hs' with rfl | rfl <;> simp))
        subst hs
        simpa using hc)
    refine (rm_fold_here hd _ _ hh).1 ?_
    rw [loopDirs_below hh.mem]
    exact hin.mp (libPkgconfig_in hp)
  · have hno : ¬ ∃ d ∈ loopDirs s.tree libSubs, Below d e.path := by
      rw [loopDirs_below h.mem]
      exact fun hc => hx (hin.mpr hc)
    have hh := f2 (fun d hdm hb => absurd hb (notBelow hno d hdm))
    refine (rm_fold_here hd _ _ hh).2 (notBelow ?_)
    rw [loopDirs_below hh.mem]
    exact fun hc => hx (hin.mpr hc)

theorem filter_here {e : PEnt} {s : PackSt} (h : Here e s) (P : PEnt → Bool) (hP : P e = true) : Here e { s with tree := s.tree.filter P } :=
  ⟨by show (s.tree.filter P).count e = 1; rw [List.count_filter hP, h.one], h.none, h.alone.filter P⟩

theorem filter_gone {e : PEnt} {o : Option Str} {s : PackSt} (h : Gone e o s) (P : PEnt → Bool) : Gone e o { s with tree := s.tree.filter P } :=
  ⟨fun hm => h.no (List.mem_filter.mp hm).1, h.at_⟩

theorem inGroup_service {p : List Str} : InGroup "service".toList p ↔ ∃ d ∈ serviceDirs, Below d p := by
  unfold InGroup serviceDirs
  rw [homeDirs_service]
  constructor
  · rintro (⟨_, _, _, hm, _⟩ | ⟨_, h | h⟩)
    · cases hm
    · exact ⟨_, List.mem_cons_self .., h⟩
    · exact ⟨_, List.mem_cons_of_mem _ (List.mem_cons_self ..), h⟩
  · rintro ⟨d, hd, hb⟩
    rcases List.mem_cons.mp hd with rfl | hd
    · exact Or.inr ⟨rfl, Or.inl hb⟩
    · rcases List.mem_cons.mp hd with rfl | hd
      · exact Or.inr ⟨rfl, Or.inr hb⟩
      · cases hd

theorem group_service {e : PEnt} (hd : e.dir = false) {s : PackSt} (h : Here e s) :
    (InGroup "service".toList e.path → Gone e (some "service".toList) (packGroup s "service".toList)) ∧
    (¬ InGroup "service".toList e.path → Here e (packGroup s "service".toList)) := by
  rw [inGroup_service]
  unfold packGroup
  rw [if_neg (by decide +kernel), if_neg (by decide +kernel), if_neg (by decide +kernel), if_neg (by decide +kernel), if_pos rfl]
  have hlen : ∀ x ∈ serviceDirs, x.length = 4 := by decide +kernel
  obtain ⟨f1, f2⟩ := pack_then_rm hd "service".toList serviceDirs serviceDirs h (by decide +kernel)
    (fun x hx y hy hbx hby => prefix_same_length (below_prefix hbx) (below_prefix hby) (by rw [hlen x hx, hlen y hy])) Iff.rfl
  exact ⟨fun hx => filter_gone (f1 hx) _, fun hx => filter_here (f2 hx) _ (by simp [hd])⟩

theorem group_other {g : Str} (s : PackSt) (h1 : g ≠ "devel".toList) (h2 : g ≠ "doc".toList) (h3 : g ≠ "man".toList) (h4 : g ≠ "lib".toList)
    (h5 : g ≠ "service".toList) : packGroup s g = s ∧ ∀ p, ¬ InGroup g p := by
  constructor
  · unfold packGroup
    rw [if_neg h1, if_neg h2, if_neg h3, if_neg h4, if_neg h5]
  · intro p hp
    rw [inGroup_home h5] at hp
    unfold homeDirs at hp
    rw [if_neg h1, if_neg h2, if_neg h3, if_neg h4] at hp
    obtain ⟨_, _, _, hm, _⟩ := hp
    cases hm

theorem packGroup_gone {e : PEnt} (hd : e.dir = false) {o : Option Str} {s : PackSt} (h : Gone e o s) (g : Str) : Gone e o (packGroup s g) := by
  unfold packGroup
  have hr : ∀ (ds : List (List Str)) s, Gone e o s → Gone e o (ds.foldl rmDir s) := fun ds => foldl_gone rmDir (fun s x h => rmDir_gone h x) ds
  have hp : ∀ (ds : List (List Str)) s, Gone e o s → Gone e o (ds.foldl (packDir g) s) := fun ds => foldl_gone _ (fun s x h => packDir_gone h g x) ds
  split
  · exact hr _ _ (foldl_gone _ (fun s x h => packRm_gone h g x) _ _ h)
  split
  · exact hr _ _ (hp _ _ h)
  split
  · exact hr _ _ (hp _ _ h)
  split
  · exact hr _ _ (foldl_gone _ (fun s x h => packLibDir_gone hd h g x) _ _ h)
  split
  · exact filter_gone (hr _ _ (hp _ _ h)) _
  · exact h

/-- What one group does with the file. -/
theorem packGroup_here {e : PEnt} (hd : e.dir = false) {s : PackSt} (h : Here e s) (g : Str) :
    (InGroup g e.path → (g = "lib".toList → ¬ LibPkgconfig e.path) → Gone e (some g) (packGroup s g)) ∧
    (g = "lib".toList → LibPkgconfig e.path → Gone e none (packGroup s g)) ∧
    (¬ InGroup g e.path → Here e (packGroup s g)) := by
  by_cases h1 : g = "devel".toList
  · subst h1
    exact ⟨fun hx _ => (group_devel hd h).1 hx, fun hc => absurd hc (by decide +kernel), (group_devel hd h).2⟩
  by_cases h2 : g = "doc".toList
  · subst h2
    exact ⟨fun hx _ => (group_doc hd h).1 hx, fun hc => absurd hc (by decide +kernel), (group_doc hd h).2⟩
  by_cases h3 : g = "man".toList
  · subst h3
    exact ⟨fun hx _ => (group_man hd h).1 hx, fun hc => absurd hc (by decide +kernel), (group_man hd h).2⟩
  by_cases h4 : g = "lib".toList
  · subst h4
    exact ⟨fun hx hl => (group_lib hd h).1 hx (hl rfl), fun _ => (group_lib hd h).2.1, (group_lib hd h).2.2⟩
  by_cases h5 : g = "service".toList
  · subst h5
    exact ⟨fun hx _ => (group_service hd h).1 hx, fun hc => absurd hc (by decide +kernel), (group_service hd h).2⟩
  · obtain ⟨e1, e2⟩ := group_other s h1 h2 h3 h4 h5
    rw [e1]
    exact ⟨fun hx => absurd hx (e2 _), fun hc => absurd hc h4, fun _ => h⟩

theorem groups_none {e : PEnt} (hd : e.dir = false) (gs : List Str) : ∀ s, Here e s → (∀ g ∈ gs, ¬ InGroup g e.path) → Here e (gs.foldl packGroup s) := by
  induction gs with
  | nil => exact fun s h _ => h
  | cons g gs ih => exact fun s h hn => ih _ ((packGroup_here hd h g).2.2 (hn g (by simp))) (fun x hx => hn x (by simp [hx]))

theorem groups_first {e : PEnt} (hd : e.dir = false) {gs : List Str} {g : Str} {s : PackSt} (h : Here e s) (hf : FirstIn (InGroup · e.path) gs g) :
    ((g = "lib".toList → ¬ LibPkgconfig e.path) → Gone e (some g) (gs.foldl packGroup s)) ∧
    (g = "lib".toList → LibPkgconfig e.path → Gone e none (gs.foldl packGroup s)) := by
  obtain ⟨a, b, rfl, hg, hn⟩ := hf
  rw [List.foldl_append, List.foldl_cons]
  have hh := groups_none hd a s h hn
  exact ⟨fun hl => foldl_gone packGroup (fun s x h => packGroup_gone hd h x) b _ ((packGroup_here hd hh g).1 hg hl),
    fun hc hl => foldl_gone packGroup (fun s x h => packGroup_gone hd h x) b _ ((packGroup_here hd hh g).2.1 hc hl)⟩

/-! ## The languages -/

theorem localeDirs_below {t : List PEnt} {e : PEnt} (he : e ∈ t) (l : Str) :
    (∃ d ∈ localeDirs t l, Below d e.path) ↔ ∃ x, l <+: x ∧ Translation x e.path := by
  unfold localeDirs
  constructor
  · rintro ⟨d, hd, hb⟩
    obtain ⟨p, hp, hd⟩ := List.mem_flatMap.mp hd
    obtain ⟨x, hx, rfl⟩ := List.mem_map.mp hd
    rw [mem_sofList, List.mem_filterMap] at hx
    obtain ⟨f, _, hm⟩ := hx
    split at hm
    · split at hm
      · rename_i hc
        cases hm
        exact ⟨_, List.isPrefixOf_iff_prefix.mp hc.2.2.2, p, mem_prefixes_home hp, hb⟩
      · cases hm
    · cases hm
  · rintro ⟨x, hl, h, hh, hb⟩
    refine ⟨h ++ ["share".toList, "locale".toList, x], ?_, hb⟩
    have hp : h <+: e.path := (List.prefix_append h _).trans (below_prefix hb)
    refine List.mem_flatMap.mpr ⟨h, home_mem_prefixes he hh hp, List.mem_map.mpr ⟨x, ?_, rfl⟩⟩
    rw [mem_sofList, List.mem_filterMap]
    refine ⟨e, he, ?_⟩
    obtain ⟨y, r, hr⟩ := hb
    have : e.path.drop h.length = "share".toList :: "locale".toList :: x :: y :: r := by
      rw [hr, List.append_assoc, List.drop_left]
      rfl
    rw [this]
    simp only
    rw [if_pos ⟨List.isPrefixOf_iff_prefix.mpr hp, trivial, trivial, List.isPrefixOf_iff_prefix.mpr hl⟩]

theorem packLocale_gone {e : PEnt} {o : Option Str} {s : PackSt} (h : Gone e o s) (l : Str) : Gone e o (packLocale s l) :=
  foldl_gone _ (fun s x h => packRm_gone h l x) _ _ h

theorem locales_none {e : PEnt} (hd : e.dir = false) (ls : List Str) : ∀ s, Here e s → (∀ l ∈ ls, ¬ ∃ x, l <+: x ∧ Translation x e.path) →
    Here e (ls.foldl packLocale s) := by
  induction ls with
  | nil => exact fun s h _ => h
  | cons l ls ih =>
    intro s h hn
    refine ih _ ?_ (fun x hx => hn x (by simp [hx]))
    refine (packRm_fold hd l _ s h).2 (notBelow ?_)
    rw [localeDirs_below h.mem]
    exact hn l (by simp)

theorem locales_first {e : PEnt} (hd : e.dir = false) {ls : List Str} {l : Str} {s : PackSt} (h : Here e s)
    (hf : FirstIn (fun l => ∃ x, l <+: x ∧ Translation x e.path) ls l) : Gone e (some l) (ls.foldl packLocale s) := by
  obtain ⟨a, b, rfl, hg, hn⟩ := hf
  rw [List.foldl_append, List.foldl_cons]
  have hh := locales_none hd a s h hn
  refine foldl_gone packLocale (fun s x h => packLocale_gone h x) b _ ((packRm_fold hd l _ _ hh).1 ?_)
  rw [localeDirs_below hh.mem]
  exact hg

theorem translation_inLocale {x : Str} {p : List Str} (h : Translation x p) : InLocale p := by
  obtain ⟨h, hh, y, r, e⟩ := h
  exact ⟨h, hh, x, y :: r, by rw [e]; simp⟩

theorem inLocale_prefixes {t : List PEnt} {e : PEnt} (he : e ∈ t) :
    (∃ d ∈ (prefixes t).map (· ++ ["share".toList, "locale".toList]), Below d e.path) ↔ InLocale e.path := by
  constructor
  · rintro ⟨d, hd, hb⟩
    obtain ⟨p, hp, rfl⟩ := List.mem_map.mp hd
    exact ⟨p, mem_prefixes_home hp, hb⟩
  · rintro ⟨h, hh, hb⟩
    exact ⟨_, List.mem_map.mpr ⟨h, home_mem_prefixes he hh ((List.prefix_append h _).trans (below_prefix hb)), rfl⟩, hb⟩

theorem dropLocales_here {e : PEnt} (hd : e.dir = false) {s : PackSt} (h : Here e s) :
    (InLocale e.path → Gone e none (dropLocales s)) ∧ (¬ InLocale e.path → Here e (dropLocales s)) := by
  unfold dropLocales
  obtain ⟨r1, r2⟩ := rm_fold_here hd ((prefixes s.tree).map (· ++ ["share".toList, "locale".toList])) s h
  rw [← inLocale_prefixes h.mem]
  exact ⟨r1, fun hn => r2 (notBelow hn)⟩

theorem dropLocales_gone {e : PEnt} {o : Option Str} {s : PackSt} (h : Gone e o s) : Gone e o (dropLocales s) :=
  foldl_gone rmDir (fun s x h => rmDir_gone h x) _ _ h

/-! ## The end -/

theorem checkBuild_some {keepLa : Bool} {s s' : PackSt} (h : checkBuild keepLa s = some s') :
    s' = if keepLa then s else { s with tree := s.tree.filter (fun e => !isLa e) } := by
  unfold checkBuild at h
  simp only at h
  generalize (if keepLa = true then s else { s with tree := s.tree.filter (fun e => !isLa e) }) = s1 at h
  split at h
  · cases h
  · exact (Option.some.inj h).symm

theorem isLa_iff {e : PEnt} (hd : e.dir = false) : isLa e = true ↔ ".la".toList <:+ e.path.getLast?.getD [] := by
  unfold isLa
  rw [hd]
  simp only [Bool.not_false, Bool.true_and]
  exact List.isSuffixOf_iff_suffix

theorem packMain_gone {e : PEnt} {o : Option Str} {s : PackSt} (h : Gone e o s) : ∀ a, ((packMain s).get a).count e = if o = some a then 1 else 0 := by
  intro a
  unfold packMain
  rw [get_put]
  split
  · rename_i hab
    subst hab
    rw [List.count_append, h.at_, (List.count_eq_zero (a := e) (l := s.tree.filter _)).mpr]
    · rfl
    · exact fun hm => h.no (List.mem_filter.mp hm).1
  · exact h.at_ a

/-- **C93**: every file of the build is in exactly one of the packages, once, the one `Dest` says — or in none, where `Dest` says so. -/
theorem C93_split_exact_partial (groups locales : List Str) (keepLa : Bool) (t : List PEnt) (archs : List (Str × List PEnt))
    (hrun : splitPackages groups locales keepLa t = some archs) (e : PEnt) (hone : t.count e = 1) (hd : e.dir = false)
    (halone : Alone e t) (o : Option Str) (hdest : Dest groups locales keepLa e.path o) :
    ∀ a, ((mget archs a).getD []).count e = if o = some a then 1 else 0 := by
  have h0 : Here e ⟨t, []⟩ := ⟨hone, fun a => rfl, halone⟩
  unfold splitPackages at hrun
  simp only at hrun
  generalize hg : groups.foldl packGroup ⟨t, []⟩ = s1 at hrun
  generalize hl : locales.foldl packLocale s1 = s2 at hrun
  cases hc : checkBuild keepLa (dropLocales s2) with
  | none => rw [hc] at hrun; cases hrun
  | some s3 =>
    rw [hc] at hrun
    simp only at hrun
    split at hrun
    case isFalse => cases hrun
    have ha : archs = (packMain s3).arch := (Option.some.inj hrun).symm
    subst ha
    have hs3 := checkBuild_some hc
    show ∀ a, ((packMain s3).get a).count e = _
    have gone3 : Gone e o (dropLocales s2) → ∀ a, ((packMain s3).get a).count e = if o = some a then 1 else 0 := by
      intro h
      refine packMain_gone ?_
      rw [hs3]
      split
      · exact h
      · exact filter_gone h _
    have gone1 : Gone e o s1 → ∀ a, ((packMain s3).get a).count e = if o = some a then 1 else 0 := by
      intro h
      refine gone3 (dropLocales_gone ?_)
      rw [← hl]
      exact foldl_gone packLocale (fun s x h => packLocale_gone h x) _ _ h
    have here1 : (∀ g ∈ groups, ¬ InGroup g e.path) → Here e s1 := fun hn => hg ▸ groups_none hd groups _ h0 hn
    cases hdest with
    | group g hf hlib => exact gone1 (hg ▸ (groups_first hd h0 hf).1 hlib)
    | lost hf hlib => exact gone1 (hg ▸ (groups_first hd h0 hf).2 rfl hlib)
    | «locale» l hn hf => exact gone3 (dropLocales_gone (hl ▸ locales_first hd (here1 hn) hf))
    | noLocale hn hin hno => exact gone3 ((dropLocales_here hd (hl ▸ locales_none hd locales s1 (here1 hn) hno)).1 hin)
    | la hn hin hk hla =>
      have h3 := (dropLocales_here hd (hl ▸ locales_none hd locales s1 (here1 hn) (fun l _ ⟨x, _, hx⟩ => hin (translation_inLocale hx)))).2 hin
      refine packMain_gone ?_
      rw [hs3, hk]
      refine ⟨fun hm => ?_, fun a => by rw [if_neg (by simp)]; exact h3.none a⟩
      have := (List.mem_filter.mp hm).2
      rw [(isLa_iff hd).mpr hla] at this
      cases this
    | hidden x r hp hx =>
      have hnh : ∀ h, Home h → ¬ h <+: e.path := by
        intro h hh hpre
        rw [hp] at hpre
        obtain ⟨q, hq⟩ := hpre
        cases hh with
        | usr => simp only [List.cons_append, List.cons.injEq] at hq; rw [← hq.1] at hx; exact absurd hx (by decide)
        | opt y _ => simp only [List.cons_append, List.cons.injEq] at hq; rw [← hq.1] at hx; exact absurd hx (by decide)
      have hn : ∀ g ∈ groups, ¬ InGroup g e.path := by
        rintro g _ (⟨h, s, hh, _, hb⟩ | ⟨_, hb | hb⟩)
        · exact hnh h hh ((List.prefix_append h s).trans (below_prefix hb))
        · exact hnh _ Home.usr ((List.prefix_append ["usr".toList] _).trans (below_prefix hb))
        · exact hnh _ Home.usr ((List.prefix_append ["usr".toList] _).trans (below_prefix hb))
      have hin : ¬ InLocale e.path := by
        rintro ⟨h, hh, hb⟩
        exact hnh h hh ((List.prefix_append h _).trans (below_prefix hb))
      have h3 := (dropLocales_here hd (hl ▸ locales_none hd locales s1 (here1 hn) (fun l _ ⟨x, _, hx⟩ => hin (translation_inLocale hx)))).2 hin
      have hz : ∀ a, (s3.get a).count e = 0 := by
        intro a
        rw [hs3]
        split
        · exact h3.none a
        · exact h3.none a
      intro a
      rw [if_neg (by simp)]
      unfold packMain
      rw [get_put]
      split
      · rw [List.count_append, hz, (List.count_eq_zero (a := e) (l := s3.tree.filter _)).mpr]
        intro hm
        have := (List.mem_filter.mp hm).2
        rw [hp] at this
        simp [hx] at this
      · exact hz a
    | main x r hn hin hk hp hx =>
      have h3 := (dropLocales_here hd (hl ▸ locales_none hd locales s1 (here1 hn) (fun l _ ⟨x, _, hx⟩ => hin (translation_inLocale hx)))).2 hin
      have h4 : Here e s3 := by
        rw [hs3]
        split
        · exact h3
        · rename_i hkl
          refine filter_here h3 _ ?_
          cases hi : isLa e with
          | false => rfl
          | true =>
            rcases hk with hk | hk
            · exact absurd hk hkl
            · exact absurd ((isLa_iff hd).mp hi) hk
      intro a
      unfold packMain
      rw [get_put]
      by_cases hab : [] = a
      · subst hab
        rw [if_pos rfl, if_pos rfl, List.count_append, h4.none, List.count_filter (by rw [hp]; simpa using hx), h4.one]
      · rw [if_neg hab, if_neg (fun h => hab (Option.some.inj h)), h4.none]

/-- Every path has its place: `Dest` is total … -/
theorem C93_dest_total (groups locales : List Str) (keepLa : Bool) (p : List Str) (hp : p ≠ []) : ∃ o, Dest groups locales keepLa p o := by
  have first : ∀ (P : Str → Prop) (l : List Str), (∃ x, FirstIn P l x) ∨ ∀ x ∈ l, ¬ P x := by
    intro P l
    induction l with
    | nil => exact Or.inr (fun x hx => by cases hx)
    | cons a l ih =>
      by_cases ha : P a
      · exact Or.inl ⟨a, [], l, rfl, ha, fun y hy => by cases hy⟩
      · rcases ih with ⟨x, u, v, rfl, hx, hn⟩ | hn
        · refine Or.inl ⟨x, a :: u, v, rfl, hx, fun y hy => ?_⟩
          rcases List.mem_cons.mp hy with rfl | hy
          · exact ha
          · exact hn y hy
        · refine Or.inr fun y hy => ?_
          rcases List.mem_cons.mp hy with rfl | hy
          · exact ha
          · exact hn y hy
  rcases first (InGroup · p) groups with ⟨g, hg⟩ | hn
  · by_cases hl : g = "lib".toList ∧ LibPkgconfig p
    · exact ⟨_, Dest.lost (hl.1 ▸ hg) hl.2⟩
    · exact ⟨_, Dest.group g hg (fun h1 h2 => hl ⟨h1, h2⟩)⟩
  · rcases first (fun l => ∃ x, l <+: x ∧ Translation x p) locales with ⟨l, hl⟩ | hnl
    · exact ⟨_, Dest.locale l hn hl⟩
    · by_cases hin : InLocale p
      · exact ⟨_, Dest.noLocale hn hin hnl⟩
      · by_cases hla : keepLa = true ∨ ¬ ".la".toList <:+ p.getLast?.getD []
        · cases p with
          | nil => exact absurd rfl hp
          | cons x r =>
            by_cases hx : x.head? = some '.'
            · exact ⟨_, Dest.hidden x r rfl hx⟩
            · exact ⟨_, Dest.main x r hn hin hla rfl hx⟩
        · rw [not_or, Classical.not_not] at hla
          exact ⟨_, Dest.la hn hin (by simpa using hla.1) hla.2⟩

/-! ## Nothing else -/

/-- Everything in the tree and in the archives comes from the build. -/
def Stems (t : List PEnt) (s : PackSt) : Prop :=
  (∀ f ∈ s.tree, f ∈ t ∨ (f.dir = true ∧ ∃ g ∈ t, f.path <+: g.path ∧ (g.dir = true ∨ g.path ≠ f.path))) ∧
  ∀ a, ∀ f ∈ s.get a, f ∈ t ∨ (f.dir = true ∧ ∃ g ∈ t, f.path <+: g.path ∧ (g.dir = true ∨ g.path ≠ f.path))

theorem stems_put {t : List PEnt} {s : PackSt} (h : Stems t s) (a : Str) {es : List PEnt} (he : ∀ f ∈ es, f ∈ s.tree) : Stems t (s.put a es) := by
  refine ⟨h.1, fun b f hf => ?_⟩
  rw [get_put] at hf
  split at hf
  · rcases List.mem_append.mp hf with hf | hf
    · exact h.2 a f hf
    · exact h.1 f (he f hf)
  · exact h.2 b f hf

theorem stems_tree {t : List PEnt} {s : PackSt} (h : Stems t s) {tr : List PEnt} (he : ∀ f ∈ tr, f ∈ s.tree) : Stems t { s with tree := tr } :=
  ⟨fun f hf => h.1 f (he f hf), h.2⟩

theorem stems_packDir {t : List PEnt} {s : PackSt} (h : Stems t s) (a : Str) (d : List Str) : Stems t (packDir a s d) := by
  unfold packDir
  split
  · exact stems_put h a (fun f hf => (List.mem_filter.mp hf).1)
  · exact h

theorem stems_rmDir {t : List PEnt} {s : PackSt} (h : Stems t s) (d : List Str) : Stems t (rmDir s d) := by
  unfold rmDir
  split
  · exact stems_tree h (fun f hf => (List.mem_filter.mp hf).1)
  · exact h

theorem stems_packLibDir {t : List PEnt} {s : PackSt} (h : Stems t s) (a : Str) (d : List Str) : Stems t (packLibDir a s d) := by
  unfold packLibDir
  split
  · rename_i hi
    simp only
    generalize hk : (if isDirAt s.tree (d ++ ["pkgconfig".toList]) then s.tree.filter (·.under (d ++ ["pkgconfig".toList])) else []) = keep
    have hsub : ∀ f ∈ keep, f ∈ s.tree := by
      intro f hf
      rw [← hk] at hf
      split at hf
      · exact (List.mem_filter.mp hf).1
      · cases hf
    obtain ⟨h1, h2⟩ := stems_put h a (es := (s.tree.filter (·.under d)).filter (fun e => e ∉ keep))
      (fun f hf => (List.mem_filter.mp (List.mem_filter.mp hf).1).1)
    refine ⟨fun f hf => ?_, h2⟩
    rcases List.mem_append.mp hf with hf | hf
    · exact h.1 f (List.mem_filter.mp hf).1
    · split at hf
      · cases hf
      · rcases List.mem_cons.mp hf with hf | hf
        · subst hf
          unfold isDirAt at hi
          obtain ⟨g, hg, hgg⟩ := List.any_eq_true.mp hi
          simp only [Bool.and_eq_true, under_iff] at hgg
          refine Or.inr ⟨rfl, ?_⟩
          rcases h.1 g hg with hm | ⟨_, g', hm, hp, hq⟩
          · exact ⟨g, hm, hgg.1, by simpa using hgg.2⟩
          · refine ⟨g', hm, hgg.1.trans hp, ?_⟩
            by_cases hd : g'.path = d
            · have : g.path = d := by
                have h1 := hp.length_le
                have h2 := hgg.1.length_le
                rw [hd] at h1
                exact (hgg.1.eq_of_length (Nat.le_antisymm h2 h1)).symm
              rw [this] at hq
              exact hq
            · exact Or.inr hd
        · exact h.1 f (hsub f hf)
  · exact h

theorem foldl_inv {α β : Type} (P : β → Prop) (step : β → α → β) (hstep : ∀ s x, P s → P (step s x)) (l : List α) : ∀ s, P s → P (l.foldl step s) := by
  induction l with
  | nil => exact fun s h => h
  | cons x l ih => exact fun s h => ih _ (hstep s x h)

theorem stems_packGroup {t : List PEnt} {s : PackSt} (h : Stems t s) (g : Str) : Stems t (packGroup s g) := by
  unfold packGroup
  have hr : ∀ (ds : List (List Str)) s, Stems t s → Stems t (ds.foldl rmDir s) := fun ds => foldl_inv (Stems t) rmDir (fun s x h => stems_rmDir h x) ds
  have hp : ∀ (ds : List (List Str)) s, Stems t s → Stems t (ds.foldl (packDir g) s) := fun ds => foldl_inv (Stems t) (packDir g) (fun s x h => stems_packDir h g x) ds
  split
  · exact hr _ _ (foldl_inv (Stems t) (packRmDir g) (fun s x h => stems_rmDir (stems_packDir h g x) x) _ _ h)
  split
  · exact hr _ _ (hp _ _ h)
  split
  · exact hr _ _ (hp _ _ h)
  split
  · exact hr _ _ (foldl_inv (Stems t) (packLibDir g) (fun s x h => stems_packLibDir h g x) _ _ h)
  split
  · exact stems_tree (hr _ _ (hp _ _ h)) (fun f hf => (List.mem_filter.mp hf).1)
  · exact h

/-- **C93**, nothing else: what is in a package was made by the build (or is a directory, one the build made or above something the build made). -/
theorem C93_nothing_else (groups locales : List Str) (keepLa : Bool) (t : List PEnt) (archs : List (Str × List PEnt))
    (hrun : splitPackages groups locales keepLa t = some archs) (a : Str) :
    ∀ f ∈ (mget archs a).getD [], f ∈ t ∨ (f.dir = true ∧ ∃ g ∈ t, f.path <+: g.path ∧ (g.dir = true ∨ g.path ≠ f.path)) := by
  unfold splitPackages at hrun
  simp only at hrun
  have h0 : Stems t ⟨t, []⟩ := ⟨fun f hf => Or.inl hf, fun a f hf => (by cases hf)⟩
  have h1 := foldl_inv (Stems t) packGroup (fun s x h => stems_packGroup h x) groups _ h0
  have h2 := foldl_inv (Stems t) packLocale (fun s x h => foldl_inv (Stems t) (packRmDir x) (fun s d h => stems_rmDir (stems_packDir h x d) d) _ _ h) locales _ h1
  have h3 : Stems t (dropLocales (locales.foldl packLocale (groups.foldl packGroup ⟨t, []⟩))) :=
    foldl_inv (Stems t) rmDir (fun s x h => stems_rmDir h x) _ _ h2
  generalize dropLocales (locales.foldl packLocale (groups.foldl packGroup ⟨t, []⟩)) = s2 at hrun h3
  cases hc : checkBuild keepLa s2 with
  | none => rw [hc] at hrun; cases hrun
  | some s3 =>
    rw [hc] at hrun
    simp only at hrun
    split at hrun
    case isFalse => cases hrun
    have ha : archs = (packMain s3).arch := (Option.some.inj hrun).symm
    subst ha
    have h4 : Stems t s3 := by
      rw [checkBuild_some hc]
      split
      · exact h3
      · exact stems_tree h3 (fun f hf => (List.mem_filter.mp hf).1)
    exact (stems_put h4 [] (es := s3.tree.filter _) (fun f hf => (List.mem_filter.mp hf).1)).2 a

/-! ## In the words of the user -/

/-- A file of the build is lost when it is in no package. -/
def Lost (archs : List (Str × List PEnt)) (e : PEnt) : Prop := ∀ a, e ∉ (mget archs a).getD []

/-- A file of the build is packed once: in one package, once, and in no other. -/
def PackedOnce (archs : List (Str × List PEnt)) (e : PEnt) : Prop :=
  ∃ a, ((mget archs a).getD []).count e = 1 ∧ ∀ b, b ≠ a → e ∉ (mget archs b).getD []

/-- **C93**: no file is in two packages or twice in one. -/
theorem C93_never_twice (groups locales : List Str) (keepLa : Bool) (t : List PEnt) (archs : List (Str × List PEnt))
    (hrun : splitPackages groups locales keepLa t = some archs) (e : PEnt) (hone : t.count e = 1) (hd : e.dir = false) (hp : e.path ≠ [])
    (halone : Alone e t) : PackedOnce archs e ∨ Lost archs e := by
  obtain ⟨o, ho⟩ := C93_dest_total groups locales keepLa e.path hp
  have h := C93_split_exact_partial groups locales keepLa t archs hrun e hone hd halone o ho
  cases o with
  | none =>
    refine Or.inr fun a => ?_
    have := h a
    rw [if_neg (by simp)] at this
    exact List.count_eq_zero.mp this
  | some a =>
    refine Or.inl ⟨a, by rw [h a, if_pos rfl], fun b hb => ?_⟩
    have := h b
    rw [if_neg (fun hh => hb (Option.some.inj hh).symm)] at this
    exact List.count_eq_zero.mp this

/-- **C93** as one would have it — no file is lost — for what is neither hidden, nor a translation into another language, nor a libtool archive, nor a file of
`pkg-config` beside the libraries. -/
theorem C93_nothing_lost_partial (groups locales : List Str) (keepLa : Bool) (t : List PEnt) (archs : List (Str × List PEnt))
    (hrun : splitPackages groups locales keepLa t = some archs) (e : PEnt) (hone : t.count e = 1) (hd : e.dir = false) (hp : e.path ≠ [])
    (halone : Alone e t) (hhid : (e.path.head?.bind List.head?) ≠ some '.') (hla : keepLa = true ∨ ¬ ".la".toList <:+ e.path.getLast?.getD [])
    (hlib : ¬ LibPkgconfig e.path) (hloc : InLocale e.path → ∃ l ∈ locales, ∃ x, l <+: x ∧ Translation x e.path) : PackedOnce archs e := by
  obtain ⟨o, ho⟩ := C93_dest_total groups locales keepLa e.path hp
  have h := C93_split_exact_partial groups locales keepLa t archs hrun e hone hd halone o ho
  cases o with
  | some a =>
    refine ⟨a, by rw [h a, if_pos rfl], fun b hb => ?_⟩
    have := h b
    rw [if_neg (fun hh => hb (Option.some.inj hh).symm)] at this
    exact List.count_eq_zero.mp this
  | none =>
    exfalso
    cases ho with
    | lost _ hl => exact hlib hl
    | noLocale _ hin hno =>
      obtain ⟨l, hl, hx⟩ := hloc hin
      exact hno l hl hx
    | la _ _ hk hl =>
      rcases hla with hk' | hk'
      · rw [hk] at hk'; cases hk'
      · exact hk' hl
    | hidden x r hp' hx =>
      rw [hp'] at hhid
      exact hhid hx

/-! ### A build, and what becomes of it -/

/-- A build with something for every group. -/
def xBuild : List PEnt :=
  [⟨["usr".toList], true⟩, ⟨["usr".toList, "bin".toList], true⟩, ⟨["usr".toList, "bin".toList, "tool".toList], false⟩,
   ⟨["usr".toList, "lib".toList], true⟩, ⟨["usr".toList, "lib".toList, "libtool.so".toList], false⟩, ⟨["usr".toList, "lib".toList, "libtool.la".toList], false⟩,
   ⟨["usr".toList, "lib".toList, "pkgconfig".toList], true⟩, ⟨["usr".toList, "lib".toList, "pkgconfig".toList, "tool.pc".toList], false⟩,
   ⟨["usr".toList, "share".toList], true⟩, ⟨["usr".toList, "share".toList, "man".toList], true⟩, ⟨["usr".toList, "share".toList, "man".toList, "tool.1".toList], false⟩,
   ⟨["usr".toList, "share".toList, "locale".toList], true⟩, ⟨["usr".toList, "share".toList, "locale".toList, "as".toList], true⟩,
   ⟨["usr".toList, "share".toList, "locale".toList, "as".toList, "tool.mo".toList], false⟩, ⟨["usr".toList, "share".toList, "locale".toList, "ast".toList], true⟩,
   ⟨["usr".toList, "share".toList, "locale".toList, "ast".toList, "tool.mo".toList], false⟩,
   ⟨[".hidden".toList], false⟩, ⟨["opt".toList], true⟩, ⟨["opt".toList, "x".toList], true⟩, ⟨["opt".toList, "x".toList, "include".toList], true⟩,
   ⟨["opt".toList, "x".toList, "include".toList, "x.h".toList], false⟩]

/-- `Alone`, decided. -/
theorem alone_of_all {e : PEnt} {t : List PEnt} (h : t.all (fun f => !e.path.isPrefixOf f.path || f == e) = true) : Alone e t := by
  intro f hf hp
  have := List.all_eq_true.mp h f hf
  simp only [Bool.or_eq_true, Bool.not_eq_true', beq_iff_eq] at this
  rcases this with h | h
  · rw [List.isPrefixOf_iff_prefix.mpr hp] at h; cases h
  · exact h

/-- The files in the packages of a run. -/
def filesOf (r : Option (List (Str × List PEnt))) : Option (List (Str × List (List Str))) :=
  r.map (·.map (fun a => (a.1, (a.2.filter (fun e => !e.dir)).map (·.path))))

/-- The hypotheses hold of a program of the build, and it goes to the main package. -/
example : (splitPackages ["devel".toList, "man".toList, "lib".toList] ["as".toList] false xBuild).isSome = true ∧
    xBuild.count ⟨["usr".toList, "bin".toList, "tool".toList], false⟩ = 1 ∧ Alone ⟨["usr".toList, "bin".toList, "tool".toList], false⟩ xBuild :=
  ⟨by decide +kernel, by decide +kernel, alone_of_all (by decide +kernel)⟩

/-- With `devel` before `lib`, every group gets its files — and the translations into `ast` go with those into `as`. -/
theorem C93_example_as : filesOf (splitPackages ["devel".toList, "man".toList, "lib".toList] ["as".toList] false xBuild) = some
    [([], [["usr".toList, "bin".toList, "tool".toList]]),
     ("as".toList, [["usr".toList, "share".toList, "locale".toList, "as".toList, "tool.mo".toList], ["usr".toList, "share".toList, "locale".toList, "ast".toList, "tool.mo".toList]]),
     ("devel".toList, [["usr".toList, "lib".toList, "pkgconfig".toList, "tool.pc".toList], ["opt".toList, "x".toList, "include".toList, "x.h".toList]]),
     ("lib".toList, [["usr".toList, "lib".toList, "libtool.so".toList], ["usr".toList, "lib".toList, "libtool.la".toList]]),
     ("man".toList, [["usr".toList, "share".toList, "man".toList, "tool.1".toList]])] := by decide +kernel

/-- With `lib` before `devel`, the files of `pkg-config` — put aside for `devel` — are in no package. -/
theorem C93_counterexample_pkgconfig : ∃ archs, splitPackages ["lib".toList, "devel".toList] [] false xBuild = some archs ∧
    ⟨["usr".toList, "lib".toList, "pkgconfig".toList, "tool.pc".toList], false⟩ ∈ xBuild ∧
    ∀ a, (⟨["usr".toList, "lib".toList, "pkgconfig".toList, "tool.pc".toList], false⟩ : PEnt) ∉ (mget archs a).getD [] := by
  cases h : splitPackages ["lib".toList, "devel".toList] [] false xBuild with
  | none => exact absurd h (by decide +kernel)
  | some archs =>
    refine ⟨archs, rfl, by decide +kernel, ?_⟩
    have hd : Dest ["lib".toList, "devel".toList] [] false ["usr".toList, "lib".toList, "pkgconfig".toList, "tool.pc".toList] none :=
      Dest.lost ⟨[], ["devel".toList], rfl, Or.inl ⟨["usr".toList], ["lib".toList], Home.usr, by decide +kernel, "pkgconfig".toList, ["tool.pc".toList], rfl⟩,
        fun y hy => by cases hy⟩ ⟨["usr".toList], Home.usr, Or.inl ⟨"tool.pc".toList, [], rfl⟩⟩
    have := C93_split_exact_partial _ _ _ _ archs h ⟨["usr".toList, "lib".toList, "pkgconfig".toList, "tool.pc".toList], false⟩ (by decide +kernel) rfl
      (alone_of_all (by decide +kernel)) none hd
    intro a
    exact List.count_eq_zero.mp (by rw [this a]; rfl)

/-- With no language asked for, the translations are in no package; and what is hidden at the top of the build never is. -/
theorem C93_counterexample_dropped : ∃ archs, splitPackages [] [] true xBuild = some archs ∧
    (∀ a, (⟨["usr".toList, "share".toList, "locale".toList, "ast".toList, "tool.mo".toList], false⟩ : PEnt) ∉ (mget archs a).getD []) ∧
    ∀ a, (⟨[".hidden".toList], false⟩ : PEnt) ∉ (mget archs a).getD [] := by
  cases h : splitPackages [] [] true xBuild with
  | none => exact absurd h (by decide +kernel)
  | some archs =>
    refine ⟨archs, rfl, ?_, ?_⟩
    · have hd : Dest [] [] true ["usr".toList, "share".toList, "locale".toList, "ast".toList, "tool.mo".toList] none :=
        Dest.noLocale (fun g hg => by cases hg) ⟨["usr".toList], Home.usr, "ast".toList, ["tool.mo".toList], rfl⟩ (fun g hg => by cases hg)
      have := C93_split_exact_partial _ _ _ _ archs h ⟨["usr".toList, "share".toList, "locale".toList, "ast".toList, "tool.mo".toList], false⟩ (by decide +kernel)
        rfl (alone_of_all (by decide +kernel)) none hd
      intro a
      exact List.count_eq_zero.mp (by rw [this a]; rfl)
    · have := C93_split_exact_partial _ _ _ _ archs h ⟨[".hidden".toList], false⟩ (by decide +kernel)
        rfl (alone_of_all (by decide +kernel)) none (Dest.hidden ".hidden".toList [] rfl (by decide +kernel))
      intro a
      exact List.count_eq_zero.mp (by rw [this a]; rfl)

end Cards.Props
