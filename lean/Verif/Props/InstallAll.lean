import Verif.Props.InstallOne
import Verif.Props.Alias
import Verif.Props.RepoQuery
/-!
# C50, C51: `cards install` of packages, sets and collections from a repository in order, with the configured groups
-/
namespace Cards.Props
open Cards Cards.Spec

variable {net : Net} {A : Str → ArchMeta}

/-! ## Specification -/

/-- The package belongs to the set, and is not the sub-package of a group. -/
def InSet (repo : List (Str × RepoPkg)) (set n : Str) : Prop := ∃ p, mget repo n = some p ∧ set ∈ p.sets ∧ p.group = []

/-- The package belongs to the collection, and is not a sub-package. -/
def InColl (repo : List (Str × RepoPkg)) (coll n : Str) : Prop := ∃ p, mget repo n = some p ∧ p.collection = coll ∧ p.group = [] ∧ p.nls = []

/-- The package is asked for by the argument: a set stands for its packages that are not installed, else a collection for its packages that are not
installed, else the argument is the name of a package. -/
def AskedBy (repo : List (Str × RepoPkg)) (db : Db) (arg n : Str) : Prop :=
  (InSet repo arg n ∧ ¬ ∃ p, Called db p n) ∨
  ((¬ ∃ m, InSet repo arg m) ∧ InColl repo arg n ∧ ¬ ∃ p, Called db p n) ∨
  ((¬ ∃ m, InSet repo arg m) ∧ (¬ ∃ m, InColl repo arg m) ∧ n = arg)

/-- Installing what the arguments ask for needs the package. -/
def NeededByArgs (E : InstEnv) (A : Str → ArchMeta) (db : Db) (args : List Str) (m : Str) : Prop :=
  ∃ x ∈ args, ∃ n, AskedBy E.net.repo db x n ∧ NeededFor E.net A n m

/-- The package is the sub-package, of a configured group, of a package needed. -/
def GroupSub (E : InstEnv) (A : Str → ArchMeta) (db : Db) (args : List Str) (n : Str) : Prop :=
  ∃ j g, NeededByArgs E A db args j ∧ g ∈ E.groups ∧ n = j ++ '.' :: g ∧ n ∈ keys E.net.repo

/-- The package has to be installed: for the arguments, or for a sub-package of a configured group. -/
def Wanted (E : InstEnv) (A : Str → ArchMeta) (db : Db) (args : List Str) (m : Str) : Prop :=
  NeededByArgs E A db args m ∨ ∃ n, GroupSub E A db args n ∧ NeededFor E.net A n m

/-- `n` is the first of the packages `roots` that needs `m`. -/
def FirstFor (net : Net) (A : Str → ArchMeta) (roots : List Str) (m n : Str) : Prop :=
  ∃ pre post, roots = pre ++ n :: post ∧ NeededFor net A n m ∧ ∀ q ∈ pre, ¬ NeededFor net A q m

/-! ## Resolving several packages -/

theorem seqSteps_split {α : Type} {f : α → InstSt → InstSt × Option InstErr} {x : α} {xs : List α} {s r : InstSt} :
    seqSteps f (x :: xs) s = (r, none) ↔ ∃ s1, f x s = (s1, none) ∧ seqSteps f xs s1 = (r, none) := by
  rw [seqSteps_cons]
  constructor
  · rintro ⟨h1, h2⟩; exact ⟨(f x s).1, by rw [← h1], h2⟩
  · rintro ⟨s1, h1, h2⟩; rw [h1]; exact ⟨rfl, h2⟩

theorem firstFor_unique {roots : List Str} {m n n' : Str} (h : FirstFor net A roots m n) (h' : FirstFor net A roots m n') : n = n' := by
  obtain ⟨a, c, e, hx, ha⟩ := h
  obtain ⟨b, d, e', hy, hb⟩ := h'
  rw [e] at e'
  clear e
  induction a generalizing b with
  | nil =>
    cases b with
    | nil => simp only [List.nil_append, List.cons.injEq] at e'; exact e'.1
    | cons z b =>
      simp only [List.nil_append, List.cons_append, List.cons.injEq] at e'
      exact absurd (e'.1 ▸ hx) (hb z (by simp))
  | cons z a ih =>
    cases b with
    | nil =>
      simp only [List.nil_append, List.cons_append, List.cons.injEq] at e'
      exact absurd (e'.1.symm ▸ hy) (ha z (by simp))
    | cons w b =>
      simp only [List.cons_append, List.cons.injEq] at e'
      exact ih (fun q hq => ha q (List.mem_cons_of_mem _ hq)) b e'.2 (fun q hq => hb q (List.mem_cons_of_mem _ hq))

/-- The session after resolving `roots`, in this order. -/
structure Resolved (net : Net) (A : Str → ArchMeta) (files : List (Str × Str)) (roots : List Str) (r : RepoSess) : Prop where
  sess : SessOk net A r
  files : r.files = files
  ordered : Ordered net A r.list
  names : ∀ m, m ∈ r.list.map (·.1) ↔ ∃ n ∈ roots, NeededFor net A n m
  entries : ∀ x ∈ r.list, ∃ n, FirstFor net A roots x.1 n ∧ (x.1 = n → x.2 = 0) ∧ (x.1 ≠ n → ∃ q, NeededFor net A n q ∧ Asks net A q x)

theorem new_entries {r r' : RepoSess} (ho : InOrder net r.files A) (fuel : Nat) (root : Str) (hr : SessOk net A r)
    (h : generateDeps net fuel root r = .ok r') :
    ∃ new, r'.list = r.list ++ new ∧ ∀ x ∈ new, (x.1 = root → x.2 = 0) ∧ (x.1 ≠ root → ∃ n, NeededFor net A root n ∧ Asks net A n x) := by
  have hall := C22_missing r.files ho fuel root r r' hr rfl h
  have hcyc : ¬ Cyclic net A root := by
    intro hc
    rw [C22_cycle_never_ends r.files ho root r hr rfl hall hc fuel] at h
    simp at h
  unfold generateDeps at h
  cases hs : depLoop net fuel { work := [(root, 0)], cached := r.cached, out := [], files := r.files, clock := r.clock } with
  | error e => rw [hs] at h; simp at h
  | ok s =>
    rw [hs] at h
    injection h with h
    subst h
    have hdates := loop_dates ho fuel _ s (loop_start root r.cached r.clock hr) hs (by
      intro x hx; simp at hx; exact Or.inl hx)
    obtain ⟨new, e, h2, _⟩ := merge_step r.list s.out.reverse
    refine ⟨new, e, fun x hx => ?_⟩
    have hx' := hdates x (List.mem_reverse.mp (h2 x hx))
    constructor
    · intro hx1
      rcases hx' with h | ⟨n, hn, ha⟩
      · rw [h]
      · exfalso
        apply hcyc
        refine ⟨n, hn, Relation.TransGen.head' (b := root) ?_ hn⟩
        obtain ⟨a, b⟩ := x
        simp only at hx1; subst hx1
        exact ⟨b, ha⟩
    · intro hx1
      rcases hx' with h | h
      · rw [h] at hx1; simp at hx1
      · exact h

theorem resolved_step {files : List (Str × Str)} (ho : InOrder net files A) {roots : List Str} {r r' : RepoSess} (hr : Resolved net A files roots r)
    (fuel : Nat) (n : Str) (h : generateDeps net fuel n r = .ok r') : Resolved net A files (roots ++ [n]) r' := by
  obtain ⟨h1, h2, h3, _, h5⟩ := C22_resolved_partial files ho fuel n r r' hr.sess hr.files hr.ordered h
  have ho' : InOrder net r.files A := by rw [hr.files]; exact ho
  obtain ⟨new, e, hnew⟩ := new_entries ho' fuel n hr.sess h
  refine ⟨h1, h2, h3, ?_, ?_⟩
  · intro m
    rw [h5, hr.names]
    simp only [List.mem_append, List.mem_singleton]
    constructor
    · rintro (⟨q, hq, h⟩ | h)
      · exact ⟨q, Or.inl hq, h⟩
      · exact ⟨n, Or.inr rfl, h⟩
    · rintro ⟨q, hq | hq, h'⟩
      · exact Or.inl ⟨q, hq, h'⟩
      · exact Or.inr (hq ▸ h')
  · intro x hx
    rw [e] at hx
    rcases List.mem_append.mp hx with hx | hx
    · obtain ⟨q, ⟨pre, post, e1, e2, e3⟩, h6, h7⟩ := hr.entries x hx
      exact ⟨q, ⟨pre, post ++ [n], by rw [e1]; simp, e2, e3⟩, h6, h7⟩
    · have hfresh : x.1 ∉ r.list.map (·.1) := by
        intro hc
        have hnd := h3.1
        rw [e, List.map_append, List.nodup_append] at hnd
        exact hnd.2.2 x.1 hc x.1 (List.mem_map.mpr ⟨x, hx, rfl⟩) rfl
      have hneed : NeededFor net A n x.1 := by
        have : x.1 ∈ r'.list.map (·.1) := by rw [e, List.map_append]; exact List.mem_append_right _ (List.mem_map.mpr ⟨x, hx, rfl⟩)
        rcases (h5 x.1).mp this with h | h
        · exact absurd h hfresh
        · exact h
      refine ⟨n, ⟨roots, [], rfl, hneed, ?_⟩, hnew x hx⟩
      intro q hq hc
      exact hfresh ((hr.names x.1).mpr ⟨q, hq, hc⟩)

theorem resolved_names {E : InstEnv} {files : List (Str × Str)} (ho : InOrder E.net files A) (ns : List Str) {roots : List Str} {s r : InstSt}
    (hr : Resolved E.net A files roots s.sess) (h : seqSteps (resolveArg E) ns s = (r, none)) :
    Resolved E.net A files (roots ++ ns) r.sess ∧ r.st = s.st := by
  induction ns generalizing s roots with
  | nil => simp only [seqSteps, Prod.mk.injEq, and_true] at h; subst h; simpa using hr
  | cons n ns ih =>
    obtain ⟨s1, h1, h2⟩ := seqSteps_split.mp h
    unfold resolveArg at h1
    cases hg : generateDeps E.net E.fuel n s.sess with
    | error e => rw [hg] at h1; simp at h1
    | ok sess' =>
      rw [hg] at h1
      simp only [Prod.mk.injEq, and_true] at h1
      subst h1
      obtain ⟨a, b⟩ := ih (roots := roots ++ [n]) (resolved_step ho hr E.fuel n hg) h2
      exact ⟨by simpa using a, b⟩

theorem resolved_members {E : InstEnv} {files : List (Str × Str)} (ho : InOrder E.net files A) (ns : List Str) {roots : List Str} {s r : InstSt}
    (hr : Resolved E.net A files roots s.sess) (h : seqSteps (fun i s => if s.st.nameExists i then (s, none) else resolveArg E i s) ns s = (r, none)) :
    Resolved E.net A files (roots ++ ns.filter (fun n => !s.st.nameExists n)) r.sess ∧ r.st = s.st := by
  induction ns generalizing s roots with
  | nil => simp only [seqSteps, Prod.mk.injEq, and_true] at h; subst h; simpa using hr
  | cons n ns ih =>
    obtain ⟨s1, h1, h2⟩ := seqSteps_split.mp h
    by_cases hk : s.st.nameExists n = true
    · rw [if_pos hk] at h1
      simp only [Prod.mk.injEq, and_true] at h1
      subst h1
      simpa [List.filter_cons, hk] using ih hr h2
    · rw [if_neg hk] at h1
      obtain ⟨a, b⟩ := resolved_names ho [n] hr (r := s1) (seqSteps_split.mpr ⟨s1, h1, rfl⟩)
      obtain ⟨c, d⟩ := ih a h2
      rw [b] at c d
      simp only [Bool.not_eq_true] at hk
      exact ⟨by simpa [List.filter_cons, hk] using c, d⟩

/-- The packages asked for by the arguments, in the order they are resolved; the members of a set or collection in the order of their names. -/
def askedList (repo : List (Str × RepoPkg)) (known : Str → Bool) (args : List Str) : List Str :=
  args.flatMap (fun x => if (memberPackages repo x).isEmpty then [x] else (memberPackages repo x).filter (fun n => !known n))

theorem resolved_args {E : InstEnv} {opts : Opts} {files : List (Str × Str)} (ho : InOrder E.net files A) (args : List Str)
    (hl : ∀ x ∈ args, E.localFile x = none) {roots : List Str} {s r : InstSt}
    (hr : Resolved E.net A files roots s.sess) (h : seqSteps (installArg E opts) args s = (r, none)) :
    Resolved E.net A files (roots ++ askedList E.net.repo s.st.nameExists args) r.sess ∧ r.st = s.st := by
  induction args generalizing s roots with
  | nil => simp only [seqSteps, Prod.mk.injEq, and_true] at h; subst h; simpa [askedList] using hr
  | cons x args ih =>
    obtain ⟨s1, h1, h2⟩ := seqSteps_split.mp h
    have hstep : Resolved E.net A files (roots ++ askedList E.net.repo s.st.nameExists [x]) s1.sess ∧ s1.st = s.st := by
      unfold installArg at h1
      by_cases hm : (memberPackages E.net.repo x).isEmpty = true
      · simp only [hm, Bool.not_true, Bool.false_eq_true, if_false, hl x (by simp)] at h1
        have e : askedList E.net.repo s.st.nameExists [x] = [x] := by
          simp only [askedList, List.flatMap_cons, List.flatMap_nil, hm, if_true, List.append_nil]
        rw [e]
        exact resolved_names ho [x] hr (r := s1) (seqSteps_split.mpr ⟨s1, h1, rfl⟩)
      · simp only [hm, Bool.not_false, if_true] at h1
        have e : askedList E.net.repo s.st.nameExists [x] = (memberPackages E.net.repo x).filter (fun n => !s.st.nameExists n) := by
          simp only [askedList, List.flatMap_cons, List.flatMap_nil, if_neg hm, List.append_nil]
        rw [e]
        exact resolved_members ho _ hr h1
    obtain ⟨a, b⟩ := hstep
    obtain ⟨c, d⟩ := ih (fun y hy => hl y (List.mem_cons_of_mem _ hy)) a h2
    rw [b] at c d
    refine ⟨?_, d⟩
    have : askedList E.net.repo s.st.nameExists (x :: args) = askedList E.net.repo s.st.nameExists [x] ++ askedList E.net.repo s.st.nameExists args := by
      simp [askedList]
    rw [this, ← List.append_assoc]
    exact c

/-- The files of a repository in order are there: nothing is downloaded beforehand. -/
theorem prefetch_present {E : InstEnv} {files : List (Str × Str)} (ho : InOrder E.net files A) (ns : List Str) (s : InstSt) (hf : s.sess.files = files) :
    seqSteps (prefetch E) ns s = (s, none) := by
  induction ns with
  | nil => rfl
  | cons n ns ih =>
    refine seqSteps_split.mpr ⟨s, ?_, ih⟩
    unfold prefetch
    cases hp : mget E.net.repo n with
    | none => rfl
    | some p =>
      obtain ⟨c, hc, _⟩ := ho n p hp
      simp [hf, hc]

theorem mem_groupNames {E : InstEnv} {list : List (Str × Nat)} {n : Str} :
    n ∈ groupNames E list ↔ ∃ j g, j ∈ list.map (·.1) ∧ g ∈ E.groups ∧ n = j ++ '.' :: g ∧ n ∈ keys E.net.repo := by
  unfold groupNames
  rw [mem_sofList]
  simp only [List.mem_flatMap, List.mem_filter, List.mem_map, Option.isSome_iff_exists, ← mem_keys_iff]
  constructor
  · rintro ⟨g, hg, ⟨x, hx, rfl⟩, hk⟩
    exact ⟨x.1, g, ⟨x, hx, rfl⟩, hg, rfl, hk⟩
  · rintro ⟨j, g, ⟨x, hx, rfl⟩, hg, rfl, hk⟩
    exact ⟨g, hg, ⟨x, hx, rfl⟩, hk⟩

/-- What a successful `cards install` without files on the command line has resolved. -/
theorem install_resolved {E : InstEnv} {opts : Opts} {args : List Str} {s : Sys} {sess : RepoSess} {r : InstSt}
    (ho : InOrder E.net sess.files A) (hr : SessOk E.net A sess) (hlist : sess.list = []) (hl : ∀ x ∈ args, E.localFile x = none)
    (h : cardsInstall E opts args s sess = (r, none)) :
    LocalFiles E args = [] ∧ ∃ subs, Sorted subs ∧
      (∀ n, n ∈ subs ↔ ∃ j g, (∃ q ∈ askedList E.net.repo (load s false).nameExists args, NeededFor E.net A q j) ∧ g ∈ E.groups ∧ n = j ++ '.' :: g ∧
        n ∈ keys E.net.repo) ∧
      Resolved E.net A sess.files (askedList E.net.repo (load s false).nameExists args ++ subs) r.sess := by
  refine ⟨?_, ?_⟩
  · unfold LocalFiles
    rw [List.filterMap_eq_nil_iff]
    intro x hx
    simp [hl x hx]
  · unfold cardsInstall at h
    simp only at h
    split at h
    · simp at h
    · have h0 : Resolved E.net A sess.files [] sess :=
        ⟨hr, rfl, by rw [hlist]; simp [Ordered], by rw [hlist]; simp, by rw [hlist]; simp⟩
      cases h1 : seqSteps (installArg E opts) args { st := load s false, sess := sess, count := 0 } with
      | mk s1 e1 =>
        rw [h1] at h
        cases e1 with
        | some e => simp at h
        | none =>
          simp only at h
          obtain ⟨r1, q1⟩ := resolved_args ho args hl h0 h1
          rw [List.nil_append] at r1
          unfold addGroupPackages at h
          simp only at h
          rw [prefetch_present ho _ s1 r1.files] at h
          simp only at h
          cases h2 : seqSteps (resolveArg E) (groupNames E s1.sess.list) s1 with
          | mk s2 e2 =>
            rw [h2] at h
            cases e2 with
            | some e => simp at h
            | none =>
              simp only at h
              obtain ⟨r2, q2⟩ := resolved_names ho _ r1 h2
              obtain ⟨_, d2⟩ := did_listed (flag := fun t => decide (0 < t)) (m := fun _ => none) (fun i s => rfl) h
              refine ⟨groupNames E s1.sess.list, sorted_sofList _, ?_, by rw [d2]; exact r2⟩
              intro n
              rw [mem_groupNames]
              simp only [r1.names]

theorem mem_askedList {repo : List (Str × RepoPkg)} (hm : MSorted repo) {s : Sys} {args : List Str} {n : Str} :
    n ∈ askedList repo (load s false).nameExists args ↔ ∃ x ∈ args, AskedBy repo s.disk x n := by
  unfold askedList
  rw [List.mem_flatMap]
  refine exists_congr fun x => and_congr_right fun _ => ?_
  have hset : packagesOfSet repo x = [] ↔ ¬ ∃ m, InSet repo x m := by
    rw [List.eq_nil_iff_forall_not_mem]
    simp only [mem_packagesOfSet hm, InSet, not_exists]
  have hcoll : packagesOfCollection repo x = [] ↔ ¬ ∃ m, InColl repo x m := by
    rw [List.eq_nil_iff_forall_not_mem]
    simp only [mem_packagesOfCollection hm, InColl, not_exists]
  have hknown : ∀ n, (!(load s false).nameExists n) = true ↔ ¬ ∃ p, Called s.disk p n := by
    intro n
    rw [← C42_reported s false n]
    simp
  by_cases h1 : ∃ m, InSet repo x m
  · have e1 : packagesOfSet repo x ≠ [] := fun h => hset.mp h h1
    have e2 : memberPackages repo x = packagesOfSet repo x := by simp [memberPackages, e1]
    rw [e2]
    simp only [List.isEmpty_iff, if_neg e1, List.mem_filter, hknown, mem_packagesOfSet hm]
    constructor
    · exact fun h => Or.inl h
    · rintro (h | ⟨h, _⟩ | ⟨h, _⟩)
      · exact h
      · exact absurd h1 h
      · exact absurd h1 h
  · have e1 := hset.mpr h1
    have e2 : memberPackages repo x = packagesOfCollection repo x := by simp [memberPackages, e1]
    rw [e2]
    by_cases h2 : ∃ m, InColl repo x m
    · have e3 : packagesOfCollection repo x ≠ [] := fun h => hcoll.mp h h2
      simp only [List.isEmpty_iff, if_neg e3, List.mem_filter, hknown, mem_packagesOfCollection hm]
      constructor
      · exact fun h => Or.inr (Or.inl ⟨h1, h⟩)
      · rintro (⟨h, _⟩ | ⟨_, h⟩ | ⟨_, h, _⟩)
        · exact absurd ⟨n, h⟩ h1
        · exact h
        · exact absurd h2 h
    · have e3 := hcoll.mpr h2
      simp only [e3, List.isEmpty_nil, if_true, List.mem_singleton]
      constructor
      · exact fun h => Or.inr (Or.inr ⟨h1, h2, h⟩)
      · rintro (⟨h, _⟩ | ⟨_, h, _⟩ | ⟨_, _, h⟩)
        · exact absurd ⟨n, h⟩ h1
        · exact absurd ⟨n, h⟩ h2
        · exact h

/-- The listed packages, and the files they come from. -/
theorem install_wanted {E : InstEnv} {opts : Opts} {args : List Str} {s : Sys} {sess : RepoSess} {r : InstSt} (hm : MSorted E.net.repo)
    (ho : InOrder E.net sess.files A) (hr : SessOk E.net A sess) (hlist : sess.list = []) (hl : ∀ x ∈ args, E.localFile x = none)
    (h : cardsInstall E opts args s sess = (r, none)) : ∀ m, m ∈ r.sess.list.map (·.1) ↔ Wanted E A s.disk args m := by
  obtain ⟨_, subs, _, h2, h3⟩ := install_resolved ho hr hlist hl h
  have hargs : ∀ m, (∃ q ∈ askedList E.net.repo (load s false).nameExists args, NeededFor E.net A q m) ↔ NeededByArgs E A s.disk args m := by
    intro m
    unfold NeededByArgs
    constructor
    · rintro ⟨q, hq, hm'⟩
      obtain ⟨x, hx, ha⟩ := (mem_askedList hm).mp hq
      exact ⟨x, hx, q, ha, hm'⟩
    · rintro ⟨x, hx, q, ha, hm'⟩
      exact ⟨q, (mem_askedList hm).mpr ⟨x, hx, ha⟩, hm'⟩
  have hsubs : ∀ n, n ∈ subs ↔ GroupSub E A s.disk args n := by
    intro n
    rw [h2]
    unfold GroupSub
    simp only [hargs]
  intro m
  rw [h3.names]
  unfold Wanted
  rw [← hargs]
  constructor
  · rintro ⟨n, hn, hneed⟩
    rcases List.mem_append.mp hn with hn | hn
    · exact Or.inl ⟨n, hn, hneed⟩
    · exact Or.inr ⟨n, (hsubs n).mp hn, hneed⟩
  · rintro (⟨n, hn, hneed⟩ | ⟨n, hn, hneed⟩)
    · exact ⟨n, List.mem_append_left _ hn, hneed⟩
    · exact ⟨n, List.mem_append_right _ ((hsubs n).mpr hn), hneed⟩

/-- **C50, packages, sets, collections and groups.** After a successful `cards install` of any names from a repository in order, the packages the
arguments stand for, the sub-packages of the configured groups and everything these need is installed, each as its package file says; no other package
appeared, disappeared or was changed. -/
theorem C50_packages (E : InstEnv) (opts : Opts) (args : List Str) (s : Sys) (sess : RepoSess) (r : InstSt) (rx : Matcher)
    (hrx : ∀ k, (E.env k).rx = rx) (hw : WF s.disk) (hm : MSorted E.net.repo) (ho : InOrder E.net sess.files A) (hr : SessOk E.net A sess)
    (hlist : sess.list = []) (hl : ∀ x ∈ args, E.localFile x = none) (hh : Honest E sess.files)
    (h : cardsInstall E opts args s sess = (r, none)) :
    (∀ m, Installed r.st.disk m ↔ Installed s.disk m ∨ Wanted E A s.disk args m) ∧
    (opts.force = false → ∀ m, Wanted E A s.disk args m →
      ∃ a, FileOf E sess.files m = some a ∧ a.name = m ∧ Recorded r.st.disk a (Ships rx E.rules a)) ∧
    (opts.force = false → ∀ m i, ¬ Wanted E A s.disk args m → ((m, i) ∈ r.st.disk ↔ (m, i) ∈ s.disk)) := by
  obtain ⟨h1, subs, _, _, hres⟩ := install_resolved ho hr hlist hl h
  have h3 := hres.files
  have g3 := hres.ordered
  have hneed := install_wanted hm ho hr hlist hl h
  obtain ⟨p1, p2, p3⟩ := C50_installed E opts args s sess r rx hrx hw h
  rw [h1, List.nil_append] at p1 p2 p3
  have hfo : ∀ x ∈ r.sess.list, ∃ a, FileOf E sess.files x.1 = some a ∧ a.name = x.1 := by
    intro x hx
    obtain ⟨a, ha⟩ := p1 (FileOf E r.sess.files x.1, decide (0 < x.2)) (List.mem_map.mpr ⟨x, hx, rfl⟩)
    rw [h3] at ha
    refine ⟨a, ha, ?_⟩
    simp only [FileOf] at ha
    obtain ⟨p, hp, ha⟩ := Option.bind_eq_some_iff.mp ha
    obtain ⟨c, hc, ha⟩ := Option.bind_eq_some_iff.mp ha
    exact (hh x.1 p c a hp hc ha).1
  have hname : ∀ b d, (some b, d) ∈ ListedFiles E r.sess → Wanted E A s.disk args b.name := by
    intro b d hb
    obtain ⟨x, hx, e⟩ := List.mem_map.mp hb
    obtain ⟨a, ha, hn⟩ := hfo x hx
    simp only [h3, Prod.mk.injEq] at e
    rw [ha] at e
    simp only [Option.some.injEq] at e
    rw [← e.1, hn, ← hneed]
    exact List.mem_map.mpr ⟨x, hx, rfl⟩
  have hone : ∀ m, Wanted E A s.disk args m → ∃ a, FileOf E sess.files m = some a ∧ a.name = m ∧
      ∃ pre dep post, ListedFiles E r.sess = pre ++ (some a, dep) :: post ∧ ∀ b d, (some b, d) ∈ post → b.name ≠ a.name := by
    intro m hm
    obtain ⟨x, hx, rfl⟩ := List.mem_map.mp ((hneed m).mpr hm)
    obtain ⟨a, ha, hn⟩ := hfo x hx
    refine ⟨a, ha, hn, ?_⟩
    obtain ⟨u, v, e⟩ := List.append_of_mem hx
    refine ⟨u.map (fun i => (FileOf E r.sess.files i.1, decide (0 < i.2))), decide (0 < x.2),
      v.map (fun i => (FileOf E r.sess.files i.1, decide (0 < i.2))), ?_, ?_⟩
    · unfold ListedFiles; rw [e, h3]; simp [ha]
    · intro b d hb
      obtain ⟨y, hy, ey⟩ := List.mem_map.mp hb
      obtain ⟨a', ha', hn'⟩ := hfo y (by rw [e]; simp [hy])
      simp only [h3, Prod.mk.injEq] at ey
      rw [ha'] at ey
      simp only [Option.some.injEq] at ey
      rw [← ey.1, hn', hn]
      have hnd := g3.1
      rw [e, List.map_append, List.map_cons, List.nodup_append] at hnd
      intro hc
      exact (List.nodup_cons.mp hnd.2.1).1 (List.mem_map.mpr ⟨y, hy, hc⟩)
  have hins : ∀ m, Wanted E A s.disk args m → Installed r.st.disk m := by
    intro m hm
    obtain ⟨a, ha, hn, pre, dep, post, e, hpost⟩ := hone m hm
    obtain ⟨js, j1, j2, j3⟩ := did_install h
    rw [h1, List.nil_append, e] at j2
    obtain ⟨p, j, q, rfl, e1, e2, e3⟩ := jobs_split j2
    simp only [Prod.mk.injEq, Option.some.injEq] at e2
    have hq : ∀ k ∈ q, k.a.name ≠ j.a.name := by
      intro k hk; rw [e2.1]; apply hpost k.a k.dep; rw [← e3]; exact List.mem_map.mpr ⟨k, hk, rfl⟩
    obtain ⟨gone, q1, _⟩ := runJobs_last E.rules opts p j q (load s false) r.st (sane_load hw) rfl j1 hq
    rw [e2.1, hn] at q1
    exact mget_isSome_installed.mp (by rw [q1]; rfl)
  refine ⟨?_, ?_, ?_⟩
  · intro m
    by_cases hm : Wanted E A s.disk args m
    · exact ⟨fun _ => Or.inr hm, fun _ => hins m hm⟩
    · have := (p3 m (fun b d hb hc => hm (hc ▸ hname b d hb))).2.1
      rw [this]; tauto
  · intro hf m hm
    obtain ⟨a, ha, hn, pre, dep, post, e, hpost⟩ := hone m hm
    exact ⟨a, ha, hn, (p2 pre a dep post e hpost).1 hf⟩
  · intro hf m i hm
    exact (p3 m (fun b d hb hc => hm (hc ▸ hname b d hb))).1 hf i

/-- **C51, packages, sets, collections and groups.** After a successful `cards install` from a repository in order whose dependencies carry dates, the
packages marked as automatically installed are those marked before and those handled for which the first of the packages asked for (by the arguments in
their order, then by the groups in the order of names) that needs them is another one. -/
theorem C51_packages (E : InstEnv) (opts : Opts) (args : List Str) (s : Sys) (sess : RepoSess) (r : InstSt) (hw : WF s.disk)
    (ho : InOrder E.net sess.files A) (hr : SessOk E.net A sess) (hlist : sess.list = []) (hl : ∀ x ∈ args, E.localFile x = none)
    (hh : Honest E sess.files) (hdate : ∀ n d, Asks E.net A n d → d.2 ≠ 0) (h : cardsInstall E opts args s sess = (r, none)) :
    let asked := askedList E.net.repo (load s false).nameExists args
    ∃ subs, Sorted subs ∧
      (∀ n, n ∈ subs ↔ ∃ j g, (∃ q ∈ asked, NeededFor E.net A q j) ∧ g ∈ E.groups ∧ n = j ++ '.' :: g ∧ n ∈ keys E.net.repo) ∧
      ∀ m, Marked r.st.disk m ↔ Marked s.disk m ∨ ∃ n, FirstFor E.net A (asked ++ subs) m n ∧ n ≠ m := by
  intro asked
  obtain ⟨h1, subs, hsort, hsubs, hres⟩ := install_resolved ho hr hlist hl h
  refine ⟨subs, hsort, hsubs, fun m => ?_⟩
  have h3 := hres.files
  obtain ⟨js, j1, j2, j3⟩ := did_install h
  rw [h1, List.nil_append] at j2
  replace j1 : runJobs E.rules opts js (load s false) = (r.st, none) := j1
  have hfo : ∀ x ∈ r.sess.list, ∃ a, FileOf E sess.files x.1 = some a ∧ a.name = x.1 ∧ "d1".toList ∉ a.md := by
    intro x hx
    have : (FileOf E r.sess.files x.1, decide (0 < x.2)) ∈ ListedFiles E r.sess := List.mem_map.mpr ⟨x, hx, rfl⟩
    rw [← j2] at this
    obtain ⟨j, _, e⟩ := List.mem_map.mp this
    simp only [Prod.mk.injEq] at e
    have ha := e.1.symm
    rw [h3] at ha
    refine ⟨j.a, ha, ?_⟩
    simp only [FileOf] at ha
    obtain ⟨p, hp, ha⟩ := Option.bind_eq_some_iff.mp ha
    obtain ⟨c, hc, ha⟩ := Option.bind_eq_some_iff.mp ha
    exact hh x.1 p c j.a hp hc ha
  have hnames : ∀ b d, (some b, d) ∈ ListedFiles E r.sess → ∃ x ∈ r.sess.list, b.name = x.1 := by
    intro b d hb
    obtain ⟨x, hx, e⟩ := List.mem_map.mp hb
    obtain ⟨a, ha, hn, _⟩ := hfo x hx
    simp only [h3, Prod.mk.injEq] at e
    rw [ha] at e
    simp only [Option.some.injEq] at e
    exact ⟨x, hx, by rw [← e.1, hn]⟩
  by_cases hm : m ∈ r.sess.list.map (·.1)
  · obtain ⟨x, hx, rfl⟩ := List.mem_map.mp hm
    obtain ⟨a, ha, hn, hmd⟩ := hfo x hx
    obtain ⟨u, v, e⟩ := List.append_of_mem hx
    have hnd := hres.ordered.1
    rw [e, List.map_append, List.map_cons, List.nodup_append] at hnd
    have hsub : ∀ (w : List (Str × Nat)), (∀ y ∈ w, y ∈ r.sess.list) → x.1 ∉ w.map (·.1) →
        ∀ b d, (some b, d) ∈ w.map (fun i => (FileOf E r.sess.files i.1, decide (0 < i.2))) → b.name ≠ a.name := by
      intro w hw' hxw b d hb
      obtain ⟨y, hy, ey⟩ := List.mem_map.mp hb
      obtain ⟨a', ha', hn', _⟩ := hfo y (hw' y hy)
      simp only [h3, Prod.mk.injEq] at ey
      rw [ha'] at ey
      simp only [Option.some.injEq] at ey
      rw [← ey.1, hn', hn]
      intro hc
      exact hxw (List.mem_map.mpr ⟨y, hy, hc⟩)
    have hmark := C51_marks E opts args s sess r hw h (u.map (fun i => (FileOf E r.sess.files i.1, decide (0 < i.2))))
      (v.map (fun i => (FileOf E r.sess.files i.1, decide (0 < i.2)))) a (decide (0 < x.2))
      (by rw [h1, List.nil_append]; unfold ListedFiles; rw [e, h3]; simp [ha])
      (hsub v (fun y hy => by rw [e]; simp [hy]) (List.nodup_cons.mp hnd.2.1).1) hmd
    rw [hn] at hmark
    rw [hmark]
    have hpre : ∀ b d, (some b, d) ∈ u.map (fun i => (FileOf E r.sess.files i.1, decide (0 < i.2))) → b.name ≠ x.1 := by
      rw [← hn]
      exact hsub u (fun y hy => by rw [e]; simp [hy]) (fun hc => hnd.2.2 x.1 hc x.1 (by simp) rfl)
    obtain ⟨n, hfirst, k1, k2⟩ := hres.entries x hx
    have hd : decide (0 < x.2) = true ↔ ∃ n, FirstFor E.net A (asked ++ subs) x.1 n ∧ n ≠ x.1 := by
      rw [decide_eq_true_eq]
      constructor
      · intro hp
        refine ⟨n, hfirst, fun hc => ?_⟩
        rw [k1 hc.symm] at hp; omega
      · rintro ⟨n', hf', hne⟩
        have : n' = n := firstFor_unique hf' hfirst
        subst this
        obtain ⟨q, _, hasks⟩ := k2 (fun hc => hne hc.symm)
        have := hdate q x hasks
        omega
    rw [hd]
    constructor
    · rintro (h | ⟨_, h⟩)
      · exact Or.inr h
      · exact Or.inl h
    · rintro (h | h)
      · exact Or.inr ⟨hpre, h⟩
      · exact Or.inl h
  · have hno : ¬ ∃ n, FirstFor E.net A (asked ++ subs) m n ∧ n ≠ m := by
      rintro ⟨n, ⟨pre, post, e, hneed, _⟩, _⟩
      exact hm ((hres.names m).mpr ⟨n, by rw [show askedList E.net.repo (load s false).nameExists args ++ subs = pre ++ n :: post from e]; simp, hneed⟩)
    have hn' : ∀ j ∈ js, j.a.name ≠ m := by
      intro j hj hc
      have : (some j.a, j.dep) ∈ ListedFiles E r.sess := by rw [← j2]; exact List.mem_map.mpr ⟨j, hj, rfl⟩
      obtain ⟨x, hx, e⟩ := hnames _ _ this
      apply hm
      rw [← hc, e]
      exact List.mem_map.mpr ⟨x, hx, rfl⟩
    obtain ⟨gone, q1, _⟩ := runJobs_other E.rules opts js (load s false) r.st (sane_load hw) j1 m hn'
    replace q1 : mget r.st.disk m = (mget s.disk m).map (dropInfo gone) := q1
    have hinv := runJobs_inv E.rules opts js (load s false) (sane_load hw)
    rw [j1] at hinv
    rw [marked_iff_mget hinv.1, marked_iff_mget hw, q1]
    cases hg' : mget s.disk m with
    | none => simp [hno]
    | some i => simp [hno, dropInfo]

/-! ## The package files -/

/-- A file that is not one of the repository's. -/
def NotOfRepo (repo : List (Str × RepoPkg)) (path : Str) : Prop := ∀ n p, mget repo n = some p → p.path ≠ path

theorem keep_download {net : Net} {p : RepoPkg} {n path : Str} {s s' : ResSt} (hp : p.path ≠ path) (h : download net p n s = .ok s') :
    mget s'.files path = mget s.files path := by
  unfold download at h
  split at h
  · simp at h
  · injection h with h; subst h; rfl
  · injection h with h; subst h
    simp only [mget_mset, if_neg hp]

theorem keep_fetch {net : Net} {p : RepoPkg} {n path : Str} {s s' : ResSt} (hp : p.path ≠ path) (h : fetchAndCheck net p n s = .ok s') :
    mget s'.files path = mget s.files path := by
  unfold fetchAndCheck at h
  split at h
  · injection h with h; subst h; rfl
  · cases h1 : ensureFile net p n s with
    | error e => rw [h1] at h; simp [bind, Except.bind] at h
    | ok s1 =>
      have e1 : mget s1.files path = mget s.files path := by
        unfold ensureFile at h1
        split at h1
        · exact keep_download hp h1
        · injection h1 with h1; subst h1; rfl
      cases h2 : recheckFile net p n s1 with
      | error e => rw [h1] at h; simp [bind, Except.bind, h2] at h
      | ok s2 =>
        have e2 : mget s2.files path = mget s1.files path := by
          unfold recheckFile at h2
          split at h2
          · simp at h2
          · split at h2
            · injection h2 with h2; subst h2; rfl
            · exact keep_download hp h2
        have e3 : s' = s2 := by
          rw [h1] at h
          simp only [bind, Except.bind, h2] at h
          unfold checkSign at h
          split at h
          · simp at h
          · split at h
            · simp at h
            · injection h with h; exact h.symm
            · simp at h
        rw [e3, e2, e1]

theorem keep_resolve {net : Net} {path : Str} (hp : NotOfRepo net.repo path) (fuel : Nat) (s s' : ResSt) (h : depLoop net fuel s = .ok s') :
    mget s'.files path = mget s.files path := by
  induction fuel generalizing s with
  | zero => simp [depLoop] at h
  | succ fuel ih =>
    cases hw : s.work with
    | nil => rw [depLoop, hw] at h; injection h with h; subst h; rfl
    | cons x w =>
      rw [depLoop_cons fuel hw] at h
      cases h1 : resolveStep net x { s with work := w } with
      | error e => rw [h1] at h; simp [bind, Except.bind] at h
      | ok s1 =>
        rw [h1] at h
        rw [ih s1 h]
        unfold resolveStep at h1
        cases h2 : directDeps net x.1 { s with work := w } with
        | error e => rw [h2] at h1; simp [bind, Except.bind] at h1
        | ok y =>
          obtain ⟨s2, deps⟩ := y
          rw [h2] at h1
          simp only [bind, Except.bind] at h1
          injection h1 with h1
          subst h1
          simp only
          unfold directDeps at h2
          split at h2
          · injection h2 with h2; rw [Prod.mk.injEq] at h2; rw [← h2.1]
          · cases hr : mget net.repo x.1 with
            | none => rw [hr] at h2; simp at h2
            | some p =>
              rw [hr] at h2
              simp only at h2
              cases h3 : fetchAndCheck net p x.1 { s with work := w } with
              | error e => rw [h3] at h2; simp [bind, Except.bind] at h2
              | ok s3 =>
                rw [h3] at h2
                simp only [bind, Except.bind] at h2
                have e3 := keep_fetch (hp x.1 p hr) h3
                unfold packageDependencies at h2
                split at h2
                · simp at h2
                · split at h2
                  · simp at h2
                  · split at h2
                    · injection h2 with h2; rw [Prod.mk.injEq] at h2; rw [← h2.1]; exact e3
                    · injection h2 with h2; rw [Prod.mk.injEq] at h2; rw [← h2.1]; exact e3

theorem keep_seq {α : Type} {path : Str} {f : α → InstSt → InstSt × Option InstErr} (hf : ∀ x s, mget (f x s).1.sess.files path = mget s.sess.files path)
    (xs : List α) (s : InstSt) : mget (seqSteps f xs s).1.sess.files path = mget s.sess.files path := by
  induction xs generalizing s with
  | nil => rfl
  | cons x xs ih =>
    simp only [seqSteps]
    have := hf x s
    cases h : f x s with
    | mk s1 e =>
      rw [h] at this
      cases e with
      | some e => exact this
      | none => simp only; rw [ih, this]

theorem keep_resolveArg {E : InstEnv} {path : Str} (hp : NotOfRepo E.net.repo path) (n : Str) (s : InstSt) :
    mget (resolveArg E n s).1.sess.files path = mget s.sess.files path := by
  unfold resolveArg
  cases h : generateDeps E.net E.fuel n s.sess with
  | error e => rfl
  | ok sess' =>
    unfold generateDeps at h
    split at h
    · simp at h
    · rename_i s' hs
      injection h with h
      subst h
      exact keep_resolve hp _ _ _ hs

theorem keep_prefetch {E : InstEnv} {path : Str} (hp : NotOfRepo E.net.repo path) (n : Str) (s : InstSt) :
    mget (prefetch E n s).1.sess.files path = mget s.sess.files path := by
  unfold prefetch
  cases hr : mget E.net.repo n with
  | none => rfl
  | some p =>
    simp only
    split
    · rfl
    · cases E.net.fetch s.sess.clock n with
      | failed => rfl
      | empty => rfl
      | got c => simp only [mget_mset, if_neg (hp n p hr)]

theorem keep_runFile {E : InstEnv} {path : Str} (opts : Opts) (a : Option Archive) (dep : Bool) (m : Option Str) (s : InstSt) :
    mget (runFile E opts a dep m s).1.sess.files path = mget s.sess.files path := by
  unfold runFile
  cases a <;> rfl

/-- **C50, package files.** Whatever the outcome, downloading changes only the files of the packages of the repository, in the place the repository lists them. -/
theorem C50_only_package_files (E : InstEnv) (opts : Opts) (args : List Str) (s : Sys) (sess : RepoSess) (path : Str) (hp : NotOfRepo E.net.repo path) :
    mget (cardsInstall E opts args s sess).1.sess.files path = mget sess.files path := by
  unfold cardsInstall
  simp only
  cases unknownArg E args with
  | some n => rfl
  | none =>
    simp only
    have h1 : mget (seqSteps (installArg E opts) args { st := load s false, sess := sess, count := 0 }).1.sess.files path = mget sess.files path := by
      rw [keep_seq]
      intro x s
      unfold installArg
      split
      · refine keep_seq ?_ _ s
        intro i s
        split
        · rfl
        · exact keep_resolveArg hp i s
      · split
        · exact keep_runFile opts _ _ _ s
        · exact keep_resolveArg hp x s
    cases hs1 : seqSteps (installArg E opts) args { st := load s false, sess := sess, count := 0 } with
    | mk s1 e1 =>
      rw [hs1] at h1
      cases e1 with
      | some e => exact h1
      | none =>
        simp only
        have h2 : mget (addGroupPackages E s1).1.sess.files path = mget s1.sess.files path := by
          unfold addGroupPackages
          simp only
          have hq := keep_seq (keep_prefetch hp) (groupNames E s1.sess.list) s1
          cases hs2 : seqSteps (prefetch E) (groupNames E s1.sess.list) s1 with
          | mk s2 e2 =>
            rw [hs2] at hq
            cases e2 with
            | some e => exact hq
            | none => simp only; rw [keep_seq (keep_resolveArg hp), hq]
        cases hs2 : addGroupPackages E s1 with
        | mk s2 e2 =>
          rw [hs2] at h2
          cases e2 with
          | some e => simp only at h1 h2 ⊢; rw [h2, h1]
          | none =>
            simp only at h1 h2 ⊢
            rw [keep_seq, h2, h1]
            intro i s
            exact keep_runFile opts _ _ _ s

/-! ## A case -/

/-- As `xDeps`, with a sub-package of `mutt` and one of `zlib`. -/
def yDeps : List (Str × List (Str × Nat)) := [("mutt".toList, [("glibc".toList, 7), ("zlib".toList, 5)]), ("mutt.man".toList, [("zlib".toList, 5)]),
  ("vim".toList, [("zlib".toList, 5)]), ("zlib".toList, []), ("zlib.man".toList, [])]

def yPkg (n : Str) (ds : List (Str × Nat)) : RepoPkg :=
  { xPkg n ds with sets := if n = "mutt".toList ∨ n = "vim".toList then ["base".toList] else [] }

/-- `mutt` and `vim` are in the set `base`; the group `man` is configured. -/
def yInst : InstEnv :=
  { xInst [] with
    net := { xNet yDeps yDeps with repo := yDeps.map (fun p => (p.1, yPkg p.1 p.2)) }
    pkgOf := fun c => if c ∈ keys yDeps then some (xArch (String.ofList c) ["usr/", "usr/" ++ String.ofList c]) else none
    groups := ["man".toList] }

theorem yInst_runs : outcome (cardsInstall yInst xOpts ["base".toList] xSys (xSess yDeps)) =
    (none, [("bar".toList, false), ("foo".toList, true), ("mutt".toList, false), ("mutt.man".toList, false), ("vim".toList, false), ("zlib".toList, true),
      ("zlib.man".toList, false)]) := by
  decide +kernel

theorem yInst_repo (n : Str) (p : RepoPkg) (h : mget yInst.net.repo n = some p) :
    ∃ ds, mget yDeps n = some ds ∧ p.path = (xPkg n ds).path ∧ p.deps = (xPkg n ds).deps := by
  have h' : mget (yDeps.map (fun p => (p.1, yPkg p.1 p.2))) n = some p := h
  rw [mget_map_val (f := yPkg)] at h'
  cases hg : mget yDeps n with
  | none => rw [hg] at h'; simp at h'
  | some ds =>
    rw [hg] at h'
    simp only [Option.map_some, Option.some.injEq] at h'
    subst h'
    exact ⟨ds, rfl, rfl, rfl⟩

theorem yInst_inOrder : InOrder yInst.net (xSess yDeps).files (rArch yDeps) := by
  intro n p hp
  obtain ⟨ds, h1, h2, h3⟩ := yInst_repo n p hp
  have hx : mget (xNet yDeps yDeps).repo n = some (xPkg n ds) := by
    show mget (yDeps.map (fun p => (p.1, xPkg p.1 p.2))) n = _
    rw [mget_map_val (f := xPkg), h1]; rfl
  obtain ⟨c, c1, _, c3, c4, c5⟩ := xNet_inOrder yDeps n _ hx
  refine ⟨c, by rw [h2]; exact c1, fun h => absurd rfl h, c3, c4, ?_⟩
  rw [h3]; exact c5

theorem yInst_honest : Honest yInst (xSess yDeps).files := by
  intro m p c a hp hc ha
  obtain ⟨ds, h1, h2, h3⟩ := yInst_repo m p hp
  have hm : m ∈ keys yDeps := mem_keys_iff.mpr ⟨ds, h1⟩
  rw [h2] at hc
  have hc' : c = m := by
    have : mget (xFiles yDeps) (xPkg m ds).path = some m := xFiles_get yDeps m hm
    have hc2 : mget (xFiles yDeps) (xPkg m ds).path = some c := hc
    rw [this] at hc2
    exact (Option.some.inj hc2).symm
  subst hc'
  have ha' : (if c ∈ keys yDeps then some (xArch (String.ofList c) ["usr/", "usr/" ++ String.ofList c]) else none) = some a := ha
  rw [if_pos hm] at ha'
  simp only [Option.some.injEq] at ha'
  subst ha'
  simp only [keys, yDeps, List.map_cons, List.map_nil, List.mem_cons, List.not_mem_nil, or_false] at hm
  rcases hm with rfl | rfl | rfl | rfl | rfl <;> decide +kernel

/-- All hypotheses of `C50_packages` and `C51_packages` hold of `yInst_runs`. -/
example : (cardsInstall yInst xOpts ["base".toList] xSys (xSess yDeps)).2 = none ∧ WF xSys.disk ∧ MSorted yInst.net.repo ∧
    InOrder yInst.net (xSess yDeps).files (rArch yDeps) ∧ SessOk yInst.net (rArch yDeps) (xSess yDeps) ∧ Honest yInst (xSess yDeps).files ∧
    (∀ x ∈ ["base".toList], yInst.localFile x = none) ∧ (∀ n d, Asks yInst.net (rArch yDeps) n d → d.2 ≠ 0) := by
  refine ⟨by have := yInst_runs; exact congrArg Prod.fst this, xSys_wf, by unfold MSorted Sorted; decide +kernel, yInst_inOrder,
    by intro n hn; simp [xSess] at hn, yInst_honest, by decide +kernel, ?_⟩
  rintro n d ⟨_, _, hd, _⟩
  simp only [rArch] at hd
  have : ∀ l, mget yDeps n = some l → ∀ d ∈ l, d.2 ≠ 0 := by
    intro l hl d hd
    have := mget_some_mem hl
    simp only [yDeps, List.mem_cons, List.not_mem_nil, or_false, Prod.mk.injEq] at this
    rcases this with ⟨_, rfl⟩ | ⟨_, rfl⟩ | ⟨_, rfl⟩ | ⟨_, rfl⟩ | ⟨_, rfl⟩ <;> revert d <;> decide
  cases hg : mget yDeps n with
  | none => rw [hg] at hd; simp at hd
  | some l => rw [hg] at hd; exact this l hg d hd

/-- Only package files change: the path of another file. -/
example : NotOfRepo yInst.net.repo "/r/README".toList := by
  intro n p h
  obtain ⟨ds, h1, h2, _⟩ := yInst_repo n p h
  have hm : n ∈ keys yDeps := mem_keys_iff.mpr ⟨ds, h1⟩
  rw [h2]
  simp only [keys, yDeps, List.map_cons, List.map_nil, List.mem_cons, List.not_mem_nil, or_false] at hm
  rcases hm with rfl | rfl | rfl | rfl | rfl <;> simp [RepoPkg.path, xPkg]

end Cards.Props
