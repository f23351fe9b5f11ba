import Verif.Props.CreateBase
/-!
# cards create: which ports of a collection are built (C65), `--dry` (C66)
-/
namespace Cards.Props
open Cards Cards.Spec Relation

/-! ## Specification -/

/-- The binary of port `n` is there, and it is the binary of the present port. -/
def BinOk (T : Ports) (repo : List (Str × RepoPkg)) (files : List (Str × Str)) (n : Str) : Prop :=
  ∃ p q c, mget repo n = some p ∧ (n, q) ∈ T ∧ p.version = q.version ∧ p.release = q.release ∧ mget files p.path = some c

/-- What is expected of `pkgmk`, for lists of binaries in the order `R` says (which it keeps): when it succeeds the binary of the port is there, and those of
the other ports are what they were. -/
def MakeOk (C : CreEnv) (T : Ports) (R : List (Str × RepoPkg) → Prop) : Prop :=
  ∀ k n fs repo files fs' repo' files', R repo → C.make k n fs repo files = (fs', some (repo', files')) →
    R repo' ∧ BinOk T repo' files' n ∧ ∀ m, m ≠ n → (BinOk T repo' files' m ↔ BinOk T repo files m)

/-- `ports` are the ports of the collection, each once, none before one it needs (unless a cycle can be reached from it). -/
def BuildOrder (T : Ports) (coll : Str) (ports : List Str) : Prop :=
  (∀ n, n ∈ ports ↔ ∃ p, (n, p) ∈ T ∧ p.collection = coll) ∧ ports.Nodup ∧ ports.Pairwise (fun x y => CycleFree T x → ¬ Needs T x y)

/-- `out` are the elements of `l` for which `P` holds, in the order of `l`. -/
inductive Kept (P : Str → Prop) : List Str → List Str → Prop where
  | nil : Kept P [] []
  | keep {x l out} : P x → Kept P l out → Kept P (x :: l) (x :: out)
  | drop {x l out} : ¬ P x → Kept P l out → Kept P (x :: l) out

/-! ## The steps leave the session alone -/

theorem seqSteps_sess {α : Type} {f : α → InstSt → InstSt × Option InstErr} (hf : ∀ x s, (f x s).1.sess = s.sess) (xs : List α) (s : InstSt) :
    (seqSteps f xs s).1.sess = s.sess :=
  (seqSteps_inv (fun t => t.sess = s.sess) (fun t => t.sess = s.sess) xs
    (fun x _ t ht => ⟨(hf x t).trans ht, fun _ => (hf x t).trans ht⟩) s rfl rfl).1

theorem base_sess (C : CreEnv) (k : Nat) (s : InstSt) : (base C k s).1.sess = s.sess := by
  unfold base
  split
  · rfl
  · refine seqSteps_sess ?_ _ s
    intro n t
    unfold baseStep
    split
    · rfl
    · simp only [deleteListed, Bool.false_eq_true, if_false]
      cases h : removeRecord t.st n with
      | mk st e => cases e <;> rfl

theorem depPort_sess (C : CreEnv) (repo : List (Str × RepoPkg)) (i : Str) (s : InstSt) : (depPort C repo i s).1.sess = s.sess := by
  unfold depPort
  refine seqSteps_sess ?_ _ s
  intro p t
  unfold depFile
  split
  · rfl
  · refine seqSteps_sess ?_ _ t
    intro _ u
    unfold createIfNew
    split <;> rfl

theorem prepare_keeps (C : CreEnv) (name : Str) (s : CreSt) :
    (prepare C name s).1.repo = s.repo ∧ (prepare C name s).1.seen = s.seen ∧ (prepare C name s).1.inst.sess = s.inst.sess := by
  have hb := base_sess C s.seen.length s.inst
  unfold prepare
  cases h : base C s.seen.length s.inst with
  | mk i e =>
    rw [h] at hb
    cases e with
    | some e => exact ⟨rfl, rfl, hb⟩
    | none =>
      simp only
      cases dependsList C.tree (C.tree.length + 1) name [] with
      | none => exact ⟨rfl, rfl, hb⟩
      | some list => exact ⟨rfl, rfl, (seqSteps_sess (depPort_sess C s.repo) _ i).trans hb⟩

/-- A build that succeeds, with or without meta data: `pkgmk` was run once more, for the port, and its result is what the process goes on with. -/
theorem buildBinary_made (C : CreEnv) (name : Str) (s r : CreSt) (h : buildBinary C name s = (r, none)) :
    ∃ w fs, r.seen = w :: s.seen ∧ w.port = name ∧ (C.portDir name = true → w.dir = name) ∧
      C.make s.seen.length w.dir w.fs s.repo s.inst.sess.files = (fs, some (r.repo, r.inst.sess.files)) := by
  obtain ⟨p1, p2, p3⟩ := prepare_keeps C name s
  unfold buildBinary at h
  cases hp : prepare C name s with
  | mk t e =>
    rw [hp] at h p1 p2 p3
    cases e with
    | some e => simp at h
    | none =>
      simp only [makeAndInstall] at h p1 p2 p3
      have hd : C.portDir name = true → (if C.portDir name = true then name else C.cwd t.seen.length) = name := fun h => if_pos h
      generalize (if C.portDir name = true then name else C.cwd t.seen.length) = dir at h hd
      · generalize hmk : C.make t.seen.length dir t.inst.st.fs t.repo t.inst.sess.files = mk at h
        obtain ⟨fs, res⟩ := mk
        cases res with
        | none => simp at h
        | some rf =>
          obtain ⟨repo, files⟩ := rf
          simp only at h
          generalize hi0 : ({ t.inst with st := { t.inst.st with fs := fs }, sess := { t.inst.sess with files := files } } : InstSt) = i0 at h
          have hf : (seqSteps (builtFile C) (pathsOfGroup repo name) i0).1.sess = i0.sess := by
            refine seqSteps_sess ?_ _ i0
            intro p u
            unfold builtFile
            split <;> rfl
          cases hb : seqSteps (builtFile C) (pathsOfGroup repo name) i0 with
          | mk j e =>
            rw [hb] at h hf
            cases e with
            | some e => simp at h
            | none =>
              simp only [Option.map_none, Prod.mk.injEq, and_true] at h
              subst h
              refine ⟨_, fs, congrArg _ p2, rfl, hd, ?_⟩
              have : j.sess.files = files := by rw [hf, ← hi0]
              simp only [this]
              rw [← p1, ← p2, ← p3]; exact hmk

/-- A build, successful or not: at most one more run of `pkgmk`, for the port. -/
theorem buildBinary_seen (C : CreEnv) (name : Str) (s : CreSt) :
    (buildBinary C name s).1.seen = s.seen ∨ ∃ w, (buildBinary C name s).1.seen = w :: s.seen ∧ w.port = name := by
  obtain ⟨p1, p2, p3⟩ := prepare_keeps C name s
  unfold buildBinary
  cases hp : prepare C name s with
  | mk t e =>
    rw [hp] at p1 p2 p3
    cases e with
    | some e => exact Or.inl p2
    | none =>
      simp only [makeAndInstall]
      generalize (if C.portDir name = true then name else C.cwd t.seen.length) = dir
      · generalize C.make t.seen.length dir t.inst.st.fs t.repo t.inst.sess.files = mk
        obtain ⟨fs, res⟩ := mk
        simp only at p2
        cases res with
        | none => exact Or.inr ⟨_, congrArg _ p2, rfl⟩
        | some rf => exact Or.inr ⟨_, congrArg _ p2, rfl⟩

/-! ## C65 -/

theorem needsBuild_iff {T T' : Ports} (hT : FreshPorts T) (hl : loadPorts T = some T') {n : Str} (hn : n ∈ keys T) (repo : List (Str × RepoPkg))
    (files : List (Str × Str)) : needsBuild T' repo files n = true ↔ ¬ BinOk T repo files n := by
  obtain ⟨T'', done, e, l⟩ := loadPorts_spec hT
  rw [hl] at e
  obtain rfl := Option.some.inj e
  have hn' : n ∈ keys T' := by rw [l.names]; exact hn
  obtain ⟨q', hq'⟩ := mem_keys_iff.mp hn'
  obtain ⟨q, hq, _, _, hv, hr⟩ := l.port n q' (mget_some_mem hq')
  have huniq : ∀ x, (n, x) ∈ T → x = q := by
    intro x hx
    have h1 := (mget_iff_mem (m := T) hT.sorted).mpr hx
    have h2 := (mget_iff_mem (m := T) hT.sorted).mpr hq
    rw [h1] at h2; exact Option.some.inj h2
  unfold needsBuild BinOk
  cases hp : mget repo n with
  | none => simp
  | some p =>
    simp only [hq', Option.some.injEq, Bool.or_eq_true, Option.isNone_iff_eq_none, decide_eq_true_eq]
    constructor
    · rintro h ⟨p1, q1, c, rfl, h1, h2, h3, h4⟩
      obtain rfl := huniq q1 h1
      rcases h with h | h | h
      · rw [h4] at h; simp at h
      · exact h (by rw [h2, hv])
      · exact h (by rw [h3, hr])
    · intro h
      by_contra hc
      push Not at hc
      obtain ⟨h1, h2, h3⟩ := hc
      obtain ⟨c, hc⟩ := Option.ne_none_iff_exists'.mp h1
      exact h ⟨p, q, c, rfl, hq, by rw [h2, hv], by rw [h3, hr], hc⟩

theorem kept_congr {P Q : Str → Prop} {l out : List Str} (h : ∀ x ∈ l, P x ↔ Q x) (hk : Kept P l out) : Kept Q l out := by
  induction hk with
  | nil => exact .nil
  | keep hp _ ih => exact .keep ((h _ (by simp)).mp hp) (ih (fun y hy => h y (List.mem_cons_of_mem _ hy)))
  | drop hp _ ih => exact .drop (fun hq => hp ((h _ (by simp)).mpr hq)) (ih (fun y hy => h y (List.mem_cons_of_mem _ hy)))

theorem buildPorts_ok {C : CreEnv} {T : Ports} {R : List (Str × RepoPkg) → Prop} (hdry : C.dry = false) (hT : FreshPorts T)
    (hl : loadPorts T = some C.tree) (hmk : MakeOk C T R) (hdir : ∀ n ∈ keys T, C.portDir n = true)
    (is : List Str) (hnd : is.Nodup) (hk : ∀ n ∈ is, n ∈ keys T) (s r : CreSt) (hR : R s.repo) (ann : List Str)
    (h : buildPorts C is s = (r, none, ann)) :
    Kept (fun n => ¬ BinOk T s.repo s.inst.sess.files n) is ann ∧ r.seen.map (·.port) = ann.reverse ++ s.seen.map (·.port) ∧
    (∀ n, n ∈ is → BinOk T r.repo r.inst.sess.files n) ∧
    (∀ n, n ∉ is → (BinOk T r.repo r.inst.sess.files n ↔ BinOk T s.repo s.inst.sess.files n)) := by
  induction is generalizing s ann with
  | nil =>
    simp only [buildPorts, Prod.mk.injEq, true_and] at h
    obtain ⟨rfl, rfl⟩ := h
    exact ⟨.nil, by simp, by simp, fun _ _ => Iff.rfl⟩
  | cons i is ih =>
    rw [List.nodup_cons] at hnd
    have hneed := needsBuild_iff hT hl (hk i (by simp)) s.repo s.inst.sess.files
    simp only [buildPorts, hdry, Bool.false_eq_true, if_false] at h
    by_cases hb : needsBuild C.tree s.repo s.inst.sess.files i = true
    · rw [if_pos hb] at h
      cases hbb : buildBinary C i s with
      | mk t e =>
        rw [hbb] at h
        cases e with
        | some e => simp at h
        | none =>
          simp only at h
          cases hr : buildPorts C is t with
          | mk u v =>
            obtain ⟨e', ann'⟩ := v
            rw [hr] at h
            simp only [Prod.mk.injEq] at h
            obtain ⟨rfl, rfl, rfl⟩ := h
            obtain ⟨w, fs, w1, w2, wd, w3⟩ := buildBinary_made C i s t hbb
            rw [wd (hdir i (hk i (by simp)))] at w3
            obtain ⟨m0, m1, m2⟩ := hmk _ _ _ _ _ _ _ _ hR w3
            obtain ⟨a1, a2, a3, a4⟩ := ih hnd.2 (fun n hn => hk n (List.mem_cons_of_mem _ hn)) t m0 ann' hr
            refine ⟨.keep (hneed.mp hb) (kept_congr ?_ a1), ?_, ?_, ?_⟩
            · intro x hx
              rw [m2 x (fun hc => hnd.1 (hc ▸ hx))]
            · rw [a2, w1]; simp [w2]
            · intro n hn
              rcases List.mem_cons.mp hn with rfl | hn
              · exact (a4 n hnd.1).mpr m1
              · exact a3 n hn
            · intro n hn
              rw [List.mem_cons, not_or] at hn
              rw [a4 n hn.2, m2 n hn.1]
    · rw [if_neg hb] at h
      obtain ⟨a1, a2, a3, a4⟩ := ih hnd.2 (fun n hn => hk n (List.mem_cons_of_mem _ hn)) s hR ann h
      have hok : BinOk T s.repo s.inst.sess.files i := by
        by_contra hc; exact hb (hneed.mpr hc)
      refine ⟨.drop (not_not.mpr hok) a1, a2, ?_, ?_⟩
      · intro n hn
        rcases List.mem_cons.mp hn with rfl | hn
        · exact (a4 n hnd.1).mpr hok
        · exact a3 n hn
      · intro n hn
        rw [List.mem_cons, not_or] at hn
        exact a4 n hn.2

theorem mget_dropBins (repo : List (Str × RepoPkg)) (ns : List Str) (files : List (Str × Str)) (x : Str) :
    mget (ns.foldl (dropBinary repo) files) x = if ∃ n ∈ ns, ∃ p, mget repo n = some p ∧ p.path = x then none else mget files x := by
  induction ns generalizing files with
  | nil => simp
  | cons n ns ih =>
    rw [List.foldl_cons, ih]
    have hd : mget (dropBinary repo files n) x = if ∃ p, mget repo n = some p ∧ p.path = x then none else mget files x := by
      unfold dropBinary
      cases hp : mget repo n with
      | none => simp
      | some p => simp only [Option.some.injEq, exists_eq_left', mget_merase]
    rw [hd]
    by_cases h1 : ∃ m ∈ ns, ∃ p, mget repo m = some p ∧ p.path = x
    · rw [if_pos h1, if_pos]
      obtain ⟨m, hm, h⟩ := h1
      exact ⟨m, List.mem_cons_of_mem _ hm, h⟩
    · rw [if_neg h1]
      by_cases h2 : ∃ p, mget repo n = some p ∧ p.path = x
      · rw [if_pos h2, if_pos ⟨n, by simp, h2⟩]
      · rw [if_neg h2, if_neg]
        rintro ⟨m, hm, h⟩
        rcases List.mem_cons.mp hm with rfl | hm
        · exact h2 h
        · exact h1 ⟨m, hm, h⟩

/-- Before building, `cards create` of a collection removes exactly the files of the main packages of the collection, as the lists of binaries know it, that
have no port. (The lists themselves are left: the package remains listed.) -/
theorem C65_obsolete (C : CreEnv) (hdry : C.dry = false) (T : Ports) (hT : FreshPorts T) (hl : loadPorts T = some C.tree) (coll : Str) (s : CreSt)
    (hm : MSorted s.repo) (x : Str) :
    ((∃ n p, mget s.repo n = some p ∧ p.collection = coll ∧ p.group = [] ∧ p.nls = [] ∧ n ∉ keys T ∧ p.path = x) →
      mget (checkBinaries C coll s).inst.sess.files x = none) ∧
    ((¬ ∃ n p, mget s.repo n = some p ∧ p.collection = coll ∧ p.group = [] ∧ p.nls = [] ∧ n ∉ keys T ∧ p.path = x) →
      mget (checkBinaries C coll s).inst.sess.files x = mget s.inst.sess.files x) ∧
    (checkBinaries C coll s).repo = s.repo ∧ (checkBinaries C coll s).inst.st = s.inst.st := by
  obtain ⟨T', done, e, l⟩ := loadPorts_spec hT
  rw [hl] at e
  obtain rfl := Option.some.inj e
  have key : (∃ n ∈ obsoleteBins C s.repo coll, ∃ p, mget s.repo n = some p ∧ p.path = x) ↔
      ∃ n p, mget s.repo n = some p ∧ p.collection = coll ∧ p.group = [] ∧ p.nls = [] ∧ n ∉ keys T ∧ p.path = x := by
    unfold obsoleteBins
    simp only [List.mem_filter, mem_packagesOfCollection hm, Option.isNone_iff_eq_none]
    have hk : ∀ n, mget C.tree n = none ↔ n ∉ keys T := by
      intro n; rw [← l.names]; exact mget_none_iff
    constructor
    · rintro ⟨n, ⟨⟨p, h1, h2, h3, h4⟩, h5⟩, p', h6, h7⟩
      rw [h1] at h6
      obtain rfl := Option.some.inj h6
      exact ⟨n, p, h1, h2, h3, h4, (hk n).mp h5, h7⟩
    · rintro ⟨n, p, h1, h2, h3, h4, h5, h6⟩
      exact ⟨n, ⟨⟨p, h1, h2, h3, h4⟩, (hk n).mpr h5⟩, p, h1, h6⟩
  unfold checkBinaries
  simp only [hdry, Bool.false_eq_true, if_false, mget_dropBins]
  exact ⟨fun h => if_pos (key.mpr h), fun h => if_neg (fun hc => h (key.mp hc)), trivial, trivial⟩

/-- `cards create` of a collection that succeeds builds exactly the ports of the collection whose binary is missing or is not the binary of the present port,
each once and none before one it needs; afterwards all binaries of the collection are those of the present ports. Partial: `pkgmk` does what is expected of
it, and no two binaries share a file. -/
theorem C65_collection_partial (C : CreEnv) (hdry : C.dry = false) (T : Ports) (hT : FreshPorts T) (hl : loadPorts T = some C.tree)
    (R : List (Str × RepoPkg) → Prop) (hmk : MakeOk C T R) (hdir : ∀ n ∈ keys T, C.portDir n = true) (coll : Str) (s r : CreSt) (hR : R s.repo) (hm : MSorted s.repo)
    (hpath : ∀ n p m q, mget s.repo n = some p → mget s.repo m = some q → p.path = q.path → n = m)
    (ann : List Str) (h : buildCollection C coll s = (r, none, ann)) :
    (∃ ports, BuildOrder T coll ports ∧ Kept (fun n => ¬ BinOk T s.repo s.inst.sess.files n) ports ann) ∧
    r.seen.map (·.port) = ann.reverse ++ s.seen.map (·.port) ∧
    (∀ n p, (n, p) ∈ T → p.collection = coll → BinOk T r.repo r.inst.sess.files n) := by
  obtain ⟨T', L, e, f1, f2, f3, f4⟩ := C19_collection_order T hT coll
  rw [hl] at e
  obtain rfl := Option.some.inj e
  unfold buildCollection at h
  rw [f1] at h
  simp only at h
  have hk : ∀ n ∈ L, n ∈ keys T := by
    intro n hn
    obtain ⟨p, hp, _⟩ := (f2 n).mp hn
    exact List.mem_map.mpr ⟨_, hp, rfl⟩
  have hrepo : (checkBinaries C coll s).repo = s.repo := (C65_obsolete C hdry T hT hl coll s hm []).2.2.1
  obtain ⟨a1, a2, a3, a4⟩ := buildPorts_ok hdry hT hl hmk hdir L f3 hk _ r (by rw [hrepo]; exact hR) ann h
  have hseen : (checkBinaries C coll s).seen = s.seen := by unfold checkBinaries; split <;> rfl
  have hbin : ∀ n ∈ L, BinOk T (checkBinaries C coll s).repo (checkBinaries C coll s).inst.sess.files n ↔ BinOk T s.repo s.inst.sess.files n := by
    intro n hn
    unfold BinOk
    rw [hrepo]
    refine exists_congr fun p => exists_congr fun q => exists_congr fun c => ?_
    refine and_congr_right fun h1 => and_congr_right fun _ => and_congr_right fun _ => and_congr_right fun _ => ?_
    rw [(C65_obsolete C hdry T hT hl coll s hm p.path).2.1]
    rintro ⟨m, q', g1, _, _, _, g5, g6⟩
    exact g5 (hpath m q' n p g1 h1 g6 ▸ hk n hn)
  refine ⟨⟨L, ⟨f2, f3, f4⟩, kept_congr (fun x hx => by rw [hbin x hx]) a1⟩, by rw [a2, hseen], ?_⟩
  intro n p hp hc
  exact a3 n ((f2 n).mpr ⟨p, hp, hc⟩)

theorem buildPorts_idle {C : CreEnv} (is : List Str) (s : CreSt) (h : ∀ n ∈ is, needsBuild C.tree s.repo s.inst.sess.files n = false) :
    buildPorts C is s = (s, none, []) := by
  induction is with
  | nil => rfl
  | cons i is ih =>
    simp only [buildPorts]
    rw [if_neg (by rw [h i (by simp)]; simp)]
    exact ih (fun n hn => h n (List.mem_cons_of_mem _ hn))

/-- With all binaries those of the present ports, nothing is built: so a second run right after one that succeeded builds nothing. -/
theorem C65_idle (C : CreEnv) (hdry : C.dry = false) (T : Ports) (hT : FreshPorts T) (hl : loadPorts T = some C.tree) (coll : Str) (s : CreSt)
    (hm : MSorted s.repo) (hpath : ∀ n p m q, mget s.repo n = some p → mget s.repo m = some q → p.path = q.path → n = m)
    (hall : ∀ n p, (n, p) ∈ T → p.collection = coll → BinOk T s.repo s.inst.sess.files n) :
    (buildCollection C coll s).2 = (none, []) ∧ (buildCollection C coll s).1.seen = s.seen ∧ (buildCollection C coll s).1.repo = s.repo ∧
      (buildCollection C coll s).1.inst.st = s.inst.st := by
  obtain ⟨T', L, e, f1, f2, f3, f4⟩ := C19_collection_order T hT coll
  rw [hl] at e
  obtain rfl := Option.some.inj e
  have hob := C65_obsolete C hdry T hT hl coll s hm
  have hrepo := (hob []).2.2.1
  have hidle : buildPorts C L (checkBinaries C coll s) = (checkBinaries C coll s, none, []) := by
    apply buildPorts_idle
    intro n hn
    obtain ⟨q, hq, hcoll⟩ := (f2 n).mp hn
    have hk : n ∈ keys T := List.mem_map.mpr ⟨_, hq, rfl⟩
    rw [← Bool.not_eq_true, needsBuild_iff hT hl hk, not_not]
    obtain ⟨p, q', c, h1, h2, h3, h4, h5⟩ := hall n q hq hcoll
    refine ⟨p, q', c, by rw [hrepo]; exact h1, h2, h3, h4, ?_⟩
    rw [(hob p.path).2.1]
    · exact h5
    · rintro ⟨m, q', g1, _, _, _, g5, g6⟩
      exact g5 (hpath m q' n p g1 h1 g6 ▸ hk)
  unfold buildCollection
  rw [f1]
  simp only
  rw [hidle]
  refine ⟨rfl, ?_, hrepo, (hob []).2.2.2⟩
  unfold checkBinaries; split <;> rfl

/-! ### Samples -/

/-- `app` of the sample has version 1 in the lists and version 2 in the tree: it is built, `gcc` and `libx` are not; afterwards nothing is. -/
theorem cColl_runs : created (cardsCreate (cEnv cTree) "base".toList true cSys cSess) =
    (none, ["app".toList, "cards.devel".toList, "gcc".toList, "libx".toList, "libx.lib".toList], ["app".toList],
      [("app".toList, ["cards.devel".toList, "gcc".toList, "libx".toList, "libx.lib".toList])]) := by
  decide +kernel

/-- `pkgmk` as expected. -/
def cMakeOk (T : Ports) (_k : Nat) (n : Str) (fs : Fs) (repo : List (Str × RepoPkg)) (files : List (Str × Str)) :
    Fs × Option (List (Str × RepoPkg) × List (Str × Str)) :=
  match mget T n with
  | none => (fs, none)
  | some q => (fs, some (mset n { (cPkg "" [] "" "").2 with fileName := n, version := q.version, release := q.release } repo,
      mset ("/r/".toList ++ n) n files))

/-- The path under `/r` of the package of the same name. -/
def Plain (repo : List (Str × RepoPkg)) : Prop := ∀ n p, mget repo n = some p → p.path = "/r/".toList ++ n

/-- `pkgmk` does what is expected of it, as long as every package has the path that goes with its name. -/
theorem cMakeOk_ok (T : Ports) (C : CreEnv) (hC : C.make = cMakeOk T) : MakeOk C T Plain := by
  intro k n fs repo files fs' repo' files' hp h
  rw [hC] at h
  unfold cMakeOk at h
  cases hq : mget T n with
  | none => rw [hq] at h; simp at h
  | some q =>
    rw [hq] at h
    simp only [Prod.mk.injEq, Option.some.injEq] at h
    obtain ⟨_, rfl, rfl⟩ := h
    have hpa : ({ (cPkg "" [] "" "").2 with fileName := n, version := q.version, release := q.release } : RepoPkg).path = "/r/".toList ++ n := rfl
    refine ⟨?_, ⟨_, q, n, by rw [mget_mset, if_pos rfl], mget_some_mem hq, rfl, rfl, by rw [hpa, mget_mset, if_pos rfl]⟩, ?_⟩
    rotate_left
    · intro m hmn
      unfold BinOk
      refine exists_congr fun p => exists_congr fun q' => exists_congr fun c => ?_
      rw [mget_mset, if_neg (Ne.symm hmn)]
      refine and_congr_right fun h1 => and_congr_right fun _ => and_congr_right fun _ => and_congr_right fun _ => ?_
      rw [hp m p h1, mget_mset, if_neg]
      intro hc
      exact hmn (List.append_cancel_left hc).symm
    · intro m p hmp
      rw [mget_mset] at hmp
      by_cases hmn : n = m
      · rw [if_pos hmn] at hmp
        rw [← Option.some.inj hmp, hpa, hmn]
      · rw [if_neg hmn] at hmp
        exact hp m p hmp

theorem cRepo_plain : Plain cRepo := by
  intro n p hp
  have h := mget_some_mem hp
  simp only [cRepo, cPkg, List.mem_cons, List.not_mem_nil, or_false, Prod.mk.injEq] at h
  rcases h with ⟨rfl, rfl⟩ | ⟨rfl, rfl⟩ | ⟨rfl, rfl⟩ | ⟨rfl, rfl⟩ | ⟨rfl, rfl⟩ | ⟨rfl, rfl⟩ <;> rfl

/-- The hypotheses of `C65_collection_partial` hold of the sample, where `app` is built, and those of `C65_idle` afterwards. -/
example : let C : CreEnv := { cEnv cTree with make := cMakeOk cTree }
    let s : CreSt := { inst := { st := load cSys false, sess := cSess, count := 0 }, repo := cRepo, seen := [] }
    MakeOk C cTree Plain ∧ (∀ n ∈ keys cTree, C.portDir n = true) ∧ Plain s.repo ∧ MSorted s.repo ∧ loadPorts cTree = some C.tree ∧
    (∀ n p m q, mget s.repo n = some p → mget s.repo m = some q → p.path = q.path → n = m) ∧
    (buildCollection C "base".toList s).2 = (none, ["app".toList]) ∧
    (buildCollection C "base".toList (buildCollection C "base".toList s).1).2 = (none, []) := by
  refine ⟨cMakeOk_ok cTree _ rfl, by decide +kernel, cRepo_plain, by unfold MSorted Sorted; decide, by decide +kernel, ?_, by decide +kernel, by decide +kernel⟩
  intro n p m q h1 h2 h3
  rw [cRepo_plain n p h1, cRepo_plain m q h2] at h3
  exact List.append_cancel_left h3

/-- A binary that is left: `libx` has no port any more; its file goes, but `libx.lib` and `libx.man`, made from the same port, stay, and all three remain
listed. -/
theorem C65_counterexample_subpackages :
    let T : Ports := [("gcc".toList, mkPort "base".toList "1".toList 1 1 [])]
    let s : CreSt := { inst := { st := load cSys false, sess := cSess, count := 0 }, repo := cRepo, seen := [] }
    let r := (buildCollection (cEnv T) "base".toList s).1
    (mget r.inst.sess.files "/r/libx".toList = none ∧ (mget r.inst.sess.files "/r/libx.lib".toList).isSome ∧
      (mget r.inst.sess.files "/r/libx.man".toList).isSome) ∧ r.repo = cRepo := by
  decide +kernel

/-! ## C66 -/

theorem buildPorts_dry {C : CreEnv} (hdry : C.dry = true) (is : List Str) (s : CreSt) :
    buildPorts C is s = (s, none, is.filter (needsBuild C.tree s.repo s.inst.sess.files)) := by
  induction is with
  | nil => rfl
  | cons i is ih =>
    simp only [buildPorts, hdry, if_true, ih]
    by_cases h : needsBuild C.tree s.repo s.inst.sess.files i = true
    · rw [if_pos h, List.filter_cons_of_pos h]
    · rw [if_neg h, List.filter_cons_of_neg h]

theorem kept_filter {P : Str → Prop} (f : Str → Bool) (l : List Str) (h : ∀ x ∈ l, f x = true ↔ P x) : Kept P l (l.filter f) := by
  induction l with
  | nil => exact .nil
  | cons x l ih =>
    have ih := ih (fun y hy => h y (List.mem_cons_of_mem _ hy))
    by_cases hx : f x = true
    · rw [List.filter_cons_of_pos hx]; exact .keep ((h x (by simp)).mp hx) ih
    · rw [List.filter_cons_of_neg hx]; exact .drop (fun hc => hx ((h x (by simp)).mpr hc)) ih

/-- `cards create --dry` of a collection changes nothing, and names exactly the ports of the collection whose binary is missing or is not the binary of the
present port, in the order in which they would be built. -/
theorem C66_dry_collection (C : CreEnv) (hdry : C.dry = true) (T : Ports) (hT : FreshPorts T) (hl : loadPorts T = some C.tree) (coll : Str) (s : Sys)
    (sess : RepoSess) :
    let r := cardsCreate C coll true s sess
    r.2.1 = none ∧ r.1.inst.st.fs = s.fs ∧ r.1.inst.st.disk = s.disk ∧ r.1.inst.sess.files = sess.files ∧ r.1.seen = [] ∧
    ∃ ports, BuildOrder T coll ports ∧ Kept (fun n => ¬ BinOk T C.E.net.repo sess.files n) ports r.2.2 := by
  obtain ⟨T', L, e, f1, f2, f3, f4⟩ := C19_collection_order T hT coll
  rw [hl] at e
  obtain rfl := Option.some.inj e
  intro r
  have hr : r = (({ inst := { st := load s false, sess := sess, count := 0 }, repo := C.E.net.repo, seen := [] } : CreSt), none,
      L.filter (needsBuild C.tree C.E.net.repo sess.files)) := by
    show cardsCreate C coll true s sess = _
    unfold cardsCreate
    simp only [hdry, if_true]
    unfold buildCollection
    rw [f1]
    simp only [buildPorts_dry hdry, checkBinaries, hdry, if_true]
  rw [hr]
  refine ⟨rfl, rfl, rfl, rfl, rfl, L, ⟨f2, f3, f4⟩, kept_filter _ L ?_⟩
  intro n hn
  obtain ⟨p, hp, _⟩ := (f2 n).mp hn
  exact needsBuild_iff hT hl (List.mem_map.mpr ⟨_, hp, rfl⟩) _ _

/-- The same run without `--dry`, when it succeeds and nothing is downloaded in the first part, builds the ports `--dry` names, in that order. -/
theorem C66_dry_predicts_partial (C : CreEnv) (hdry : C.dry = false) (T : Ports) (hT : FreshPorts T) (hl : loadPorts T = some C.tree)
    (R : List (Str × RepoPkg) → Prop) (hmk : MakeOk C T R) (hdir : ∀ n ∈ keys T, C.portDir n = true) (hR : R C.E.net.repo) (hm : MSorted C.E.net.repo)
    (hpath : ∀ n p m q, mget C.E.net.repo n = some p → mget C.E.net.repo m = some q → p.path = q.path → n = m)
    (A : Str → ArchMeta) (coll : Str) (s : Sys) (sess : RepoSess) (hw : WF s.disk) (hmeta : C.noMeta = false)
    (ho : InOrder C.E.net sess.files A) (hr : SessOk C.E.net A sess) (hlist : sess.list = []) (r : CreSt) (ann : List Str)
    (h : cardsCreate C coll true s sess = (r, none, ann)) :
    (cardsCreate { C with dry := true } coll true s sess).2.2 = ann ∧ r.seen.map (·.port) = ann.reverse := by
  obtain ⟨T', L, e, f1, f2, f3, f4⟩ := C19_collection_order T hT coll
  rw [hl] at e
  obtain rfl := Option.some.inj e
  have hk : ∀ n ∈ L, n ∈ keys T := by
    intro n hn
    obtain ⟨p, hp, _⟩ := (f2 n).mp hn
    exact List.mem_map.mpr ⟨_, hp, rfl⟩
  have hd : (cardsCreate { C with dry := true } coll true s sess).2.2 = L.filter (needsBuild C.tree C.E.net.repo sess.files) := by
    unfold cardsCreate
    simp only [if_true]
    unfold buildCollection
    rw [f1]
    simp only [buildPorts_dry (C := { C with dry := true }) rfl, checkBinaries, if_true]
  unfold cardsCreate at h
  simp only [hdry, Bool.false_eq_true, if_false, if_true] at h
  cases hcore : core C { st := load s false, sess := sess, count := 0 } with
  | mk c e =>
    rw [hcore] at h
    cases e with
    | some e => simp at h
    | none =>
      simp only at h
      obtain ⟨t, ht, htf, _, _, hrun⟩ := core_resolved C hm s sess c ho hr hlist hcore
      have hfiles : c.sess.files = sess.files := by
        have := (coreListed_ok C hmeta _ t c (by rw [ht]; exact creInv_load hw) hrun).2.1
        rw [this, htf]
      obtain ⟨⟨L', ⟨g1, g2, _⟩, g3⟩, g4, _⟩ := C65_collection_partial C hdry T hT hl R hmk hdir coll _ r hR hm hpath ann h
      refine ⟨?_, by simpa using g4⟩
      rw [hd]
      unfold buildCollection at h
      rw [f1] at h
      simp only at h
      have hrepo : (checkBinaries C coll { inst := c, repo := C.E.net.repo, seen := [] }).repo = C.E.net.repo :=
        (C65_obsolete C hdry T hT hl coll { inst := c, repo := C.E.net.repo, seen := [] } hm []).2.2.1
      obtain ⟨a1, _⟩ := buildPorts_ok hdry hT hl hmk hdir L f3 hk _ r (by rw [hrepo]; exact hR) ann h
      have hk2 : Kept (fun n => ¬ BinOk T C.E.net.repo sess.files n) L ann := by
        refine kept_congr ?_ a1
        intro n hn
        rw [hrepo]
        refine not_congr ?_
        unfold BinOk
        refine exists_congr fun p => exists_congr fun q => exists_congr fun d => ?_
        refine and_congr_right fun h1 => and_congr_right fun _ => and_congr_right fun _ => and_congr_right fun _ => ?_
        rw [(C65_obsolete C hdry T hT hl coll { inst := c, repo := C.E.net.repo, seen := [] } hm p.path).2.1, ← hfiles]
        rintro ⟨m, q', g1, _, _, _, g5, g6⟩
        exact g5 (hpath m q' n p g1 h1 g6 ▸ hk n hn)
      have hk1 := kept_filter (P := fun n => ¬ BinOk T C.E.net.repo sess.files n) (needsBuild C.tree C.E.net.repo sess.files) L
        (fun n hn => needsBuild_iff hT hl (hk n hn) _ _)
      clear * - hk1 hk2
      generalize L.filter (needsBuild C.tree C.E.net.repo sess.files) = out at hk1
      induction hk2 generalizing out with
      | nil => cases hk1; rfl
      | keep hp _ ih =>
        cases hk1 with
        | keep _ h => rw [ih _ h]
        | drop hn _ => exact absurd hp hn
      | drop hp _ ih =>
        cases hk1 with
        | keep hn _ => exact absurd hn hp
        | drop _ h => exact ih _ h

/-- With `--dry`, a single port is built all the same: `old` is removed, with its file, `libx` is installed and `pkgmk` is run. -/
theorem C66_counterexample_port :
    let r := cardsCreate { cEnv cTree with dry := true } "app".toList false cSys cSess
    r.2.1 = none ∧ r.1.seen.map (·.port) = ["app".toList] ∧ keys r.1.inst.st.disk = ["app".toList, "gcc".toList, "libx".toList, "libx.lib".toList] ∧
    r.1.inst.st.fs.get (comps "usr/old".toList) = none := by
  decide +kernel

/-- A name that is no port, or whose directory cannot be entered, is no error: the packages of no base set are removed, `pkgmk` is run where the program is,
and the command succeeds. Here it was started in the directory of `app`, which is built. -/
theorem C66_counterexample_unknown (dry : Bool) :
    let r := cardsCreate { cEnv cTree with dry := dry } "nothing".toList false cSys cSess
    r.2.1 = none ∧ r.1.seen.map (fun w => (w.port, w.dir)) = [("nothing".toList, "app".toList)] ∧ mget r.1.inst.st.disk "old".toList = none ∧ r.1.inst.st.fs.get (comps "usr/old".toList) = none := by
  cases dry <;> decide +kernel

end Cards.Props
