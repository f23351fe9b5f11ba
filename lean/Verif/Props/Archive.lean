import Verif.Model.Archive
import Verif.Spec.Archive
import Verif.Props.Query
import Verif.Props.Strings
import Verif.Props.TransDb
import Verif.Lemmas.Create
import Verif.Lemmas.Lists
/-!
# C73: what a package file says about itself
-/
namespace Cards.Props
open Cards Cards.Spec

theorem splitChar_line (c : Char) (l s : Str) (hl : c ∉ l) (hne : l ≠ []) : splitChar c (l ++ c :: s) = l :: splitChar c s := by
  rw [C37_split_exact]
  have h := (C37_split_exact c s _).mp rfl
  generalize splitChar c s = ps at h
  have hw : ∀ x ∈ l, decide (x = c) = false := by
    intro x hx; simp only [decide_eq_false_iff_not]; rintro rfl; exact hl hx
  cases h with
  | none _ h0 =>
    exact Pieces.piece [] l (c :: s) [] (by simp) hne hw (Or.inr ⟨c, s, rfl, by simp⟩) (Pieces.none _ (by
      intro x hx
      rcases List.mem_cons.mp hx with rfl | hx
      · simp
      · exact h0 x hx))
  | piece ds w rest ps hds hw' hwc hr hp =>
    have := Pieces.piece (p := fun x => decide (x = c)) [] l (c :: (ds ++ w ++ rest)) (w :: ps) (by simp) hne hw (Or.inr ⟨c, _, rfl, by simp⟩)
      (by
        have h2 := Pieces.piece (p := fun x => decide (x = c)) (c :: ds) w rest ps (by
          intro x hx
          rcases List.mem_cons.mp hx with rfl | hx
          · simp
          · exact hds x hx) hw' hwc hr hp
        simpa using h2)
    simpa using this

theorem splitChar_last (c : Char) (l : Str) (hl : c ∉ l) (hne : l ≠ []) : splitChar c l = [l] := by
  rw [C37_split_exact]
  have := Pieces.piece (p := fun x => decide (x = c)) [] l [] [] (by simp) hne (by
    intro x hx; simp only [decide_eq_false_iff_not]; rintro rfl; exact hl hx) (Or.inl rfl) (Pieces.none _ (by simp))
  simpa using this

/-- The lines of a text are found when the text is split at newlines, with or without the last newline. -/
theorem split_text {ls : List Str} {c : Str} (h : TextFile ls c) (hl : ∀ l ∈ ls, TextLine l ∧ l ≠ []) :
    (∀ s, splitChar '\n' (c ++ s) = ls ++ splitChar '\n' s) ∧ (ls ≠ [] → splitChar '\n' c.dropLast = ls) ∧ '\x00' ∉ c ∧ (ls ≠ [] → c ≠ []) := by
  induction h with
  | nil => exact ⟨fun s => rfl, fun h => absurd rfl h, by simp, fun h => absurd rfl h⟩
  | cons l ls c h ih =>
    obtain ⟨i1, i2, i3, i4⟩ := ih (fun x hx => hl x (by simp [hx]))
    obtain ⟨⟨h1, h2⟩, h3⟩ := hl l (by simp)
    refine ⟨fun s => ?_, fun _ => ?_, ?_, fun _ => by simp⟩
    · rw [List.append_assoc, List.cons_append, splitChar_line _ _ _ h1 h3, i1]; rfl
    · cases ls with
      | nil =>
        have hc : c = [] := by cases h; rfl
        subst hc
        rw [List.dropLast_append_of_ne_nil (by simp)]
        simp only [List.dropLast_singleton, List.append_nil]
        exact splitChar_last _ _ h1 h3
      | cons m ms =>
        have hc := i4 (by simp)
        rw [List.dropLast_append_of_ne_nil (by simp), List.dropLast_cons_of_ne_nil hc, splitChar_line _ _ _ h1 h3, i2 (by simp)]
    · simp only [List.mem_append, List.mem_cons, not_or]
      exact ⟨h2, by decide, i3⟩

theorem find_holds {t : List (Str × Str)} {n c : Str} (h : Holds t n c) : t.find? (fun e => decide (e.1 = n)) = some (n, c) := by
  obtain ⟨a, b, rfl, ha⟩ := h
  rw [List.find?_append, List.find?_eq_none.mpr (by intro x hx; simpa using ha x hx)]
  simp

/-- The lines of a meta file of the package are read exactly. -/
theorem fileContent_text {t : List (Str × Str)} {n c : Str} {ls : List Str} (h : Holds t n c) (ht : TextFile ls c)
    (hl : ∀ l ∈ ls, TextLine l ∧ l ≠ []) (hne : ls ≠ []) : fileContent t n = some ls := by
  obtain ⟨_, i2, i3, i4⟩ := split_text ht hl
  unfold fileContent
  rw [find_holds h]
  simp only [if_neg (i4 hne)]
  rw [takeWhile_all (by
    intro x hx; simp only [ne_eq, decide_eq_true_eq]; rintro rfl; exact i3 (List.dropLast_subset _ hx)), i2 hne]

theorem firstWith_iff {c : Char} {ls : List Str} {v : Str} : firstWith c ls = some v ↔ FirstField ls c v := by
  unfold firstWith FirstField
  simp only [Option.map_eq_some_iff, List.find?_eq_some_iff_append, decide_eq_true_eq, Bool.not_eq_true', decide_eq_false_iff_not]
  constructor
  · rintro ⟨l, ⟨h1, a, b, h2, h3⟩, rfl⟩
    cases l with
    | nil => simp at h1
    | cons d r => simp at h1; subst h1; exact ⟨a, b, h2, h3⟩
  · rintro ⟨a, b, h2, h3⟩
    exact ⟨c :: v, ⟨rfl, a, b, h2, h3⟩, rfl⟩

theorem firstWith_none {c : Char} {ls : List Str} : firstWith c ls = none ↔ NoField ls c := by
  unfold firstWith NoField
  simp

theorem fieldOr_iff {c : Char} {ls : List Str} {v : Str} : (firstWith c ls).getD [] = v ↔ FieldOr ls c v := by
  unfold FieldOr
  cases h : firstWith c ls with
  | none =>
    have h' := firstWith_none.mp h
    constructor
    · intro hv; exact Or.inr ⟨h', hv.symm⟩
    · rintro (hv | ⟨_, rfl⟩)
      · rw [← firstWith_iff, h] at hv; simp at hv
      · rfl
  | some w =>
    have h' := firstWith_iff.mp h
    constructor
    · intro hv; simp only [Option.getD_some] at hv; subst hv; exact Or.inl h'
    · rintro (hv | ⟨hn, _⟩)
      · rw [← firstWith_iff, h] at hv; simpa using hv
      · rw [← firstWith_none, h] at hn; simp at hn

/-- A package file as pkgmk makes it: `.META` and `.MTREE` are text files with the lines `ls` and `fs`, none of them empty. -/
structure Described (t : List (Str × Str)) (ls fs : List Str) : Prop where
  «meta» : ∃ c, Holds t ".META".toList c ∧ TextFile ls c
  mtree : ∃ c, Holds t ".MTREE".toList c ∧ TextFile fs c
  metaLines : ∀ l ∈ ls, TextLine l ∧ l ≠ []
  mtreeLines : ∀ l ∈ fs, TextLine l ∧ l ≠ []
  someMeta : ls ≠ []
  someFile : fs ≠ []

/-- **C73**, reading: the package file is accepted exactly when its description has a name, and then the lines, the file list, the name and the architecture
are those of the file. -/
theorem C73_opened_partial (t : List (Str × Str)) (ls fs : List Str) (h : Described t ls fs) :
    (∀ p, openPack t = .ok p ↔ p.md = ls ∧ p.mtree = fs ∧ FirstField ls 'N' p.name ∧ FieldOr ls 'a' p.arch) ∧
    (openPack t = .error .noName ↔ NoField ls 'N') := by
  obtain ⟨⟨c, hc, htc⟩, ⟨d, hd, htd⟩, h3, h4, h5, h6⟩ := h
  have e1 := fileContent_text hc htc h3 h5
  have e2 := fileContent_text hd htd h4 h6
  unfold openPack nMtree nMeta
  simp only [e1, e2, if_neg h5, if_neg h6]
  cases hn : firstWith 'N' ls with
  | none =>
    have hn' := firstWith_none.mp hn
    simp only [hn', reduceCtorEq, false_iff, and_true]
    rintro p ⟨_, _, hf, _⟩
    rw [← firstWith_iff, hn] at hf; simp at hf
  | some n =>
    simp only [Except.ok.injEq, ← firstWith_none, hn, reduceCtorEq, iff_self, and_true]
    rintro ⟨md, tr, nm, ar⟩
    simp only [Pack.mk.injEq, ← firstWith_iff, ← fieldOr_iff, hn, Option.some.injEq]
    constructor
    · rintro ⟨rfl, rfl, rfl, rfl⟩; exact ⟨rfl, rfl, rfl, rfl⟩
    · rintro ⟨rfl, rfl, rfl, rfl⟩; exact ⟨rfl, rfl, rfl, rfl⟩

theorem fileContent_missing {t : List (Str × Str)} {n : Str} (h : ∀ e ∈ t, e.1 ≠ n) : fileContent t n = some [] := by
  unfold fileContent
  have : t.find? (fun e => decide (e.1 = n)) = none := by
    rw [List.find?_eq_none]
    intro e he
    simpa using h e he
  rw [this]

/-- **C73**, what is missing: a file without `.META`, or with it and without `.MTREE`, is refused with the message for that. -/
theorem C73_missing (t : List (Str × Str)) :
    ((∀ e ∈ t, e.1 ≠ ".META".toList) → (∀ c, Holds t ".MTREE".toList c → c ≠ []) → openPack t = .error .noMeta) ∧
    (∀ c ls, Holds t ".META".toList c → TextFile ls c → (∀ l ∈ ls, TextLine l ∧ l ≠ []) → ls ≠ [] → (∀ e ∈ t, e.1 ≠ ".MTREE".toList) →
      openPack t = .error .noMtree) := by
  constructor
  · intro h1 h2
    unfold openPack nMtree nMeta
    rw [fileContent_missing h1]
    cases hf : fileContent t ".MTREE".toList with
    | some tree => simp
    | none =>
      exfalso
      unfold fileContent at hf
      cases hd : t.find? (fun e => decide (e.1 = ".MTREE".toList)) with
      | none => rw [hd] at hf; simp at hf
      | some e =>
        rw [hd] at hf
        simp only [ite_eq_left_iff, reduceCtorEq, imp_false, Decidable.not_not] at hf
        obtain ⟨h3, a, b, h4, h5⟩ := List.find?_eq_some_iff_append.mp hd
        refine h2 e.2 ?_ hf
        have he : e.1 = ".MTREE".toList := of_decide_eq_true h3
        refine ⟨a, b, by rw [h4, ← he], fun x hx => ?_⟩
        have := h5 x hx
        simpa using this
  · intro c ls hc ht hl hne hm
    unfold openPack nMtree nMeta
    rw [fileContent_missing hm, fileContent_text hc ht hl hne]
    simp [hne]

/-- **C73**, the numbers a description may lack: without a release and a build line both are 0. -/
theorem C73_no_numbers (p : Pack) : (NoField p.md 'r' → p.release = some 0) ∧ (NoField p.md 'B' → p.build = 0) := by
  constructor
  · intro h; unfold Pack.release; rw [firstWith_none.mpr h]
  · intro h; unfold Pack.build; rw [firstWith_none.mpr h]

/-- **C73**, `pkginfo --meta` prints the description, line by line. -/
theorem C73_meta_partial (t : List (Str × Str)) (ls fs : List Str) (h : Described t ls fs) (p : Pack) (ho : openPack t = .ok p) :
    metaInfo p = ls := ((C73_opened_partial t ls fs h).1 p |>.mp ho).1

theorem stoi_dec {n : Nat} (h : n < 2 ^ 31) : stoi (dec n) = some (n : Int) := by
  unfold stoi; rw [numText10_dec]
  simp only [Bool.false_eq_true, if_false]
  rw [if_pos (by constructor <;> omega)]

theorem packDeps_spec : ∀ (ls : List Str) (acc ds : List (Str × Nat)), packDeps ls acc = some ds →
    ∀ d, d ∈ ds ↔ d ∈ acc ∨ ∃ l ∈ ls, l.head? = some 'R' ∧ parseDep l = some d := by
  intro ls
  induction ls with
  | nil => intro acc ds h d; simp only [packDeps, Option.some.injEq] at h; subst h; simp
  | cons l ls ih =>
    intro acc ds h d
    rw [packDeps] at h
    split at h
    · rename_i hl
      cases hp : parseDep l with
      | none => rw [hp] at h; simp at h
      | some e =>
        rw [hp] at h
        rw [ih _ _ h d, mem_dinsert]
        simp only [List.mem_cons, exists_eq_or_imp, hl, hp, Option.some.injEq, true_and, or_assoc]
        constructor
        · rintro (rfl | h | h)
          · exact Or.inr (Or.inl rfl)
          · exact Or.inl h
          · exact Or.inr (Or.inr h)
        · rintro (h | rfl | h)
          · exact Or.inr (Or.inl h)
          · exact Or.inl rfl
          · exact Or.inr (Or.inr h)
    · rename_i hl
      rw [ih _ _ h d]
      simp only [List.mem_cons, exists_eq_or_imp, hl, false_and, false_or]

/-- **C73**, `pkginfo --archive`: every line shows the field of the description; the last one lists the dependency lines and the package itself. -/
theorem C73_archive_partial (t : List (Str × Str)) (ls fs : List Str) (h : Described t ls fs) (p : Pack) (ho : openPack t = .ok p)
    (D g U L C P V a : Str) (r b : Nat) (hr : r < 2 ^ 31) (hb : b < 2 ^ 63)
    (hD : FieldOr ls 'D' D) (hg : FieldOr ls 'g' g) (hU : FieldOr ls 'U' U) (hL : FieldOr ls 'L' L) (hC : FieldOr ls 'C' C)
    (hP : FieldOr ls 'P' P) (hV : FieldOr ls 'V' V) (ha : FieldOr ls 'a' a) (hrel : FirstField ls 'r' (dec r)) (hbld : FirstField ls 'B' (dec b)) :
    ∃ n ds, FirstField ls 'N' n ∧ Sorted ds ∧ (∀ d, d ∈ ds ↔ d = n ++ dec b ∨ 'R' :: d ∈ ls) ∧
      archiveInfo p = some [n ++ " : Description    : ".toList ++ D, n ++ " : Group          : ".toList ++ g, n ++ " : URL            : ".toList ++ U,
        n ++ " : License        : ".toList ++ L, n ++ " : Contributor(s) : ".toList ++ C, n ++ " : Packager       : ".toList ++ P,
        n ++ " : Version        : ".toList ++ V, n ++ " : Release        : ".toList ++ dec r, n ++ " : Architecture   : ".toList ++ a,
        n ++ " : Build date     : ".toList ++ dec b, n ++ " : Dependencies   : ".toList ++ ds.flatMap (fun d => d ++ [' '])] := by
  obtain ⟨h1, _, h3, h4⟩ := (C73_opened_partial t ls fs h).1 p |>.mp ho
  have hf : ∀ {c v}, FieldOr ls c v → p.field c = v := by
    intro c v hv; unfold Pack.field; rw [h1]; exact fieldOr_iff.mpr hv
  have hrl : p.release = some (r : Int) := by
    unfold Pack.release; rw [h1, firstWith_iff.mpr hrel]; exact stoi_dec hr
  have hbd : p.build = b := by
    unfold Pack.build; rw [h1, firstWith_iff.mpr hbld]
    show strtoul0 (dec b) = b
    by_cases h0 : 0 < b
    · exact strtoul0_dec b h0 (by omega)
    · obtain rfl : b = 0 := by omega
      decide +kernel
  have hba : p.field 'B' = dec b := hf (Or.inl hbld)
  have haa : p.arch = a := by
    have := fieldOr_iff.mpr h4; rw [← this]; exact fieldOr_iff.mpr ha
  refine ⟨p.name, p.depTexts, h3, sorted_sofList _, ?_, ?_⟩
  · intro d
    unfold Pack.depTexts
    rw [mem_sofList, hba, h1]
    simp only [List.mem_cons, List.mem_filterMap]
    constructor
    · rintro (h | ⟨l, hl, hx⟩)
      · exact Or.inl h
      · split at hx
        · rename_i hh
          cases l with
          | nil => simp at hh
          | cons e r => simp at hh hx; subst hh; subst hx; exact Or.inr hl
        · simp at hx
    · rintro (h | h)
      · exact Or.inl h
      · exact Or.inr ⟨_, h, by simp⟩
  · unfold archiveInfo
    simp only [hrl, hf hD, hf hg, hf hU, hf hL, hf hC, hf hP, hf hV, haa, hbd]
    have e1 : showInt (r : Int) = dec r := by
      unfold showInt; rw [if_neg (show ¬ ((r : Int) < 0) by omega)]; rfl
    have e2 : showTime b = dec b := by unfold showTime; rw [if_pos hb]
    rw [e1, e2]
    simp only [List.append_assoc]
    rfl

/-- **C73**, before and after: when the package is installed from the file, the database says about it what the file said, for fields given once and the
names of the dependencies. -/
theorem C73_before_after_partial (t : List (Str × Str)) (ls fs : List Str) (h : Described t ls fs) (p : Pack) (ho : openPack t = .ok p)
    (machine root : Str) (es : List Entry) (pre : Fs → Fs × Bool) (post : Fs → Fs) (env : Env) (rules : List Rule) (opts : Opts) (s : Sys)
    (hw : WF s.disk) (hok : (pkgadd env rules opts (p.archive machine root es pre post) s).2 = none)
    (ha : ∀ q j, (q, j) ∈ (pkgadd env rules opts (p.archive machine root es pre post) s).1.disk → q ≠ p.name → ¬ HasAlias j p.name)
    (junkDep : Bool) (junk : Nat × Nat) :
    ∃ d, pkginfoDetails junkDep junk (pkgadd env rules opts (p.archive machine root es pre post) s).1.disk p.name = some d ∧
      FirstField ls 'N' d.name ∧
      (∀ v, (∀ l ∈ ls, l.head? = some 'V' → l = 'V' :: v) → FirstField ls 'V' v → p.field 'V' = v ∧ d.version = v) ∧
      (∀ v, (∀ l ∈ ls, l.head? = some 'c' → l = 'c' :: v) → FirstField ls 'c' v → p.field 'c' = v ∧ d.collection = v) ∧
      (∀ r, r < 65536 → (∀ l ∈ ls, l.head? = some 'r' → l = 'r' :: dec r) → FirstField ls 'r' (dec r) → p.release = some (r : Int) ∧ d.release = r) ∧
      (∀ ds, p.deps = some ds → ∀ m, m ∈ d.deps ∨ m = p.name ↔ ∃ e, (m, e) ∈ ds) := by
  obtain ⟨h1, _, h3, h4⟩ := (C73_opened_partial t ls fs h).1 p |>.mp ho
  generalize har : p.archive machine root es pre post = a at hok ha ⊢
  have hname : a.name = p.name := by rw [← har]; rfl
  have hmd : a.md = ls := by rw [← har]; exact h1
  obtain ⟨k1, k2, _⟩ := pkgadd_disk env rules opts a s hw
  obtain ⟨_, _, dep, k3, _⟩ := k2 hok
  generalize (pkgadd env rules opts a s).1.disk = db at k1 k3 ha ⊢
  rw [hname] at k3
  have hin := mget_some_mem k3
  have hmem : ∀ l, l ≠ d1 → (l ∈ newMd dep a ↔ l ∈ ls) := fun l hl => by rw [mem_newMd_ne hl, hmd]
  obtain ⟨d, e1, e2, _, e4, e5, e6, e7⟩ := C54_details_partial junkDep junk db k1 p.name _ hin ha
  have hfst : ∀ {c v}, FirstField ls c v → c :: v ∈ ls := by rintro c v ⟨x, y, rfl, _⟩; simp
  have hone : ∀ {c v}, c ≠ 'd' → (∀ l ∈ ls, l.head? = some c → l = c :: v) → OneField { md := newMd dep a, files := shipped env rules a } c := by
    intro c v hc hv x y hx hy
    have n1 : ∀ z : Str, c :: z ≠ d1 := by
      intro z hz; unfold d1 at hz; simp at hz; exact hc hz.1
    have e1 := hv _ ((hmem _ (n1 x)).mp hx) rfl
    have e2 := hv _ ((hmem _ (n1 y)).mp hy) rfl
    simp only [List.cons.injEq, true_and] at e1 e2
    rw [e1, e2]
  have hne : ∀ {c : Char} (z : Str), c ≠ 'd' → c :: z ≠ d1 := by
    intro c z hc hz; unfold d1 at hz; simp at hz; exact hc hz.1
  refine ⟨d, e1, e2 ▸ h3, ?_, ?_, ?_, ?_⟩
  · intro v hv hf
    refine ⟨?_, e4 v (hone (by decide) hv) ((hmem _ (hne v (by decide))).mpr (hfst hf))⟩
    unfold Pack.field; rw [h1, firstWith_iff.mpr hf]; rfl
  · intro v hv hf
    refine ⟨?_, e5 v (hone (by decide) hv) ((hmem _ (hne v (by decide))).mpr (hfst hf))⟩
    unfold Pack.field; rw [h1, firstWith_iff.mpr hf]; rfl
  · intro r hr hv hf
    refine ⟨?_, e6 r hr (hone (by decide) hv) ((hmem _ (hne _ (by decide))).mpr (hfst hf))⟩
    unfold Pack.release; rw [h1, firstWith_iff.mpr hf]; exact stoi_dec (by omega)
  · intro ds hds m
    have hsp := packDeps_spec _ _ _ hds
    rw [e7]
    simp only [hsp, mem_dinsert, List.not_mem_nil, or_false, h1]
    constructor
    · rintro (⟨l, hl, hR, e, he⟩ | rfl)
      · refine ⟨e, Or.inr ⟨l, (hmem l ?_).mp hl, hR, he⟩⟩
        rintro rfl; exact absurd hR (by decide)
      · exact ⟨p.build, Or.inl rfl⟩
    · rintro ⟨e, h | ⟨l, hl, hR, he⟩⟩
      · exact Or.inr (congrArg Prod.fst h)
      · refine Or.inl ⟨l, (hmem l ?_).mpr hl, hR, e, he⟩
        rintro rfl; exact absurd hR (by decide)

/-- **C73**, the dependency resolver takes the same from the file. -/
theorem C73_resolver_partial (t : List (Str × Str)) (ls fs : List Str) (h : Described t ls fs) (p : Pack) (ho : openPack t = .ok p)
    (m : ArchMeta) (hm : p.archMeta = some m) :
    FirstField ls 'N' m.name ∧ FieldOr ls 'V' m.version ∧ FieldOr ls 'c' m.collection ∧
    (∀ r, r < 2 ^ 31 → FirstField ls 'r' (dec r) → m.release = (r : Int)) ∧ (∀ b, 0 < b → b < 2 ^ 64 → FirstField ls 'B' (dec b) → m.build = b) ∧
    ∀ d, d ∈ m.deps ↔ ∃ l ∈ ls, l.head? = some 'R' ∧ parseDep l = some d := by
  obtain ⟨h1, _, h3, h4⟩ := (C73_opened_partial t ls fs h).1 p |>.mp ho
  unfold Pack.archMeta at hm
  cases hr : p.release with
  | none => rw [hr] at hm; simp at hm
  | some r =>
    cases hd : packDeps p.md [] with
    | none => rw [hr, hd] at hm; simp at hm
    | some ds =>
      rw [hr, hd] at hm
      simp only [Option.some.injEq] at hm
      subst hm
      refine ⟨h3, ?_, ?_, ?_, ?_, ?_⟩
      · rw [← fieldOr_iff]; show _ = p.field 'V'; unfold Pack.field; rw [h1]
      · rw [← fieldOr_iff]; show _ = p.field 'c'; unfold Pack.field; rw [h1]
      · intro k hk hf
        unfold Pack.release at hr
        rw [h1, firstWith_iff.mpr hf] at hr
        simp only [stoi_dec hk, Option.some.injEq] at hr
        exact hr.symm
      · intro b hb hb' hf
        show p.build = b
        unfold Pack.build; rw [h1, firstWith_iff.mpr hf]
        exact strtoul0_dec b hb hb'
      · intro d
        have := packDeps_spec _ _ _ hd d
        rw [h1] at this
        simpa using this

/-- **C73**, the files: what is recorded and looked for on the disk are the lines of `.MTREE` that do not begin with a point. -/
theorem C73_files_partial (t : List (Str × Str)) (ls fs : List Str) (h : Described t ls fs) (p : Pack) (ho : openPack t = .ok p)
    (machine root : Str) (es : List Entry) (pre : Fs → Fs × Bool) (post : Fs → Fs) (f : Str) :
    f ∈ (p.archive machine root es pre post).files ↔ f ∈ fs ∧ f.head? ≠ some '.' := by
  obtain ⟨_, h2, _, _⟩ := (C73_opened_partial t ls fs h).1 p |>.mp ho
  unfold Archive.files Pack.archive
  rw [mem_sofList, h2, List.mem_filter]
  simp

/-- **C73**, the architecture: on the running system a package for another machine is refused. -/
theorem C73_architecture (machine : Str) (p : Pack) (es : List Entry) (pre : Fs → Fs × Bool) (post : Fs → Fs) (env : Env) (rules : List Rule)
    (opts : Opts) (s : Sys) (h1 : p.arch ≠ machine) (h2 : p.arch ≠ "any".toList) :
    (pkgadd env rules opts (p.archive machine "/".toList es pre post) s).1 = s ∧
    (pkgadd env rules opts (p.archive machine "/".toList es pre post) s).2 ≠ none := by
  have hacc : (p.archive machine "/".toList es pre post).archOk = false := by
    show archAccepted machine "/".toList p = false
    unfold archAccepted
    rw [decide_eq_false h1, decide_eq_false h2]; decide
  have hp : ∃ e, precheck opts (p.archive machine "/".toList es pre post) (load s opts.asDep) = some e := by
    unfold precheck
    rw [hacc]
    split
    · exact ⟨_, rfl⟩
    · exact ⟨_, rfl⟩
  obtain ⟨e, hp⟩ := hp
  unfold pkgadd runAdd
  rw [hp]
  exact ⟨rfl, by simp⟩

/-- **C73 fails** for a description that does not end with a newline: the last character of its last line is lost. -/
theorem C73_unterminated_counterexample (t : List (Str × Str)) (n c l : Str) (x : Char) (ls : List Str) (ht : TextFile ls c)
    (hl : ∀ y ∈ ls, TextLine y ∧ y ≠ []) (hx : TextLine (l ++ [x])) (hne : l ≠ []) (h : Holds t n (c ++ (l ++ [x]))) :
    fileContent t n = some (ls ++ [l]) := by
  obtain ⟨i1, _, i3, _⟩ := split_text ht hl
  have hl1 : '\n' ∉ l := fun hh => hx.1 (by simp [hh])
  have hl2 : '\x00' ∉ l := fun hh => hx.2 (by simp [hh])
  unfold fileContent
  rw [find_holds h]
  have e : (c ++ (l ++ [x])).dropLast = c ++ l := by rw [← List.append_assoc, List.dropLast_concat]
  simp only [if_neg (show c ++ (l ++ [x]) ≠ [] by simp), e]
  rw [takeWhile_all (by
    intro y hy; simp only [ne_eq, decide_eq_true_eq]; rintro rfl
    rcases List.mem_append.mp hy with hy | hy
    · exact i3 hy
    · exact hl2 hy), i1, splitChar_last _ _ hl1 hne]

/-- **C73 fails** for an empty description: the program writes in front of its buffer. -/
theorem C73_empty_counterexample : openPack [(".MTREE".toList, "usr/\n".toList), (".META".toList, [])] = .error .outOfBounds := by decide

/-- A package file. -/
def demoPack : List (Str × Str) :=
  [(".MTREE".toList, ".META\nusr/\nusr/bin/\nusr/bin/zsh\n".toList),
   (".META".toList, "Nzsh\nDA shell\nV5.9\nr2\nax86_64\nccli\nB1700000000\nRncurses1600000000\n".toList)]

theorem demoPack_described : Described demoPack
    ["Nzsh".toList, "DA shell".toList, "V5.9".toList, "r2".toList, "ax86_64".toList, "ccli".toList, "B1700000000".toList, "Rncurses1600000000".toList]
    [".META".toList, "usr/".toList, "usr/bin/".toList, "usr/bin/zsh".toList] := by
  refine ⟨⟨_, ⟨[(".MTREE".toList, ".META\nusr/\nusr/bin/\nusr/bin/zsh\n".toList)], [], rfl, by decide⟩, ?_⟩, ⟨_, ⟨[], _, rfl, by simp⟩, ?_⟩,
    by unfold TextLine; decide, by unfold TextLine; decide, by decide, by decide⟩
  · exact .cons "Nzsh".toList _ _ (.cons "DA shell".toList _ _ (.cons "V5.9".toList _ _ (.cons "r2".toList _ _ (.cons "ax86_64".toList _ _
      (.cons "ccli".toList _ _ (.cons "B1700000000".toList _ _ (.cons "Rncurses1600000000".toList _ _ .nil)))))))
  · exact .cons ".META".toList _ _ (.cons "usr/".toList _ _ (.cons "usr/bin/".toList _ _ (.cons "usr/bin/zsh".toList _ _ .nil)))

/-- What is read from it. -/
def demoP : Pack :=
  { md := ["Nzsh".toList, "DA shell".toList, "V5.9".toList, "r2".toList, "ax86_64".toList, "ccli".toList, "B1700000000".toList, "Rncurses1600000000".toList]
    mtree := [".META".toList, "usr/".toList, "usr/bin/".toList, "usr/bin/zsh".toList], name := "zsh".toList, arch := "x86_64".toList }

theorem demoP_opened : openPack demoPack = .ok demoP := by decide

/-- The system after the installation. -/
def demoAfter : Sys × Option Err := pkgadd xEnv [] xOpts (demoP.archive "x86_64".toList "/".toList [] (fun fs => (fs, true)) id) xSys

/-- The package is installed on a system with two packages, and `cards info` says what `pkginfo --archive` said. -/
example : demoAfter.2 = none ∧ ∃ d, pkginfoDetails true (7, 7) demoAfter.1.disk "zsh".toList = some d ∧
      d.version = "5.9".toList ∧ d.release = 2 ∧ "ncurses".toList ∈ d.deps := by
  have hok : demoAfter.2 = none := by decide +kernel
  have hall : ∀ e ∈ demoAfter.1.disk, ¬ ('A' :: "zsh".toList ∈ e.2.md) := by decide +kernel
  refine ⟨hok, ?_⟩
  obtain ⟨d, h1, _, h3, _, h5, h6⟩ := C73_before_after_partial demoPack _ _ demoPack_described demoP demoP_opened "x86_64".toList "/".toList []
    (fun fs => (fs, true)) id xEnv [] xOpts xSys xSys_wf hok (fun q j hq _ => hall (q, j) hq) true (7, 7)
  have e2 : dec 2 = "2".toList := by decide +kernel
  refine ⟨d, h1, (h3 "5.9".toList (by decide) ⟨["Nzsh".toList, "DA shell".toList], _, rfl, by decide⟩).2, ?_, ?_⟩
  · exact (h5 2 (by decide) (by rw [e2]; decide) (by rw [e2]; exact ⟨["Nzsh".toList, "DA shell".toList, "V5.9".toList], _, rfl, by decide⟩)).2
  · have := (h6 [("ncurses".toList, 1600000000), ("zsh".toList, 1700000000)] (by decide +kernel) "ncurses".toList).mpr ⟨1600000000, by decide⟩
    rcases this with h | h
    · exact h
    · exact absurd h (by decide)

/-- A description without final newline: the collection `cli` is taken for `cl`. -/
example : fileContent [(".META".toList, "Nzsh\nccli".toList)] ".META".toList = some ["Nzsh".toList, "ccl".toList] :=
  C73_unterminated_counterexample _ _ "Nzsh\n".toList "ccl".toList 'i' ["Nzsh".toList] (.cons _ _ _ .nil) (by unfold TextLine; decide)
    (by unfold TextLine; decide) (by decide) ⟨[], [], rfl, by simp⟩

/-- **C73 fails** for a release that is no number: the program is ended by an exception, while the database reads 0 for it. -/
theorem C73_release_counterexample (md : List Str) (n a : Str) (tr : List Str) (h : FirstField md 'r' "two".toList) :
    archiveInfo ⟨md, tr, n, a⟩ = none ∧ ∀ junk files, OneField ⟨md, files⟩ 'r' → (Info.inst junk ⟨md, files⟩).release = 0 := by
  constructor
  · unfold archiveInfo Pack.release
    rw [firstWith_iff.mpr h]; rfl
  · intro junk files h1
    have : 'r' :: "two".toList ∈ md := by obtain ⟨x, y, rfl, _⟩ := h; simp
    unfold Info.inst
    simp only [fields_last (i := ⟨md, files⟩) h1 this]
    decide

/-- **C73 fails** for a field given twice: the file shows the first line, the database the last in alphabetical order. -/
theorem C73_twice_counterexample : Pack.field ⟨["Nzsh".toList, "V5.9".toList, "V5.10".toList], [], [], []⟩ 'V' = "5.9".toList ∧
    Pack.field ⟨["Nzsh".toList, "V5.10".toList, "V5.9".toList], [], [], []⟩ 'V' = "5.10".toList ∧
    (∀ junk, (Info.inst junk ⟨["Nzsh".toList, "V5.10".toList, "V5.9".toList], []⟩).version = "5.9".toList) := by
  refine ⟨by decide, by decide, fun junk => ?_⟩
  show Info.lastField ⟨["Nzsh".toList, "V5.10".toList, "V5.9".toList], []⟩ 'V' = _
  decide

/-- **C73 fails**: a package without dependencies is shown to depend on itself. -/
theorem C73_itself_counterexample : (archiveInfo ⟨["Nzsh".toList, "B1700000000".toList], ["usr/".toList], "zsh".toList, []⟩).bind List.getLast? =
    some "zsh : Dependencies   : zsh1700000000 ".toList := by decide +kernel

end Cards.Props
