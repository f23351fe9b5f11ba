import Verif.Model.ResolveLibs
import Mathlib.Data.List.Induction
import Mathlib.Tactic.Common
/-!
# C121: resolve-libs reports the broken files
-/
namespace Cards.Props
open Cards

/-- The file needs the library and it is not there. -/
def BrokenLink (f : LinkFile) (lib : Str) : Prop := f.elf = true ∧ lib ∈ f.missing ∧ lib ∈ f.needed

/-- The package owns the file. -/
def OwnsFile (db : List (Str × List Str)) (pkg path : Str) : Prop := ∃ fs, (pkg, fs) ∈ db ∧ path ∈ fs

theorem grepWhole_self (p : Str) : grepWhole p p = true := by
  unfold grepWhole
  have : sedHere p p = some [] := by
    have h : ∀ p r : Str, sedHere p (p ++ r) = some r := by
      intro p r
      induction p with
      | nil => rfl
      | cons c p ih => simp [sedHere, ih]
    simpa using h p []
  rw [this]; rfl

/-- The whole line and not only its beginning: the same number of characters, each one the same or a point of the pattern. -/
theorem C121_whole (p l : Str) : grepWhole p l = true ↔ List.Forall₂ (fun a b => a = '.' ∨ a = b) p l := by
  unfold grepWhole
  induction p generalizing l with
  | nil =>
    cases l with
    | nil => simp [sedHere]
    | cons b l => exact ⟨fun h => by simp [sedHere] at h, fun h => by cases h⟩
  | cons a p ih =>
    cases l with
    | nil => exact ⟨fun h => by simp [sedHere] at h, fun h => by cases h⟩
    | cons b l =>
      by_cases h : a = '.' ∨ a = b
      · simp only [sedHere, if_pos h, List.forall₂_cons]
        rw [ih l]
        tauto
      · simp [sedHere, if_neg h, h]

example : grepWhole "libz.so".toList "libz.so.1".toList = false ∧ grepWhole "libz.so".toList "libzXso".toList = true := by decide

theorem mem_grepOwners {db : List (Str × List Str)} {path pkg l : Str} : (pkg, l) ∈ grepOwners db path ↔ ∃ fs, (pkg, fs) ∈ db ∧ l ∈ fs ∧ grepWhole path l = true := by
  unfold grepOwners
  rw [List.mem_flatMap]
  constructor
  · rintro ⟨⟨n, fs⟩, h1, h2⟩
    obtain ⟨l', h3, e⟩ := List.mem_map.mp h2
    cases e
    exact ⟨fs, h1, (List.mem_filter.mp h3).1, (List.mem_filter.mp h3).2⟩
  · rintro ⟨fs, h1, h2, h3⟩
    exact ⟨(pkg, fs), h1, List.mem_map.mpr ⟨l, List.mem_filter.mpr ⟨h2, h3⟩, rfl⟩⟩

theorem ownerOf_some {db : List (Str × List Str)} {pkg path : Str} (h : OwnsFile db pkg path) : ∃ n, ownerOf db path = some n := by
  obtain ⟨fs, h1, h2⟩ := h
  have hm := mem_grepOwners.mpr ⟨fs, h1, h2, grepWhole_self path⟩
  unfold ownerOf
  split
  · next e => rw [e] at hm; exact absurd hm (by simp)
  · exact ⟨_, rfl⟩

/-- What is printed stays printed. -/
theorem linkStep_mono {db : List (Str × List Str)} {r : Str × Str × Str} (files : List LinkFile) (st : LinkState) (h : r ∈ st.out) : r ∈ (files.foldl (linkStep db) st).out := by
  induction files generalizing st with
  | nil => exact h
  | cons f files ih =>
    refine ih _ ?_
    unfold linkStep
    split
    · simp only
      split
      · exact h
      · exact List.mem_append_left _ h
    · exact h

/-- **C121, nothing is missed.** Every file of a package that needs a library which is not found is reported with that library. -/
theorem C121_complete (db : List (Str × List Str)) (files : List LinkFile) (f : LinkFile) (hf : f ∈ files) (lib : Str) (hb : BrokenLink f lib) (pkg : Str) (ho : OwnsFile db pkg f.path) :
    ∃ name, (name, f.path, lib) ∈ resolveLibs db files := by
  obtain ⟨pre, post, rfl⟩ := List.append_of_mem hf
  obtain ⟨n, hn⟩ := ownerOf_some ho
  obtain ⟨he, hm, hne⟩ := hb
  refine ⟨n, ?_⟩
  unfold resolveLibs
  rw [List.foldl_append, List.foldl_cons]
  refine linkStep_mono post _ ?_
  generalize pre.foldl (linkStep db) ⟨[], []⟩ = st
  unfold linkStep
  have hc : (f.elf && !f.missing.isEmpty) = true := by
    rw [he, Bool.true_and, Bool.not_eq_true', List.isEmpty_eq_false_iff]
    exact List.ne_nil_of_mem hm
  rw [if_pos hc]
  simp only [hn]
  refine List.mem_append_right _ (List.mem_map.mpr ⟨lib, List.mem_filter.mpr ⟨List.mem_append_right _ hm, ?_⟩, rfl⟩)
  exact List.any_eq_true.mpr ⟨lib, hne, grepWhole_self lib⟩

/-- The files before `f` whose libraries are still in NEW_LIB_NAME: those just before it, broken and of no package. -/
def leaked (db : List (Str × List Str)) : List LinkFile → List Str
  | [] => []
  | f :: rest => if f.elf && !f.missing.isEmpty && (ownerOf db f.path).isNone then leaked db rest ++ f.missing else []

theorem foldl_new {db : List (Str × List Str)} (pre : List LinkFile) : (pre.foldl (linkStep db) ⟨[], []⟩).new = leaked db pre.reverse := by
  induction pre using List.reverseRecOn with
  | nil => rfl
  | append_singleton pre f ih =>
    rw [List.foldl_append, List.reverse_append]
    simp only [List.foldl_cons, List.foldl_nil, List.reverse_cons, List.reverse_nil, List.nil_append, List.singleton_append, leaked]
    rw [← ih]
    generalize pre.foldl (linkStep db) ⟨[], []⟩ = st
    unfold linkStep
    split
    · next h =>
      cases ho : ownerOf db f.path with
      | none => simp [h]
      | some p => simp
    · next h =>
      rw [if_neg]
      intro hc
      exact h (Bool.and_eq_true_iff.mp hc).1

/-- **C121, exactly.** A line is printed for a broken file of a package, under the name looked up for it, and a library that its NEEDED entries match: one of its own missing libraries or
one left over from the files just before it. -/
theorem C121_exact (db : List (Str × List Str)) (files : List LinkFile) (name path lib : Str) :
    (name, path, lib) ∈ resolveLibs db files ↔
      ∃ pre f post, files = pre ++ f :: post ∧ f.path = path ∧ f.elf = true ∧ f.missing ≠ [] ∧ ownerOf db path = some name ∧
        (lib ∈ f.missing ∨ lib ∈ leaked db pre.reverse) ∧ ∃ n ∈ f.needed, grepWhole lib n = true := by
  have step : ∀ (st : LinkState) (f : LinkFile), (name, path, lib) ∈ (linkStep db st f).out ↔ (name, path, lib) ∈ st.out ∨
      (f.path = path ∧ f.elf = true ∧ f.missing ≠ [] ∧ ownerOf db path = some name ∧ (lib ∈ f.missing ∨ lib ∈ st.new) ∧ ∃ n ∈ f.needed, grepWhole lib n = true) := by
    intro st f
    unfold linkStep
    split
    · next hc =>
      obtain ⟨h1, h2⟩ := Bool.and_eq_true_iff.mp hc
      have h2' : f.missing ≠ [] := by rw [Bool.not_eq_true', List.isEmpty_eq_false_iff] at h2; exact h2
      cases ho : ownerOf db f.path with
      | none =>
        simp only
        refine ⟨Or.inl, fun h => h.resolve_right ?_⟩
        rintro ⟨rfl, _, _, h, _⟩
        rw [ho] at h; exact absurd h nofun
      | some p =>
        simp only [List.mem_append, List.mem_map, List.mem_filter, List.any_eq_true]
        refine or_congr_right ?_
        constructor
        · rintro ⟨i, ⟨hi, hn⟩, e⟩
          cases e
          exact ⟨rfl, h1, h2', ho, hi.symm, hn⟩
        · rintro ⟨rfl, _, _, h, hi, hn⟩
          rw [ho] at h
          cases h
          exact ⟨lib, ⟨hi.symm, hn⟩, rfl⟩
    · next hc =>
      refine ⟨Or.inl, fun h => h.resolve_right ?_⟩
      rintro ⟨_, h1, h2, _⟩
      refine hc ?_
      rw [h1, Bool.true_and, Bool.not_eq_true', List.isEmpty_eq_false_iff]
      exact h2
  unfold resolveLibs
  induction files using List.reverseRecOn with
  | nil =>
    constructor
    · intro h; exact absurd h (by simp)
    · rintro ⟨pre, f, post, e, _⟩; exact absurd e (by simp)
  | append_singleton files f ih =>
    rw [List.foldl_append, List.foldl_cons, List.foldl_nil, step, foldl_new]
    refine (or_congr ih Iff.rfl).trans ?_
    constructor
    · rintro (⟨pre, g, post, rfl, h⟩ | h)
      · exact ⟨pre, g, post ++ [f], by simp, h⟩
      · exact ⟨files, f, [], rfl, h⟩
    · rintro ⟨pre, g, post, e, h⟩
      rcases List.eq_nil_or_concat post with rfl | ⟨post', x, rfl⟩
      · obtain ⟨rfl, e2⟩ := List.append_inj' e rfl
        cases e2
        exact Or.inr h
      · refine Or.inl ⟨pre, g, post', ?_, h⟩
        rw [List.concat_eq_append, ← List.cons_append, ← List.append_assoc] at e
        exact (List.append_inj' e rfl).1

/-- The names can be told apart: several packages; each broken file is recorded by one package, on one line, and grep finds no other line; a missing library matches no other NEEDED entry. -/
structure ToldApart (db : List (Str × List Str)) (files : List LinkFile) : Prop where
  several : db.length ≠ 1
  owner : ∀ f ∈ files, f.elf = true → f.missing ≠ [] → ∃ pkg, grepOwners db f.path = [(pkg, f.path)]
  libs : ∀ f ∈ files, ∀ i ∈ f.missing, ∀ n ∈ f.needed, grepWhole i n = true → i = n

/-- **C121, when all broken files belong to packages and the names can be told apart.** The lines printed are exactly: the owner, the file and the library, for each file that needs a library which is not found. -/
theorem C121_report_partial (db : List (Str × List Str)) (files : List LinkFile) (hp : ToldApart db files) (pkg path lib : Str) :
    (pkg, path, lib) ∈ resolveLibs db files ↔ ∃ f ∈ files, f.path = path ∧ BrokenLink f lib ∧ OwnsFile db pkg path := by
  have own : ∀ f ∈ files, f.elf = true → f.missing ≠ [] → ∀ n, ownerOf db f.path = some n ↔ OwnsFile db n f.path := by
    intro f hf he hm n
    obtain ⟨p, hg⟩ := hp.owner f hf he hm
    have e : ownerOf db f.path = some p := by
      unfold ownerOf
      rw [hg]
      simp only [if_neg hp.several]
      rfl
    constructor
    · intro h
      rw [e] at h
      cases h
      obtain ⟨fs, h1, h2, _⟩ := mem_grepOwners.mp (hg ▸ List.mem_singleton.mpr rfl : (n, f.path) ∈ grepOwners db f.path)
      exact ⟨fs, h1, h2⟩
    · rintro ⟨fs, h1, h2⟩
      have := mem_grepOwners.mpr ⟨fs, h1, h2, grepWhole_self f.path⟩
      rw [hg, List.mem_singleton] at this
      cases this
      exact e
  have nol : ∀ pre : List LinkFile, (∀ f ∈ pre, f ∈ files) → leaked db pre.reverse = [] := by
    intro pre hpre
    rcases List.eq_nil_or_concat pre with rfl | ⟨pre', f, rfl⟩
    · rfl
    · rw [List.concat_eq_append, List.reverse_append]
      simp only [List.reverse_cons, List.reverse_nil, List.nil_append, List.singleton_append, leaked]
      rw [if_neg]
      intro hc
      obtain ⟨h1, h2⟩ := Bool.and_eq_true_iff.mp hc
      obtain ⟨h3, h4⟩ := Bool.and_eq_true_iff.mp h1
      have hf : f ∈ files := hpre f (by simp)
      have h5 : f.missing ≠ [] := by rw [Bool.not_eq_true', List.isEmpty_eq_false_iff] at h4; exact h4
      obtain ⟨p, hg⟩ := hp.owner f hf h3 h5
      have : ∃ n, ownerOf db f.path = some n := by
        unfold ownerOf; rw [hg]; exact ⟨_, rfl⟩
      obtain ⟨n, hn⟩ := this
      rw [hn] at h2; exact absurd h2 (by simp)
  rw [C121_exact]
  constructor
  · rintro ⟨pre, f, post, rfl, rfl, he, hm, ho, hl, n, hn, hg⟩
    have hf : f ∈ pre ++ f :: post := by simp
    rw [nol pre (fun g hg => by simp [hg])] at hl
    have hl' : lib ∈ f.missing := hl.resolve_right (by simp)
    have e := hp.libs f hf lib hl' n hn hg
    subst e
    exact ⟨f, hf, rfl, ⟨he, hl', hn⟩, (own f hf he hm pkg).mp ho⟩
  · rintro ⟨f, hf, rfl, ⟨he, hl, hn⟩, ho⟩
    have hm : f.missing ≠ [] := List.ne_nil_of_mem hl
    obtain ⟨pre, post, e⟩ := List.append_of_mem hf
    exact ⟨pre, f, post, e, rfl, he, hm, (own f hf he hm pkg).mpr ho, Or.inl hl, lib, hn, grepWhole_self lib⟩

/-! ## Examples and counterexamples -/

/-- Two packages. -/
def rlDb : List (Str × List Str) := [("vim".toList, ["usr/bin/vim".toList, "usr/bin/xxd".toList]), ("wget".toList, ["usr/bin/wget".toList])]

/-- A broken program, one that is not, and a script. -/
def rlFiles : List LinkFile := [⟨"usr/bin/vim".toList, true, ["libgpm.so.2".toList, "libz.so.1".toList], ["libgpm.so.2".toList, "libc.so.6".toList]⟩,
  ⟨"usr/bin/xxd".toList, true, [], ["libc.so.6".toList]⟩, ⟨"usr/bin/wget".toList, true, ["libidn.so.11".toList], ["libidn.so.11".toList]⟩]

example : resolveLibs rlDb rlFiles = [("vim".toList, "usr/bin/vim".toList, "libgpm.so.2".toList), ("wget".toList, "usr/bin/wget".toList, "libidn.so.11".toList)] := by decide +kernel

example : ToldApart rlDb rlFiles := by
  refine ⟨by decide, ?_, by decide +kernel⟩
  have : ∀ f ∈ rlFiles, f.elf = true → f.missing ≠ [] → ∃ pkg ∈ ["vim".toList, "wget".toList], grepOwners rlDb f.path = [(pkg, f.path)] := by decide +kernel
  intro f hf h1 h2
  obtain ⟨p, _, h⟩ := this f hf h1 h2
  exact ⟨p, h⟩

/-- **C121 is false: a library of another file.** A file of no package misses `libgpm.so.2`; it is reported for the next broken file, which needs it and has it. -/
theorem C121_counterexample_leak :
    resolveLibs rlDb [⟨"opt/app/run".toList, true, ["libgpm.so.2".toList], ["libgpm.so.2".toList]⟩,
      ⟨"usr/bin/vim".toList, true, ["libz.so.1".toList], ["libgpm.so.2".toList, "libz.so.1".toList]⟩] =
      [("vim".toList, "usr/bin/vim".toList, "libgpm.so.2".toList), ("vim".toList, "usr/bin/vim".toList, "libz.so.1".toList)] := by decide +kernel

/-- **C121 is false: another package.** The path is a pattern: the point of `python3.9` also matches `python3-9`, and the first package found is named. -/
theorem C121_counterexample_pattern :
    resolveLibs [("alt".toList, ["usr/bin/python3-9".toList]), ("python".toList, ["usr/bin/python3.9".toList])]
      [⟨"usr/bin/python3.9".toList, true, ["libz.so.1".toList], ["libz.so.1".toList]⟩] = [("alt".toList, "usr/bin/python3.9".toList, "libz.so.1".toList)] := by decide +kernel

/-- **C121 is false: one package.** With a single package installed the directory of the file is named in its place. -/
theorem C121_counterexample_single :
    resolveLibs [("python".toList, ["usr/bin/python3".toList])] [⟨"usr/bin/python3".toList, true, ["libz.so.1".toList], ["libz.so.1".toList]⟩] =
      [("bin".toList, "usr/bin/python3".toList, "libz.so.1".toList)] := by decide +kernel

/-- **C121 is false: three lines.** When three lines match, no package is named. -/
theorem C121_counterexample_three :
    resolveLibs [("a".toList, ["usr/lib/x.so".toList, "usr/lib/x-so".toList]), ("b".toList, ["usr/lib/x_so".toList])] [⟨"usr/lib/x.so".toList, true, ["libz.so.1".toList], ["libz.so.1".toList]⟩] =
      [([], "usr/lib/x.so".toList, "libz.so.1".toList)] := by decide +kernel

end Cards.Props
