import Mathlib.Tactic.Common
import Verif.Model.PkgmkMeta
import Verif.Spec.Repo
import Verif.Props.Repo
import Verif.Props.PkgmkNames
/-!
# C96: what a Pkgfile says is what `cards` reads
-/
namespace Cards.Props
open Cards

theorem echoLines_one {s : Str} (h : '\n' ∉ s) : echoLines s = [s] := by
  induction s with
  | nil => rfl
  | cons c s ih =>
    rw [List.mem_cons, not_or] at h
    rw [echoLines, ih h.2]
    simp only
    rw [if_neg (fun e => h.1 e.symm)]

theorem flatMap_echo {ls : List Str} (h : ∀ l ∈ ls, '\n' ∉ l) : ls.flatMap echoLines = ls := by
  induction ls with
  | nil => rfl
  | cons l ls ih =>
    rw [List.flatMap_cons, echoLines_one (h l (by simp)), ih (fun x hx => h x (by simp [hx]))]
    rfl

theorem isDevel_letter {l : Str} (h : l.head? ≠ some 'R') : isDevelDep l = false := by
  unfold isDevelDep
  split
  · exact absurd rfl h
  · rfl

theorem mem_runLines {e : MetaEnv} {own : Bool} : ∀ {rds ls : List Str}, runLines e own rds = some ls → ∀ x, x ∈ ls ↔ ∃ rd ∈ rds, runLine e own rd = some x := by
  intro rds
  induction rds with
  | nil => intro ls h x; cases h; simp
  | cons rd rds ih =>
    intro ls h x
    rw [runLines] at h
    cases hr : runLine e own rd with
    | none => rw [hr] at h; cases h
    | some l =>
      rw [hr] at h
      simp only at h
      cases hs : runLines e own rds with
      | none => rw [hs] at h; cases h
      | some ls' =>
        rw [hs] at h
        cases h
        rw [List.mem_cons, ih hs]
        constructor
        · rintro (rfl | ⟨r, h1, h2⟩)
          · exact ⟨rd, List.mem_cons_self .., hr⟩
          · exact ⟨r, List.mem_cons_of_mem _ h1, h2⟩
        · rintro ⟨r, h1, h2⟩
          rcases List.mem_cons.mp h1 with rfl | h1
          · rw [hr] at h2
            exact Or.inl (Option.some.inj h2).symm
          · exact Or.inr ⟨r, h1, h2⟩

/-! ## What the Pkgfile says -/

/-- No value has a line end in it. -/
structure OneLine (e : MetaEnv) (v : MetaVars) (full : Str) : Prop where
  env : '\n' ∉ full ∧ '\n' ∉ e.build ∧ '\n' ∉ e.space ∧ '\n' ∉ e.collection ∧ '\n' ∉ e.arch
  vars : '\n' ∉ v.version ∧ '\n' ∉ v.release ∧ '\n' ∉ v.description ∧ '\n' ∉ v.url ∧ '\n' ∉ v.contributors ∧ '\n' ∉ v.maintainer ∧ '\n' ∉ v.packager ∧ '\n' ∉ v.license
  sub : ∀ g, subOfName full = some g → '\n' ∉ g

/-- A dependency the package is to have: what its files need, or what the Pkgfile asks for; with the build of the package that was there. -/
inductive Needs (e : MetaEnv) (v : MetaVars) (full : Str) : Str → Prop
  | files (x : Str) : x ∈ e.runtimeDeps → isDevelDep ('R' :: x) = false → Needs e v full x
  | main (rd : Str) : full = e.name → rd ∈ v.runDeps → cutFirstField rd ≠ e.name → Needs e v full (rd ++ e.buildOf rd)
  | own (rd : Str) : full = e.name → rd ∈ v.runDeps → cutFirstField rd = e.name → Needs e v full (rd ++ e.build)
  | group (g rd : Str) : subOfName full = some g → g ∈ e.groups → rd ∈ v.runOf g → Needs e v full (rd ++ e.buildOf rd)
  | locale (g rd : Str) : subOfName full = some g → g ∉ e.groups → rd ∈ v.runOf [] → Needs e v full (rd ++ e.buildOf rd)

/-- The alias a package has for an alias of the port: that of a group has the group behind it, that of a language has not. -/
def subAlias (groups : List Str) (sub : Option Str) (a : Str) : Str :=
  match sub with
  | none => a
  | some g => if g ∈ groups then a ++ '.' :: g else a

/-- What `.META` says of the package. -/
structure MetaSays (e : MetaEnv) (v : MetaVars) (full : Str) (md : List Str) : Prop where
  letters : ∀ l ∈ md, ∃ c x, l = c :: x ∧ c ∈ "NVrBScaDUCMPLgnRlAsTo".toList
  name : ∀ x, ('N' :: x) ∈ md ↔ x = full
  version : ∀ x, ('V' :: x) ∈ md ↔ x = v.version
  release : ∀ x, ('r' :: x) ∈ md ↔ x = v.release
  build : ∀ x, ('B' :: x) ∈ md ↔ x = e.build
  space : ∀ x, ('S' :: x) ∈ md ↔ x = e.space
  collection : ∀ x, ('c' :: x) ∈ md ↔ x = e.collection
  arch : ∀ x, ('a' :: x) ∈ md ↔ x = e.arch
  description : ∀ x, ('D' :: x) ∈ md ↔ subOfName full = none ∧ x = orDefault "none".toList v.description
  url : ∀ x, ('U' :: x) ∈ md ↔ subOfName full = none ∧ x = orDefault "none".toList v.url
  contributors : ∀ x, ('C' :: x) ∈ md ↔ subOfName full = none ∧ x = orDefault "none".toList v.contributors
  maintainer : ∀ x, ('M' :: x) ∈ md ↔ subOfName full = none ∧ x = orDefault "none".toList v.maintainer
  packager : ∀ x, ('P' :: x) ∈ md ↔ subOfName full = none ∧ x = orDefault "none".toList v.packager
  license : ∀ x, ('L' :: x) ∈ md ↔ subOfName full = none ∧ x = orDefault "GPL".toList v.license
  group : ∀ x, ('g' :: x) ∈ md ↔ subOfName full = some x ∧ x ∈ e.groups
  locale : ∀ x, ('n' :: x) ∈ md ↔ subOfName full = some x ∧ x ∉ e.groups
  deps : ∀ x, ('R' :: x) ∈ md ↔ e.ignoreDeps = false ∧ Needs e v full x
  libs : ∀ x, ('l' :: x) ∈ md ↔ e.ignoreLibs = false ∧ x ∈ e.runtimeLibs
  aliases : ∀ x, ('A' :: x) ∈ md ↔ ∃ a ∈ v.aliases, x = subAlias e.groups (subOfName full) a
  sets : ∀ x, ('s' :: x) ∈ md ↔ x ∈ v.sets
  categories : ∀ x, ('T' :: x) ∈ md ↔ x ∈ v.categories
  conflicts : ∀ x, ('o' :: x) ∈ md ↔ x ∈ v.conflicts
  first : ∃ rest, md = ('N' :: full) :: rest

theorem runLine_eq {e : MetaEnv} {own : Bool} {rd x : Str} (h : runLine e own rd = some x) :
    x = 'R' :: (rd ++ if own = true ∧ cutFirstField rd = e.name then e.build else e.buildOf rd) := by
  unfold runLine at h
  split at h
  · rename_i hc
    rw [Bool.and_eq_true, decide_eq_true_eq] at hc
    rw [if_pos hc]
    exact (Option.some.inj h).symm
  · rename_i hc
    rw [Bool.and_eq_true, decide_eq_true_eq] at hc
    rw [if_neg hc]
    split at h
    · cases h
    · exact (Option.some.inj h).symm

theorem runLine_total {e : MetaEnv} {own : Bool} : ∀ {rds ls : List Str}, runLines e own rds = some ls → ∀ rd ∈ rds,
    runLine e own rd = some ('R' :: (rd ++ if own = true ∧ cutFirstField rd = e.name then e.build else e.buildOf rd)) := by
  intro rds
  induction rds with
  | nil => intro ls _ rd h; cases h
  | cons r rds ih =>
    intro ls h rd hm
    rw [runLines] at h
    cases hr : runLine e own r with
    | none => rw [hr] at h; cases h
    | some l =>
      rw [hr] at h
      simp only at h
      cases hs : runLines e own rds with
      | none => rw [hs] at h; cases h
      | some ls' =>
        rcases List.mem_cons.mp hm with rfl | hm
        · rw [hr, runLine_eq hr]
        · exact ih hs rd hm

/-- The lines from the Pkgfile's dependencies. -/
theorem mem_runs {e : MetaEnv} {own : Bool} {rds ls : List Str} (h : runLines e own rds = some ls) (x : Str) :
    x ∈ ls ↔ ∃ rd ∈ rds, x = 'R' :: (rd ++ if own = true ∧ cutFirstField rd = e.name then e.build else e.buildOf rd) := by
  rw [mem_runLines h]
  constructor
  · rintro ⟨rd, hrd, hx⟩
    exact ⟨rd, hrd, runLine_eq hx⟩
  · rintro ⟨rd, hrd, rfl⟩
    exact ⟨rd, hrd, runLine_total h rd hrd⟩

/-- The lines up to the dependencies, without line ends in the values. -/
def plainHead (e : MetaEnv) (v : MetaVars) (full : Str) : List Str :=
  ['N' :: full, 'V' :: v.version, 'r' :: v.release, 'B' :: e.build, 'S' :: e.space, 'c' :: e.collection, 'a' :: e.arch] ++
    (match subOfName full with
    | none =>
      ['D' :: orDefault "none".toList v.description, 'U' :: orDefault "none".toList v.url, 'C' :: orDefault "none".toList v.contributors,
       'M' :: orDefault "none".toList v.maintainer, 'P' :: orDefault "none".toList v.packager, 'L' :: orDefault "GPL".toList v.license]
    | some g => if e.groups.contains g then ['g' :: g] else ['n' :: g])

theorem orDefault_lf {d v : Str} (h1 : '\n' ∉ d) (h2 : '\n' ∉ v) : '\n' ∉ orDefault d v := by
  unfold orDefault
  split
  · exact h1
  · exact h2

theorem metaHead_eq {e : MetaEnv} {v : MetaVars} {full : Str} (h : OneLine e v full) : metaHead e v full = plainHead e v full := by
  obtain ⟨⟨a1, a2, a3, a4, a5⟩, ⟨b1, b2, b3, b4, b5, b6, b7, b8⟩, hs⟩ := h
  refine flatMap_echo ?_
  have cons : ∀ {c : Char} {x : Str}, c ≠ '\n' → '\n' ∉ x → '\n' ∉ c :: x := by
    intro c x hc hx hm
    rcases List.mem_cons.mp hm with rfl | hm
    · exact hc rfl
    · exact hx hm
  intro l hl
  rcases List.mem_append.mp hl with hl | hl
  · simp only [List.mem_cons, List.not_mem_nil, or_false] at hl
    rcases hl with rfl | rfl | rfl | rfl | rfl | rfl | rfl <;> exact cons (by decide) (by assumption)
  · split at hl
    · simp only [List.mem_cons, List.not_mem_nil, or_false] at hl
      rcases hl with rfl | rfl | rfl | rfl | rfl | rfl <;> exact cons (by decide) (orDefault_lf (by decide) (by assumption))
    · rename_i g hg
      split at hl
      · rcases List.mem_singleton.mp hl with rfl
        exact cons (by decide) (hs g hg)
      · rcases List.mem_singleton.mp hl with rfl
        exact cons (by decide) (hs g hg)

theorem plainHead_letters {e : MetaEnv} {v : MetaVars} {full : Str} : ∀ l ∈ plainHead e v full, ∃ c x, l = c :: x ∧ c ∈ "NVrBScaDUCMPLgn".toList := by
  intro l hl
  unfold plainHead at hl
  rcases List.mem_append.mp hl with hl | hl
  · simp only [List.mem_cons, List.not_mem_nil, or_false] at hl
    rcases hl with rfl | rfl | rfl | rfl | rfl | rfl | rfl <;> exact ⟨_, _, rfl, by decide⟩
  · split at hl
    · simp only [List.mem_cons, List.not_mem_nil, or_false] at hl
      rcases hl with rfl | rfl | rfl | rfl | rfl | rfl <;> exact ⟨_, _, rfl, by decide⟩
    · split at hl
      · rcases List.mem_singleton.mp hl with rfl
        exact ⟨_, _, rfl, by decide⟩
      · rcases List.mem_singleton.mp hl with rfl
        exact ⟨_, _, rfl, by decide⟩

theorem filter_devel (e : MetaEnv) (v : MetaVars) (full : Str) (ds : List Str) :
    (plainHead e v full ++ ds).filter (fun l => !isDevelDep l) = plainHead e v full ++ ds.filter (fun l => !isDevelDep l) := by
  rw [List.filter_append]
  congr 1
  rw [List.filter_eq_self]
  intro l hl
  obtain ⟨c, x, rfl, hc⟩ := plainHead_letters l hl
  rw [isDevel_letter]
  · rfl
  · intro e
    have : c = 'R' := Option.some.inj e
    rw [this] at hc
    exact absurd hc (by decide)

/-- The dependencies of the package, as `.META` has them. -/
theorem metaDeps_split {e : MetaEnv} {v : MetaVars} {full : Str} {ls : List Str} (ho : OneLine e v full) (h : metaDeps e v full = some ls) :
    ∃ rs, ls = plainHead e v full ++ rs ∧ (∀ l ∈ rs, ∃ x, l = 'R' :: x) ∧ ∀ x, ('R' :: x) ∈ rs ↔ e.ignoreDeps = false ∧ Needs e v full x := by
  unfold metaDeps at h
  rw [metaHead_eq ho] at h
  split at h
  · rename_i hi
    cases h
    refine ⟨[], by simp, by simp, fun x => ?_⟩
    rw [hi]
    simp
  · rename_i hi
    have hi' : e.ignoreDeps = false := by simpa using hi
    simp only [filter_devel] at h
    cases ha : (if v.runDeps ≠ [] ∧ full = e.name then runLines e true v.runDeps else some []) with
    | none => rw [ha] at h; cases h
    | some a =>
      rw [ha] at h
      simp only at h
      split at h
      · cases h
      · rename_i b hb
        cases h
        refine ⟨(e.runtimeDeps.map ('R' :: ·)).filter (fun l => !isDevelDep l) ++ a ++ b, by simp, ?_, ?_⟩
        · have hal : ∀ l ∈ a, ∃ x, l = 'R' :: x := by
            intro l hl
            split at ha
            · obtain ⟨rd, _, rfl⟩ := (mem_runs ha l).mp hl
              exact ⟨_, rfl⟩
            · cases ha; cases hl
          have hbl : ∀ l ∈ b, ∃ x, l = 'R' :: x := by
            intro l hl
            split at hb
            · cases hb; cases hl
            · obtain ⟨rd, _, rfl⟩ := (mem_runs hb l).mp hl
              exact ⟨_, rfl⟩
          intro l hl
          rcases List.mem_append.mp hl with hl | hl
          · rcases List.mem_append.mp hl with hl | hl
            · obtain ⟨x, _, rfl⟩ := List.mem_map.mp (List.mem_filter.mp hl).1
              exact ⟨x, rfl⟩
            · exact hal l hl
          · exact hbl l hl
        · intro x
          have hA : ('R' :: x) ∈ a ↔ full = e.name ∧ ∃ rd ∈ v.runDeps, x = rd ++ (if cutFirstField rd = e.name then e.build else e.buildOf rd) := by
            split at ha
            · rename_i hc
              rw [mem_runs ha]
              simp only [List.cons.injEq, true_and, hc.2]
            · rename_i hc
              cases ha
              constructor
              · intro hm; cases hm
              · rintro ⟨hf, rd, hrd, _⟩
                refine absurd ⟨?_, hf⟩ hc
                intro e0
                rw [e0] at hrd
                cases hrd
          have hB : ('R' :: x) ∈ b ↔ ∃ g, subOfName full = some g ∧ ∃ rd ∈ v.runOf (if e.groups.contains g then g else []), x = rd ++ e.buildOf rd := by
            split at hb
            · rename_i hs
              cases hb
              simp [hs]
            · rename_i g hs
              rw [mem_runs hb]
              simp [hs]
          rw [List.mem_append, List.mem_append, hA, hB, List.mem_filter, List.mem_map]
          constructor
          · rintro ((⟨⟨y, hy, e1⟩, hd⟩ | ⟨hf, rd, hrd, rfl⟩) | ⟨g, hs, rd, hrd, rfl⟩)
            · rw [List.cons.injEq] at e1
              obtain ⟨_, rfl⟩ := e1
              exact ⟨hi', Needs.files y hy (by simpa using hd)⟩
            · by_cases hc : cutFirstField rd = e.name
              · rw [if_pos hc]
                exact ⟨hi', Needs.own rd hf hrd hc⟩
              · rw [if_neg hc]
                exact ⟨hi', Needs.main rd hf hrd hc⟩
            · by_cases hc : e.groups.contains g = true
              · rw [if_pos hc] at hrd
                exact ⟨hi', Needs.group g rd hs (by simpa using hc) hrd⟩
              · rw [if_neg hc] at hrd
                exact ⟨hi', Needs.locale g rd hs (by simpa using hc) hrd⟩
          · rintro ⟨_, hn⟩
            cases hn with
            | files _ hx hd => exact Or.inl (Or.inl ⟨⟨x, hx, rfl⟩, by simpa using hd⟩)
            | main rd hf hrd hc => exact Or.inl (Or.inr ⟨hf, rd, hrd, by rw [if_neg hc]⟩)
            | own rd hf hrd hc => exact Or.inl (Or.inr ⟨hf, rd, hrd, by rw [if_pos hc]⟩)
            | group g rd hs hg hrd => exact Or.inr ⟨g, hs, rd, by rw [if_pos (by simpa using hg)]; exact hrd, rfl⟩
            | «locale» g rd hs hg hrd => exact Or.inr ⟨g, hs, rd, by rw [if_neg (by simpa using hg)]; exact hrd, rfl⟩


theorem mem_plainHead {e : MetaEnv} {v : MetaVars} {full l : Str} : l ∈ plainHead e v full ↔
    (l = 'N' :: full ∨ l = 'V' :: v.version ∨ l = 'r' :: v.release ∨ l = 'B' :: e.build ∨ l = 'S' :: e.space ∨ l = 'c' :: e.collection ∨ l = 'a' :: e.arch) ∨
    (subOfName full = none ∧ (l = 'D' :: orDefault "none".toList v.description ∨ l = 'U' :: orDefault "none".toList v.url ∨
      l = 'C' :: orDefault "none".toList v.contributors ∨ l = 'M' :: orDefault "none".toList v.maintainer ∨ l = 'P' :: orDefault "none".toList v.packager ∨
      l = 'L' :: orDefault "GPL".toList v.license)) ∨
    ∃ g, subOfName full = some g ∧ ((g ∈ e.groups ∧ l = 'g' :: g) ∨ (g ∉ e.groups ∧ l = 'n' :: g)) := by
  unfold plainHead
  generalize "none".toList = dn
  generalize "GPL".toList = dg
  rw [List.mem_append]
  simp only [List.mem_cons, List.not_mem_nil, or_false]
  cases hs : subOfName full with
  | none => simp
  | some g =>
    simp only [reduceCtorEq, false_and, false_or, Option.some.injEq, exists_eq_left']
    by_cases hg : g ∈ e.groups
    · rw [if_pos (by simpa using hg)]
      simp [hg]
    · rw [if_neg (by simpa using hg)]
      simp [hg]

theorem mem_cons_map {c d : Char} {x : Str} {xs : List Str} : (c :: x) ∈ xs.map (d :: ·) ↔ c = d ∧ x ∈ xs := by
  rw [List.mem_map]
  constructor
  · rintro ⟨y, hy, e⟩
    rw [List.cons.injEq] at e
    exact ⟨e.1.symm, e.2 ▸ hy⟩
  · rintro ⟨rfl, h⟩
    exact ⟨x, h, rfl⟩

theorem mem_metaTail {e : MetaEnv} {v : MetaVars} {full : Str} {c : Char} {x : Str} : (c :: x) ∈ metaTail e v full ↔
    (e.ignoreLibs = false ∧ c = 'l' ∧ x ∈ e.runtimeLibs) ∨ (c = 'A' ∧ ∃ a ∈ v.aliases, x = aliasName e full a) ∨
    (c = 's' ∧ x ∈ v.sets) ∨ (c = 'T' ∧ x ∈ v.categories) ∨ (c = 'o' ∧ x ∈ v.conflicts) := by
  unfold metaTail
  rw [List.mem_append, List.mem_append, List.mem_append, List.mem_append, mem_cons_map, mem_cons_map, mem_cons_map]
  have h1 : (c :: x) ∈ (if e.ignoreLibs then [] else e.runtimeLibs.map ('l' :: ·)) ↔ e.ignoreLibs = false ∧ c = 'l' ∧ x ∈ e.runtimeLibs := by
    cases e.ignoreLibs with
    | true => simp
    | false =>
      rw [if_neg (by simp), mem_cons_map]
      simp
  have h2 : (c :: x) ∈ v.aliases.map (fun a => 'A' :: aliasName e full a) ↔ c = 'A' ∧ ∃ a ∈ v.aliases, x = aliasName e full a := by
    rw [List.mem_map]
    constructor
    · rintro ⟨a, ha, e⟩
      rw [List.cons.injEq] at e
      exact ⟨e.1.symm, a, ha, e.2.symm⟩
    · rintro ⟨rfl, a, ha, rfl⟩
      exact ⟨a, ha, rfl⟩
  rw [h1, h2]

theorem aliasName_eq (e : MetaEnv) (full a : Str) : aliasName e full a = subAlias e.groups (subOfName full) a := by
  unfold aliasName subAlias
  cases subOfName full with
  | none => rfl
  | some g =>
    simp only
    by_cases hg : g ∈ e.groups
    · rw [if_pos hg, if_pos (by simpa using hg)]
    · rw [if_neg hg, if_neg (by simpa using hg)]

theorem tail_letters {e : MetaEnv} {v : MetaVars} {full : Str} : ∀ l ∈ metaTail e v full, ∃ c x, l = c :: x ∧ c ∈ "lAsTo".toList := by
  intro l hl
  unfold metaTail at hl
  rcases List.mem_append.mp hl with hl | hl
  · split at hl
    · cases hl
    · obtain ⟨x, _, rfl⟩ := List.mem_map.mp hl
      exact ⟨_, _, rfl, by decide⟩
  · rcases List.mem_append.mp hl with hl | hl
    · obtain ⟨x, _, rfl⟩ := List.mem_map.mp hl
      exact ⟨_, _, rfl, by decide⟩
    · rcases List.mem_append.mp hl with hl | hl
      · obtain ⟨x, _, rfl⟩ := List.mem_map.mp hl
        exact ⟨_, _, rfl, by decide⟩
      · rcases List.mem_append.mp hl with hl | hl
        · obtain ⟨x, _, rfl⟩ := List.mem_map.mp hl
          exact ⟨_, _, rfl, by decide⟩
        · obtain ⟨x, _, rfl⟩ := List.mem_map.mp hl
          exact ⟨_, _, rfl, by decide⟩

/-- **C96**: what `.META` says is what the Pkgfile says. -/
theorem C96_meta_exact_partial (e : MetaEnv) (v : MetaVars) (full : Str) (ho : OneLine e v full) (md : List Str) (h : metaLines e v full = some md) :
    MetaSays e v full md := by
  unfold metaLines at h
  cases hd : metaDeps e v full with
  | none => rw [hd] at h; cases h
  | some ls =>
    rw [hd] at h
    have hmd : md = ls ++ metaTail e v full := (Option.some.inj h).symm
    clear h
    obtain ⟨rs, rfl, hr1, hr2⟩ := metaDeps_split ho hd
    have key : ∀ l, l ∈ md ↔ l ∈ plainHead e v full ∨ l ∈ rs ∨ l ∈ metaTail e v full := by
      intro l
      rw [hmd, List.mem_append, List.mem_append, or_assoc]
    have hrs : ∀ (c : Char) (x : Str), c ≠ 'R' → ((c :: x) ∈ rs ↔ False) := by
      intro c x hc
      refine iff_false_intro fun hm => ?_
      obtain ⟨y, e⟩ := hr1 _ hm
      exact hc (List.cons.inj e).1
    have one : ∀ (c : Char), c ∉ "RlAsTo".toList → ∀ x, (c :: x) ∈ md ↔ (c :: x) ∈ plainHead e v full := by
      intro c hc x
      rw [key, hrs c x (fun e => hc (by rw [e]; decide)), false_or]
      constructor
      · rintro (h | h)
        · exact h
        · obtain ⟨d, y, e, hd⟩ := tail_letters _ h
          rw [(List.cons.inj e).1] at hc
          exact absurd ((show ∀ d ∈ "lAsTo".toList, d ∈ "RlAsTo".toList by decide) d hd) hc
      · exact Or.inl
    have two : ∀ (c : Char), c ∈ "lAsTo".toList → ∀ x, (c :: x) ∈ md ↔ (c :: x) ∈ metaTail e v full := by
      intro c hc x
      rw [key, hrs c x (fun e => by rw [e] at hc; exact absurd hc (by decide)), false_or]
      constructor
      · rintro (h | h)
        · obtain ⟨d, y, e, hd⟩ := plainHead_letters _ h
          rw [(List.cons.inj e).1] at hc
          exact absurd hd ((show ∀ d ∈ "lAsTo".toList, d ∉ "NVrBScaDUCMPLgn".toList by decide) d hc)
        · exact h
      · exact Or.inr
    clear hd ho
    refine ⟨?_, ?_, ?_, ?_, ?_, ?_, ?_, ?_, ?_, ?_, ?_, ?_, ?_, ?_, ?_, ?_, ?_, ?_, ?_, ?_, ?_, ?_, ?_⟩
    · intro l hl
      rcases (key l).mp hl with hl | hl | hl
      · obtain ⟨c, x, rfl, hc⟩ := plainHead_letters l hl
        exact ⟨c, x, rfl, (show ∀ c ∈ "NVrBScaDUCMPLgn".toList, c ∈ "NVrBScaDUCMPLgnRlAsTo".toList by decide) c hc⟩
      · obtain ⟨x, rfl⟩ := hr1 l hl
        exact ⟨_, x, rfl, by decide⟩
      · obtain ⟨c, x, rfl, hc⟩ := tail_letters l hl
        exact ⟨c, x, rfl, (show ∀ c ∈ "lAsTo".toList, c ∈ "NVrBScaDUCMPLgnRlAsTo".toList by decide) c hc⟩
    · intro x; rw [one _ (by decide), mem_plainHead]; simp only [List.cons.injEq]; simp
    · intro x; rw [one _ (by decide), mem_plainHead]; simp only [List.cons.injEq]; simp
    · intro x; rw [one _ (by decide), mem_plainHead]; simp only [List.cons.injEq]; simp
    · intro x; rw [one _ (by decide), mem_plainHead]; simp only [List.cons.injEq]; simp
    · intro x; rw [one _ (by decide), mem_plainHead]; simp only [List.cons.injEq]; simp
    · intro x; rw [one _ (by decide), mem_plainHead]; simp only [List.cons.injEq]; simp
    · intro x; rw [one _ (by decide), mem_plainHead]; simp only [List.cons.injEq]; simp
    · intro x; rw [one _ (by decide), mem_plainHead]; simp only [List.cons.injEq]; simp
    · intro x; rw [one _ (by decide), mem_plainHead]; simp only [List.cons.injEq]; simp
    · intro x; rw [one _ (by decide), mem_plainHead]; simp only [List.cons.injEq]; simp
    · intro x; rw [one _ (by decide), mem_plainHead]; simp only [List.cons.injEq]; simp
    · intro x; rw [one _ (by decide), mem_plainHead]; simp only [List.cons.injEq]; simp
    · intro x; rw [one _ (by decide), mem_plainHead]; simp only [List.cons.injEq]; simp
    · intro x
      rw [one _ (by decide), mem_plainHead]
      simp only [List.cons.injEq]
      constructor
      · rintro (h | ⟨_, h⟩ | ⟨g, hs, ⟨hg, _, rfl⟩ | ⟨_, h, _⟩⟩)
        · exact absurd h (by simp)
        · exact absurd h (by simp)
        · exact ⟨hs, hg⟩
        · exact absurd h (by decide)
      · rintro ⟨hs, hg⟩
        exact Or.inr (Or.inr ⟨x, hs, Or.inl ⟨hg, trivial, rfl⟩⟩)
    · intro x
      rw [one _ (by decide), mem_plainHead]
      simp only [List.cons.injEq]
      constructor
      · rintro (h | ⟨_, h⟩ | ⟨g, hs, ⟨_, h, _⟩ | ⟨hg, _, rfl⟩⟩)
        · exact absurd h (by simp)
        · exact absurd h (by simp)
        · exact absurd h (by decide)
        · exact ⟨hs, hg⟩
      · rintro ⟨hs, hg⟩
        exact Or.inr (Or.inr ⟨x, hs, Or.inr ⟨hg, trivial, rfl⟩⟩)
    · intro x
      rw [key, hr2]
      constructor
      · rintro (h | h | h)
        · obtain ⟨d, y, e, hd⟩ := plainHead_letters _ h
          rw [← (List.cons.inj e).1] at hd
          exact absurd hd (by decide)
        · exact h
        · obtain ⟨d, y, e, hd⟩ := tail_letters _ h
          rw [← (List.cons.inj e).1] at hd
          exact absurd hd (by decide)
      · exact fun h => Or.inr (Or.inl h)
    · intro x; rw [two _ (by decide), mem_metaTail]; simp
    · intro x
      rw [two _ (by decide), mem_metaTail]
      simp only [aliasName_eq]
      simp
    · intro x; rw [two _ (by decide), mem_metaTail]; simp
    · intro x; rw [two _ (by decide), mem_metaTail]; simp
    · intro x; rw [two _ (by decide), mem_metaTail]; simp
    · rw [hmd]
      unfold plainHead
      exact ⟨_, rfl⟩

/-! ## Through the repository to `cards` -/

/-- A build date: ten digits. -/
def IsDate (s : Str) : Prop := ∃ t, s = dec t ∧ 10 ^ 9 ≤ t ∧ t < 10 ^ 10

/-- What the repository needs: a release below 65536, a collection, ten-digit build dates. -/
structure MetaGood (e : MetaEnv) (v : MetaVars) : Prop where
  release : ∃ n < 65536, v.release = dec n
  collection : e.collection ≠ []
  build : IsDate e.build
  known : ∀ rd, ((rd ∈ v.runDeps ∧ cutFirstField rd ≠ e.name) ∨ ∃ g, rd ∈ v.runOf g) → IsDate (e.buildOf rd)
  files : ∀ x ∈ e.runtimeDeps, ∃ n b, x = n ++ b ∧ IsDate b

theorem needs_date {e : MetaEnv} {v : MetaVars} {full x : Str} (hg : MetaGood e v) (h : Needs e v full x) :
    ∃ n t, x = n ++ dec t ∧ 10 ^ 9 ≤ t ∧ t < 10 ^ 10 := by
  have fin : ∀ (n b : Str), IsDate b → ∃ m t, n ++ b = m ++ dec t ∧ 10 ^ 9 ≤ t ∧ t < 10 ^ 10 := by
    rintro n b ⟨t, rfl, h1, h2⟩
    exact ⟨n, t, rfl, h1, h2⟩
  cases h with
  | files _ hx _ =>
    obtain ⟨n, b, rfl, hb⟩ := hg.files x hx
    exact fin n b hb
  | main rd _ hrd hne => exact fin _ _ (hg.known rd (Or.inl ⟨hrd, hne⟩))
  | own rd _ _ _ => exact fin _ _ hg.build
  | group g rd _ _ hrd => exact fin _ _ (hg.known rd (Or.inr ⟨g, hrd⟩))
  | «locale» g rd _ _ hrd => exact fin _ _ (hg.known rd (Or.inr ⟨[], hrd⟩))

/-- **C96**: the `.META` of a package is one that `cards` reads right (the condition of C26). -/
theorem C96_repository_ok_partial (e : MetaEnv) (v : MetaVars) (full : Str) (ho : OneLine e v full) (hg : MetaGood e v) (md : List Str)
    (h : metaLines e v full = some md) (file hash sign : Str) (size : Nat) (hf : ∃ a b, file = a ++ ".cards-".toList ++ b) :
    RecOk ⟨file, md, hash, sign, size⟩ := by
  have hs := C96_meta_exact_partial e v full ho md h
  refine ⟨?_, hf, ⟨full, (hs.name full).mpr rfl⟩, ?_, ?_, ?_, ?_⟩
  · intro l hl
    obtain ⟨c, x, rfl, hc⟩ := hs.letters l hl
    obtain ⟨h1, h2, h3, h4⟩ := (show ∀ c ∈ "NVrBScaDUCMPLgnRlAsTo".toList, c ≠ '@' ∧ c ≠ 'H' ∧ c ≠ 'I' ∧ c ≠ 'i' by decide) c hc
    exact ⟨c, x, rfl, h1, h2, h3, h4⟩
  · intro c hc x y hx hy
    have hc' : c ∈ ['N', 'V', 'r', 'S', 'a', 'D', 'U', 'C', 'M', 'P', 'L', 'B', 'c', 'g', 'n'] := hc
    simp only [List.mem_cons, List.not_mem_nil, or_false] at hc'
    unfold Rec.Has at hx hy
    simp only at hx hy
    rcases hc' with rfl | rfl | rfl | rfl | rfl | rfl | rfl | rfl | rfl | rfl | rfl | rfl | rfl | rfl | rfl
    · exact ((hs.name _).mp hx).trans ((hs.name _).mp hy).symm
    · exact ((hs.version _).mp hx).trans ((hs.version _).mp hy).symm
    · exact ((hs.release _).mp hx).trans ((hs.release _).mp hy).symm
    · exact ((hs.space _).mp hx).trans ((hs.space _).mp hy).symm
    · exact ((hs.arch _).mp hx).trans ((hs.arch _).mp hy).symm
    · exact ((hs.description _).mp hx).2.trans ((hs.description _).mp hy).2.symm
    · exact ((hs.url _).mp hx).2.trans ((hs.url _).mp hy).2.symm
    · exact ((hs.contributors _).mp hx).2.trans ((hs.contributors _).mp hy).2.symm
    · exact ((hs.maintainer _).mp hx).2.trans ((hs.maintainer _).mp hy).2.symm
    · exact ((hs.packager _).mp hx).2.trans ((hs.packager _).mp hy).2.symm
    · exact ((hs.license _).mp hx).2.trans ((hs.license _).mp hy).2.symm
    · exact ((hs.build _).mp hx).trans ((hs.build _).mp hy).symm
    · exact ((hs.collection _).mp hx).trans ((hs.collection _).mp hy).symm
    · exact Option.some.inj (((hs.group _).mp hx).1.symm.trans ((hs.group _).mp hy).1)
    · exact Option.some.inj (((hs.locale _).mp hx).1.symm.trans ((hs.locale _).mp hy).1)
  · intro x hx
    obtain ⟨n, hn, hr⟩ := hg.release
    exact ⟨n, hn, ((hs.release x).mp hx).trans hr⟩
  · intro hx
    exact hg.collection ((hs.collection []).mp hx).symm
  · intro x hx
    exact needs_date hg ((hs.deps x).mp hx).2

/-- The sub-package a package of a port is. -/
theorem subOfName_full {name : Str} {sub : Option Str} (hn : '.' ∉ name) (hs : SubOk sub) : subOfName (fullName name sub) = sub := by
  unfold subOfName
  rw [C95_group_back name sub hn hs]
  cases sub with
  | none => exact if_pos rfl
  | some g =>
    have hg := (hs g rfl).1
    rw [if_neg]
    intro e
    have : '.' ∈ g := by
      rw [show g = name ++ '.' :: g from e]
      simp
    exact hg this

/-- **C96**: what a Pkgfile says of a package is what `cards` finds in the repository the package was published in, by `cards repo`. -/
theorem C96_read_back_partial (e : MetaEnv) (v : MetaVars) (sub : Option Str) (hn : '.' ∉ e.name) (hsub : SubOk sub)
    (ho : OneLine e v (fullName e.name sub)) (hg : MetaGood e v) (md : List Str) (h : metaLines e v (fullName e.name sub) = some md)
    (file hash sign : Str) (size : Nat)
    (init : RepoPkg) (cs : List (Coll × List Rec)) (hcs : ∀ x ∈ cs, x.1.repo = some (writeRepo x.2) ∧ x.1.name ≠ [] ∧ ∀ r ∈ x.2, RecOk r)
    (a b : List (Coll × Rec)) (c : Coll) (hall : allRecs cs = a ++ (c, ⟨file, md, hash, sign, size⟩) :: b)
    (hlast : ∀ x ∈ b, ¬ x.2.Has 'N' (fullName e.name sub)) :
    ∃ m p, parseRepo init (cs.map (·.1)) = some m ∧ mget m (fullName e.name sub) = some p ∧
      p.version = v.version ∧ dec p.release = v.release ∧ dec p.build = e.build ∧ p.arch = e.arch ∧ p.collection = e.collection ∧
      (sub = none → p.description = orDefault "none".toList v.description ∧ p.url = orDefault "none".toList v.url ∧
        p.license = orDefault "GPL".toList v.license ∧ p.packager = orDefault "none".toList v.packager ∧ p.group = [] ∧ p.nls = [] ∧ p.baseName = []) ∧
      (∀ g, sub = some g → p.baseName = e.name ∧ (g ∈ e.groups → p.group = g ∧ p.nls = []) ∧ (g ∉ e.groups → p.group = [] ∧ p.nls = g)) ∧
      (∀ x, x ∈ p.aliases ↔ ∃ y ∈ v.aliases, x = subAlias e.groups sub y) ∧
      (∀ x, x ∈ p.sets ↔ x ∈ v.sets) ∧ (∀ x, x ∈ p.conflicts ↔ x ∈ v.conflicts) ∧
      ∀ n t, 10 ^ 9 ≤ t → t < 10 ^ 10 → ((n, t) ∈ p.deps ↔ (e.ignoreDeps = false ∧ Needs e v (fullName e.name sub) (n ++ dec t)) ∧ 4 ≤ n.length) := by
  have hs := C96_meta_exact_partial e v _ ho md h
  obtain ⟨m, h1, h2, _⟩ := C26_roundtrip_partial init cs hcs
  obtain ⟨p, hp, d⟩ := h2 a c _ b hall (fullName e.name sub) ((hs.name _).mpr rfl) hlast
  have hso := subOfName_full hn hsub
  have vg : ∀ x, Rec.Has ⟨file, md, hash, sign, size⟩ 'g' x ↔ sub = some x ∧ x ∈ e.groups := by
    intro x
    refine (hs.group x).trans ?_
    rw [hso]
  have vn : ∀ x, Rec.Has ⟨file, md, hash, sign, size⟩ 'n' x ↔ sub = some x ∧ x ∉ e.groups := by
    intro x
    refine (hs.locale x).trans ?_
    rw [hso]
  refine ⟨m, p, h1, hp, d.version _ ((hs.version _).mpr rfl), ?_, ?_, d.arch _ ((hs.arch _).mpr rfl), d.collection _ ((hs.collection _).mpr rfl), ?_, ?_, ?_, ?_, ?_, ?_⟩
  · obtain ⟨n, hn, hr⟩ := hg.release
    rw [d.release n hn ((hs.release _).mpr hr.symm), hr]
  · obtain ⟨t, hb, t1, t2⟩ := hg.build
    rw [d.build t (by omega) (by omega) ((hs.build _).mpr hb.symm), hb]
  · rintro rfl
    refine ⟨d.description _ ((hs.description _).mpr ⟨hso, rfl⟩), d.url _ ((hs.url _).mpr ⟨hso, rfl⟩), d.license _ ((hs.license _).mpr ⟨hso, rfl⟩),
      d.packager _ ((hs.packager _).mpr ⟨hso, rfl⟩), ?_, ?_, ?_⟩
    · exact d.noGroup fun x hx => nomatch ((vg x).mp hx).1
    · exact d.noNls fun x hx => nomatch ((vn x).mp hx).1
    · exact d.noBase fun x => ⟨fun hx => (nomatch ((vg x).mp hx).1), fun hx => (nomatch ((vn x).mp hx).1)⟩
  · rintro g rfl
    refine ⟨d.base e.name g ⟨hs.first, ?_, ?_⟩, ?_, ?_⟩
    · by_cases hm : g ∈ e.groups
      · exact Or.inl ((vg g).mpr ⟨rfl, hm⟩)
      · exact Or.inr ((vn g).mpr ⟨rfl, hm⟩)
    · rintro x (hx | hx)
      · exact (Option.some.inj ((vg x).mp hx).1).symm
      · exact (Option.some.inj ((vn x).mp hx).1).symm
    · intro hm
      refine ⟨d.group g ((vg g).mpr ⟨rfl, hm⟩), d.noNls fun x hx => ?_⟩
      obtain ⟨e1, e2⟩ := (vn x).mp hx
      rw [← Option.some.inj e1] at e2
      exact e2 hm
    · intro hm
      refine ⟨d.noGroup fun x hx => ?_, d.nls g ((vn g).mpr ⟨rfl, hm⟩)⟩
      obtain ⟨e1, e2⟩ := (vg x).mp hx
      rw [← Option.some.inj e1] at e2
      exact hm e2
  · intro x
    rw [d.aliases]
    refine (hs.aliases x).trans ?_
    rw [hso]
  · intro x
    rw [d.sets]
    exact hs.sets x
  · intro x
    rw [d.conflicts]
    exact hs.conflicts x
  · intro n t t1 t2
    rw [d.deps n t t1 t2]
    exact and_congr_left fun _ => hs.deps _

/-! ## Examples -/

/-! ## When the package is refused -/

/-- A dependency from the Pkgfile that is not a package of the port itself. -/
inductive AsksFor (e : MetaEnv) (v : MetaVars) (full : Str) : Str → Prop
  | main (rd : Str) : full = e.name → rd ∈ v.runDeps → cutFirstField rd ≠ e.name → AsksFor e v full rd
  | group (g rd : Str) : subOfName full = some g → g ∈ e.groups → rd ∈ v.runOf g → AsksFor e v full rd
  | locale (g rd : Str) : subOfName full = some g → g ∉ e.groups → rd ∈ v.runOf [] → AsksFor e v full rd

theorem runLine_none {e : MetaEnv} {own : Bool} {rd : Str} :
    runLine e own rd = none ↔ ¬ (own = true ∧ cutFirstField rd = e.name) ∧ (e.buildOf rd = "0".toList ∨ e.buildOf rd = []) := by
  unfold runLine
  split
  · rename_i hc
    rw [Bool.and_eq_true, decide_eq_true_eq] at hc
    exact ⟨fun h => (by cases h), fun h => absurd hc h.1⟩
  · rename_i hc
    rw [Bool.and_eq_true, decide_eq_true_eq] at hc
    split
    · next h => exact ⟨fun _ => ⟨hc, h⟩, fun _ => rfl⟩
    · next h => exact ⟨fun h => (by cases h), fun h' => absurd h'.2 h⟩

theorem runLines_none {e : MetaEnv} {own : Bool} (rds : List Str) : runLines e own rds = none ↔ ∃ rd ∈ rds, runLine e own rd = none := by
  induction rds with
  | nil => exact ⟨fun h => (by cases h), fun ⟨_, h, _⟩ => (by cases h)⟩
  | cons rd rds ih =>
    rw [runLines]
    cases hr : runLine e own rd with
    | none => exact ⟨fun _ => ⟨rd, List.mem_cons_self .., hr⟩, fun _ => rfl⟩
    | some l =>
      simp only [Option.map_eq_none_iff, ih]
      constructor
      · rintro ⟨r, h1, h2⟩; exact ⟨r, List.mem_cons_of_mem _ h1, h2⟩
      · rintro ⟨r, h1, h2⟩
        rcases List.mem_cons.mp h1 with rfl | h1
        · rw [hr] at h2; cases h2
        · exact ⟨r, h1, h2⟩

/-- **C96, installed**: a package is refused exactly when a dependency asked for in the Pkgfile, not one of the port itself, is not installed. -/
theorem C96_refused (e : MetaEnv) (v : MetaVars) (full : Str) :
    metaLines e v full = none ↔ e.ignoreDeps = false ∧ ∃ rd, AsksFor e v full rd ∧ (e.buildOf rd = "0".toList ∨ e.buildOf rd = []) := by
  have hA : (if v.runDeps ≠ [] ∧ full = e.name then runLines e true v.runDeps else some []) = none ↔
      full = e.name ∧ ∃ rd ∈ v.runDeps, cutFirstField rd ≠ e.name ∧ (e.buildOf rd = "0".toList ∨ e.buildOf rd = []) := by
    split
    · next h =>
      rw [runLines_none]
      simp only [runLine_none, true_and]
      exact ⟨fun ⟨rd, h1, h2, h3⟩ => ⟨h.2, rd, h1, h2, h3⟩, fun ⟨_, rd, h1, h2, h3⟩ => ⟨rd, h1, h2, h3⟩⟩
    · next h =>
      refine ⟨fun h => (by cases h), fun ⟨h1, rd, h2, _⟩ => absurd ⟨?_, h1⟩ h⟩
      intro e; rw [e] at h2; cases h2
  have hB : (match subOfName full with
        | none => some []
        | some g => runLines e false (v.runOf (if e.groups.contains g then g else []))) = none ↔
      ∃ g, subOfName full = some g ∧ ∃ rd ∈ v.runOf (if e.groups.contains g then g else []), (e.buildOf rd = "0".toList ∨ e.buildOf rd = []) := by
    cases hs : subOfName full with
    | none => exact ⟨fun h => (by cases h), fun ⟨_, h, _⟩ => (by cases h)⟩
    | some g =>
      simp only [runLines_none, runLine_none]
      constructor
      · rintro ⟨rd, h1, -, h2⟩; exact ⟨g, rfl, rd, h1, h2⟩
      · rintro ⟨g', h0, rd, h1, h2⟩
        cases h0
        exact ⟨rd, h1, fun h => (by cases h.1), h2⟩
  unfold metaLines metaDeps
  rw [Option.map_eq_none_iff]
  cases hi : e.ignoreDeps with
  | true => rw [if_pos rfl]; exact ⟨fun h => (by cases h), fun h => absurd h.1 (by simp)⟩
  | false =>
    rw [if_neg (by simp)]
    have : ∀ (A : Option (List Str)) (B : Option (List Str)) (hd : List Str),
        (match A with | none => none | some a => (match B with | none => none | some b => some (hd ++ a ++ b))) = none ↔ A = none ∨ B = none := by
      intro A B hd
      cases A <;> cases B <;> simp
    refine (this _ _ _).trans ?_
    refine (or_congr hA hB).trans ?_
    constructor
    · rintro (⟨h1, rd, h2, h3, h4⟩ | ⟨g, hg, rd, h1, h2⟩)
      · exact ⟨rfl, rd, .main rd h1 h2 h3, h4⟩
      · refine ⟨rfl, rd, ?_, h2⟩
        by_cases hc : g ∈ e.groups
        · rw [if_pos (by simpa using hc)] at h1; exact .group g rd hg hc h1
        · rw [if_neg (by simpa using hc)] at h1; exact .locale g rd hg hc h1
    · rintro ⟨-, rd, h, h4⟩
      cases h with
      | main _ h1 h2 h3 => exact .inl ⟨h1, rd, h2, h3, h4⟩
      | group g _ hg hc h1 => exact .inr ⟨g, hg, rd, by rw [if_pos (by simpa using hc)]; exact h1, h4⟩
      | «locale» g _ hg hc h1 => exact .inr ⟨g, hg, rd, by rw [if_neg (by simpa using hc)]; exact h1, h4⟩

/-- A port with a development package. -/
def metaVars : MetaVars where
  version := "1.3".toList
  release := "2".toList
  description := "Compression".toList
  url := []
  contributors := []
  maintainer := []
  packager := "me".toList
  license := []
  runDeps := ["glibc".toList, "zlib.devel".toList]
  runOf := fun g => if g = "devel".toList then ["glibc.devel".toList] else []
  aliases := ["libz".toList]
  sets := []
  categories := ["base".toList]
  conflicts := []

/-- What is around it. -/
def metaEnv : MetaEnv where
  name := "zlib".toList
  groups := ["devel".toList]
  build := "1700000000".toList
  collection := "base".toList
  arch := "x86_64".toList
  space := "1234".toList
  runtimeDeps := ["gcc.devel1600000000".toList, "bash1600000000".toList]
  runtimeLibs := ["libc.so.6".toList]
  buildOf := fun p => if p = "glibc".toList ∨ p = "glibc.devel".toList then "1600000001".toList else "0".toList
  ignoreDeps := false
  ignoreLibs := false

example : metaLines metaEnv metaVars "zlib".toList = some (["Nzlib", "V1.3", "r2", "B1700000000", "S1234", "cbase", "ax86_64", "DCompression", "Unone", "Cnone", "Mnone",
    "Pme", "LGPL", "Rbash1600000000", "Rglibc1600000001", "Rzlib.devel1700000000", "llibc.so.6", "Alibz", "Tbase"].map (·.toList)) := by decide +kernel

example : metaLines metaEnv metaVars "zlib.devel".toList = some (["Nzlib.devel", "V1.3", "r2", "B1700000000", "S1234", "cbase", "ax86_64", "gdevel",
    "Rbash1600000000", "Rglibc.devel1600000001", "llibc.so.6", "Alibz.devel", "Tbase"].map (·.toList)) := by decide +kernel

/-- Without `glibc` there is no package. -/
example : metaLines { metaEnv with buildOf := fun _ => "0".toList } metaVars "zlib".toList = none ∧
    AsksFor { metaEnv with buildOf := fun _ => "0".toList } metaVars "zlib".toList "glibc".toList := ⟨by decide +kernel, .main _ rfl (by decide +kernel) (by decide +kernel)⟩

/-- The port meets the conditions, for the package of the group `devel`. -/
example : OneLine metaEnv metaVars (fullName metaEnv.name (some "devel".toList)) := by
  refine ⟨by decide, by decide, ?_⟩
  intro g hg
  rw [show subOfName (fullName metaEnv.name (some "devel".toList)) = some "devel".toList by decide +kernel] at hg
  cases hg
  decide

/-- … and so do its release and its dates. -/
example : MetaGood metaEnv metaVars := by
  refine ⟨⟨2, by decide, by decide +kernel⟩, by decide, ⟨1700000000, by decide +kernel, by decide, by decide⟩, ?_, ?_⟩
  · have key : ∀ rd, rd = "glibc".toList ∨ rd = "glibc.devel".toList → IsDate (metaEnv.buildOf rd) := by
      rintro rd (rfl | rfl) <;> exact ⟨1600000001, by decide +kernel, by decide, by decide⟩
    rintro rd (⟨h, hne⟩ | ⟨g, h⟩)
    · have h : rd ∈ ["glibc".toList, "zlib.devel".toList] := h
      simp only [List.mem_cons, List.not_mem_nil, or_false] at h
      rcases h with rfl | rfl
      · exact key _ (Or.inl rfl)
      · exact absurd (by decide +kernel) hne
    · have h : rd ∈ (if g = "devel".toList then ["glibc.devel".toList] else []) := h
      split at h
      · exact key _ (Or.inr (List.mem_singleton.mp h))
      · cases h
  intro x hx
  have hx : x ∈ ["gcc.devel1600000000".toList, "bash1600000000".toList] := hx
  simp only [List.mem_cons, List.not_mem_nil, or_false] at hx
  rcases hx with rfl | rfl
  · exact ⟨"gcc.devel".toList, "1600000000".toList, by decide +kernel, 1600000000, by decide +kernel, by decide, by decide⟩
  · exact ⟨"bash".toList, "1600000000".toList, by decide +kernel, 1600000000, by decide +kernel, by decide, by decide⟩

/-! ## Where it fails -/

/-- **C96, counterexample**: the end of a line in the description begins another field: the package says it is `evil`. -/
theorem C96_counterexample_line : ∃ md, metaLines metaEnv { metaVars with description := "Nice\nNevil".toList } "zlib".toList = some md ∧
    ('N' :: "evil".toList) ∈ md := by
  exact ⟨_, rfl, by decide +kernel⟩

/-- **C96, counterexample**: a development package among what the files need is left out of the dependencies, unless its name has a letter after a dash: of the two
only that of `xorg-libx11` is written. -/
theorem C96_counterexample_devel : ∃ md, metaLines { metaEnv with runtimeDeps := ["bash.devel1600000000".toList, "xorg-libx11.devel1600000000".toList] } metaVars
      "zlib".toList = some md ∧ ('R' :: "bash.devel1600000000".toList) ∉ md ∧ ('R' :: "xorg-libx11.devel1600000000".toList) ∈ md := by
  exact ⟨_, rfl, by decide +kernel, by decide +kernel⟩

/-- **C96, counterexample**: the packages of a language have the aliases of the main package. -/
theorem C96_counterexample_alias : ∃ md md', metaLines metaEnv metaVars "zlib".toList = some md ∧ metaLines metaEnv metaVars "zlib.fr".toList = some md' ∧
    ('A' :: "libz".toList) ∈ md ∧ ('A' :: "libz".toList) ∈ md' := by
  exact ⟨_, _, rfl, rfl, by decide +kernel, by decide +kernel⟩

end Cards.Props
