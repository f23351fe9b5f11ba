import Verif.Spec.Repo
import Verif.Props.LineFile
import Verif.Props.Numbers
import Mathlib.Tactic.Common
/-!
# C26 and C27: the repository metadata
-/
namespace Cards.Props
open Cards

theorem numText10_dec (n : Nat) : numText 10 (dec n) = some (false, n) := by
  have hd : ∃ d r, dec n = digitC d :: r ∧ d < 10 := by
    by_cases h : 0 < n
    · obtain ⟨d, r, h1, _, h3⟩ := dec_head n h; exact ⟨d, r, h1, h3⟩
    · have : n = 0 := by omega
      subst this; exact ⟨0, [], by rw [dec.eq_def]; rfl, by omega⟩
  obtain ⟨d, r, h1, h3⟩ := hd
  have hdig := digits_dec n
  have hk : ∀ d < 10, isSpaceC (digitC d) = false ∧ digitC d ≠ '-' ∧ digitC d ≠ '+' := by decide
  obtain ⟨k1, k2, k3⟩ := hk d h3
  rw [h1] at hdig ⊢
  simp [numText, numBody, k1, k2, k3, hexPrefix, hdig]

theorem stoi10_dec (n : Nat) (h : n < 2 ^ 31) : stoi10 (dec n) = some (n : Int) := by
  simp only [stoi10, numText10_dec]
  simp; omega

theorem atoi32_dec (n : Nat) (h : n < 2 ^ 31) : atoi32 (dec n) = (n : Int) := by
  simp only [atoi32, numText10_dec, wrap32]
  simp
  omega

theorem mem_dinsert {x y : Str × Nat} {l : List (Str × Nat)} : y ∈ dinsert x l ↔ y = x ∨ y ∈ l := by
  induction l with
  | nil => simp [dinsert]
  | cons z zs ih =>
    simp only [dinsert]
    split
    · rename_i h; subst h; simp
    · split
      · simp
      · simp [ih]; tauto

/-! ### The fields after a run of lines -/

theorem fold_absent {β : Type} (π : RepoSt → β) (c : Char)
    (h : ∀ (s : RepoSt) (p : Str), p.head? ≠ some c → π (s.field p) = π s) (ls : List Str) (s : RepoSt)
    (ha : ∀ l ∈ ls, l.head? ≠ some c) : π (ls.foldl RepoSt.field s) = π s := by
  induction ls generalizing s with
  | nil => rfl
  | cons l ls ih =>
    rw [List.foldl_cons, ih _ (fun x hx => ha x (by simp [hx])), h s l (ha l (by simp))]

theorem fold_single {β : Type} (π : RepoSt → β) (c : Char) (f : Str → β)
    (h : ∀ (s : RepoSt) (p : Str), p.head? ≠ some c → π (s.field p) = π s)
    (h' : ∀ (s : RepoSt) (v : Str), π (s.field (c :: v)) = f v) (ls : List Str) (s : RepoSt) (v : Str)
    (hm : (c :: v) ∈ ls) (hu : ∀ w, (c :: w) ∈ ls → w = v) : π (ls.foldl RepoSt.field s) = f v := by
  induction ls generalizing s with
  | nil => simp at hm
  | cons l ls ih =>
    rw [List.foldl_cons]
    by_cases hin : (c :: v) ∈ ls
    · exact ih _ hin (fun w hw => hu w (by simp [hw]))
    · have hl : l = c :: v := by
        rcases List.mem_cons.mp hm with e | e
        · exact e.symm
        · exact absurd e hin
      subst hl
      rw [fold_absent π c h, h']
      intro x hx hc
      obtain ⟨w, rfl⟩ : ∃ w, x = c :: w := by
        cases x with
        | nil => simp at hc
        | cons a w => simp at hc; exact ⟨w, by rw [hc]⟩
      have := hu w (by simp [hx])
      subst this
      exact hin hx

theorem fold_collect {β γ : Type} (π : RepoSt → List β) (g : Str → γ → Prop) (emb : γ → β)
    (h : ∀ (s : RepoSt) (p : Str) x, emb x ∈ π (s.field p) ↔ g p x ∨ emb x ∈ π s) (ls : List Str) (s : RepoSt) (x : γ) :
    emb x ∈ π (ls.foldl RepoSt.field s) ↔ (∃ p ∈ ls, g p x) ∨ emb x ∈ π s := by
  induction ls generalizing s with
  | nil => simp
  | cons l ls ih =>
    rw [List.foldl_cons, ih, h]
    constructor
    · rintro (⟨p, hp, hg⟩ | hg | hs)
      · exact .inl ⟨p, by simp [hp], hg⟩
      · exact .inl ⟨l, by simp, hg⟩
      · exact .inr hs
    · rintro (⟨p, hp, hg⟩ | hs)
      · rcases List.mem_cons.mp hp with rfl | hp
        · exact .inr (.inl hg)
        · exact .inl ⟨p, hp, hg⟩
      · exact .inr (.inr hs)

/-- Case distinction over the letter of a line. -/
theorem field_cases (s : RepoSt) (c : Char) (v : Str) (Q : RepoSt → Prop)
    (h0 : c = 'N' → Q ({ s with name := v }))
    (h1 : c = 'V' → Q ({ s with info := { s.info with version := v } }))
    (h2 : c = 'r' → Q ({ s with info := { s.info with release := (((stoi10 v).getD 0) % 65536).toNat } }))
    (h3 : c = 'S' → Q ({ s with info := { s.info with space := ((atoi32 v) % 2 ^ 32).toNat } }))
    (h4 : c = 'a' → Q ({ s with info := { s.info with arch := v } }))
    (h5 : c = 'D' → Q ({ s with info := { s.info with description := v } }))
    (h6 : c = 'U' → Q ({ s with info := { s.info with url := v } }))
    (h7 : c = 'C' → Q ({ s with info := { s.info with contributors := v } }))
    (h8 : c = 'M' → Q ({ s with info := { s.info with maintainer := v } }))
    (h9 : c = 'P' → Q ({ s with info := { s.info with packager := v } }))
    (h10 : c = 'L' → Q ({ s with info := { s.info with license := v } }))
    (h11 : c = 'B' → Q ({ s with info := { s.info with build := strtoul0 v } }))
    (h12 : c = 'c' → Q ({ s with info := { s.info with collection := v } }))
    (h13 : c = 'g' → Q ({ s with info := { s.info with group := v, baseName := if s.name.length < v.length + 1 then s.name else s.name.take (s.name.length - (v.length + 1)) } }))
    (h14 : c = 'n' → Q ({ s with info := { s.info with nls := v, baseName := if s.name.length < v.length + 1 then s.name else s.name.take (s.name.length - (v.length + 1)) } }))
    (h15 : c = 'R' → Q (if 14 < v.length + 1 then { s with deps := dinsert (v.take (v.length + 1 - 11), strtoul0 ((c :: v).drop (v.length + 1 - 10))) s.deps } else s))
    (h16 : c = 'A' → Q ({ s with aliases := sinsert v s.aliases }))
    (h17 : c = 's' → Q ({ s with sets := sinsert v s.sets }))
    (h18 : c = 'o' → Q ({ s with conflicts := sinsert v s.conflicts }))
    (h19 : c = 'H' → Q ({ s with info := { s.info with hash := v } }))
    (h20 : c = 'I' → Q ({ s with info := { s.info with signature := v } }))
    (h21 : c = 'i' → Q ({ s with info := { s.info with size := ((atoi32 v) % 2 ^ 64).toNat } }))
    (hx : Q s) : Q (s.field (c :: v)) := by
  unfold RepoSt.field
  exact iteInduction h0 fun _ => iteInduction h1 fun _ => iteInduction h2 fun _ => iteInduction h3 fun _ => iteInduction h4 fun _ => iteInduction h5 fun _ => iteInduction h6 fun _ => iteInduction h7 fun _ => iteInduction h8 fun _ => iteInduction h9 fun _ => iteInduction h10 fun _ => iteInduction h11 fun _ => iteInduction h12 fun _ => iteInduction h13 fun _ => iteInduction h14 fun _ => iteInduction h15 fun _ => iteInduction h16 fun _ => iteInduction h17 fun _ => iteInduction h18 fun _ => iteInduction h19 fun _ => iteInduction h20 fun _ => iteInduction h21 fun _ => hx

theorem fld_found (s : RepoSt) (p : Str) : (s.field p).found = s.found := by
  cases p with
  | nil => rfl
  | cons a v =>
    refine field_cases s a v (fun t => t.found = s.found) ?_ ?_ ?_ ?_ ?_ ?_ ?_ ?_ ?_ ?_ ?_ ?_ ?_ ?_ ?_ ?_ ?_ ?_ ?_ ?_ ?_ ?_ rfl <;> intro e <;>
      first | rfl | (split <;> rfl)
theorem fld_map (s : RepoSt) (p : Str) : (s.field p).map = s.map := by
  cases p with
  | nil => rfl
  | cons a v =>
    refine field_cases s a v (fun t => t.map = s.map) ?_ ?_ ?_ ?_ ?_ ?_ ?_ ?_ ?_ ?_ ?_ ?_ ?_ ?_ ?_ ?_ ?_ ?_ ?_ ?_ ?_ ?_ rfl <;> intro e <;>
      first | rfl | (split <;> rfl)
theorem fld_file (s : RepoSt) (p : Str) : (s.field p).info.fileName = s.info.fileName := by
  cases p with
  | nil => rfl
  | cons a v =>
    refine field_cases s a v (fun t => t.info.fileName = s.info.fileName) ?_ ?_ ?_ ?_ ?_ ?_ ?_ ?_ ?_ ?_ ?_ ?_ ?_ ?_ ?_ ?_ ?_ ?_ ?_ ?_ ?_ ?_ rfl <;> intro e <;>
      first | rfl | (split <;> rfl)
theorem fld_dir (s : RepoSt) (p : Str) : (s.field p).info.dirName = s.info.dirName := by
  cases p with
  | nil => rfl
  | cons a v =>
    refine field_cases s a v (fun t => t.info.dirName = s.info.dirName) ?_ ?_ ?_ ?_ ?_ ?_ ?_ ?_ ?_ ?_ ?_ ?_ ?_ ?_ ?_ ?_ ?_ ?_ ?_ ?_ ?_ ?_ rfl <;> intro e <;>
      first | rfl | (split <;> rfl)
theorem fld_origin (s : RepoSt) (p : Str) : (s.field p).info.origin = s.info.origin := by
  cases p with
  | nil => rfl
  | cons a v =>
    refine field_cases s a v (fun t => t.info.origin = s.info.origin) ?_ ?_ ?_ ?_ ?_ ?_ ?_ ?_ ?_ ?_ ?_ ?_ ?_ ?_ ?_ ?_ ?_ ?_ ?_ ?_ ?_ ?_ rfl <;> intro e <;>
      first | rfl | (split <;> rfl)

theorem fa_name : ∀ (s : RepoSt) (p : Str), p.head? ≠ some 'N' → (s.field p).name = s.name := by
  intro s p h
  cases p with
  | nil => rfl
  | cons a v =>
    simp only [List.head?_cons, ne_eq, Option.some.injEq] at h
    refine field_cases s a v (fun t => t.name = s.name) ?_ ?_ ?_ ?_ ?_ ?_ ?_ ?_ ?_ ?_ ?_ ?_ ?_ ?_ ?_ ?_ ?_ ?_ ?_ ?_ ?_ ?_ rfl <;> intro e <;>
      first | rfl | exact absurd e h | (split <;> rfl)
theorem fa_version : ∀ (s : RepoSt) (p : Str), p.head? ≠ some 'V' → (s.field p).info.version = s.info.version := by
  intro s p h
  cases p with
  | nil => rfl
  | cons a v =>
    simp only [List.head?_cons, ne_eq, Option.some.injEq] at h
    refine field_cases s a v (fun t => t.info.version = s.info.version) ?_ ?_ ?_ ?_ ?_ ?_ ?_ ?_ ?_ ?_ ?_ ?_ ?_ ?_ ?_ ?_ ?_ ?_ ?_ ?_ ?_ ?_ rfl <;> intro e <;>
      first | rfl | exact absurd e h | (split <;> rfl)
theorem fa_release : ∀ (s : RepoSt) (p : Str), p.head? ≠ some 'r' → (s.field p).info.release = s.info.release := by
  intro s p h
  cases p with
  | nil => rfl
  | cons a v =>
    simp only [List.head?_cons, ne_eq, Option.some.injEq] at h
    refine field_cases s a v (fun t => t.info.release = s.info.release) ?_ ?_ ?_ ?_ ?_ ?_ ?_ ?_ ?_ ?_ ?_ ?_ ?_ ?_ ?_ ?_ ?_ ?_ ?_ ?_ ?_ ?_ rfl <;> intro e <;>
      first | rfl | exact absurd e h | (split <;> rfl)
theorem fa_space : ∀ (s : RepoSt) (p : Str), p.head? ≠ some 'S' → (s.field p).info.space = s.info.space := by
  intro s p h
  cases p with
  | nil => rfl
  | cons a v =>
    simp only [List.head?_cons, ne_eq, Option.some.injEq] at h
    refine field_cases s a v (fun t => t.info.space = s.info.space) ?_ ?_ ?_ ?_ ?_ ?_ ?_ ?_ ?_ ?_ ?_ ?_ ?_ ?_ ?_ ?_ ?_ ?_ ?_ ?_ ?_ ?_ rfl <;> intro e <;>
      first | rfl | exact absurd e h | (split <;> rfl)
theorem fa_arch : ∀ (s : RepoSt) (p : Str), p.head? ≠ some 'a' → (s.field p).info.arch = s.info.arch := by
  intro s p h
  cases p with
  | nil => rfl
  | cons a v =>
    simp only [List.head?_cons, ne_eq, Option.some.injEq] at h
    refine field_cases s a v (fun t => t.info.arch = s.info.arch) ?_ ?_ ?_ ?_ ?_ ?_ ?_ ?_ ?_ ?_ ?_ ?_ ?_ ?_ ?_ ?_ ?_ ?_ ?_ ?_ ?_ ?_ rfl <;> intro e <;>
      first | rfl | exact absurd e h | (split <;> rfl)
theorem fa_description : ∀ (s : RepoSt) (p : Str), p.head? ≠ some 'D' → (s.field p).info.description = s.info.description := by
  intro s p h
  cases p with
  | nil => rfl
  | cons a v =>
    simp only [List.head?_cons, ne_eq, Option.some.injEq] at h
    refine field_cases s a v (fun t => t.info.description = s.info.description) ?_ ?_ ?_ ?_ ?_ ?_ ?_ ?_ ?_ ?_ ?_ ?_ ?_ ?_ ?_ ?_ ?_ ?_ ?_ ?_ ?_ ?_ rfl <;> intro e <;>
      first | rfl | exact absurd e h | (split <;> rfl)
theorem fa_url : ∀ (s : RepoSt) (p : Str), p.head? ≠ some 'U' → (s.field p).info.url = s.info.url := by
  intro s p h
  cases p with
  | nil => rfl
  | cons a v =>
    simp only [List.head?_cons, ne_eq, Option.some.injEq] at h
    refine field_cases s a v (fun t => t.info.url = s.info.url) ?_ ?_ ?_ ?_ ?_ ?_ ?_ ?_ ?_ ?_ ?_ ?_ ?_ ?_ ?_ ?_ ?_ ?_ ?_ ?_ ?_ ?_ rfl <;> intro e <;>
      first | rfl | exact absurd e h | (split <;> rfl)
theorem fa_contributors : ∀ (s : RepoSt) (p : Str), p.head? ≠ some 'C' → (s.field p).info.contributors = s.info.contributors := by
  intro s p h
  cases p with
  | nil => rfl
  | cons a v =>
    simp only [List.head?_cons, ne_eq, Option.some.injEq] at h
    refine field_cases s a v (fun t => t.info.contributors = s.info.contributors) ?_ ?_ ?_ ?_ ?_ ?_ ?_ ?_ ?_ ?_ ?_ ?_ ?_ ?_ ?_ ?_ ?_ ?_ ?_ ?_ ?_ ?_ rfl <;> intro e <;>
      first | rfl | exact absurd e h | (split <;> rfl)
theorem fa_maintainer : ∀ (s : RepoSt) (p : Str), p.head? ≠ some 'M' → (s.field p).info.maintainer = s.info.maintainer := by
  intro s p h
  cases p with
  | nil => rfl
  | cons a v =>
    simp only [List.head?_cons, ne_eq, Option.some.injEq] at h
    refine field_cases s a v (fun t => t.info.maintainer = s.info.maintainer) ?_ ?_ ?_ ?_ ?_ ?_ ?_ ?_ ?_ ?_ ?_ ?_ ?_ ?_ ?_ ?_ ?_ ?_ ?_ ?_ ?_ ?_ rfl <;> intro e <;>
      first | rfl | exact absurd e h | (split <;> rfl)
theorem fa_packager : ∀ (s : RepoSt) (p : Str), p.head? ≠ some 'P' → (s.field p).info.packager = s.info.packager := by
  intro s p h
  cases p with
  | nil => rfl
  | cons a v =>
    simp only [List.head?_cons, ne_eq, Option.some.injEq] at h
    refine field_cases s a v (fun t => t.info.packager = s.info.packager) ?_ ?_ ?_ ?_ ?_ ?_ ?_ ?_ ?_ ?_ ?_ ?_ ?_ ?_ ?_ ?_ ?_ ?_ ?_ ?_ ?_ ?_ rfl <;> intro e <;>
      first | rfl | exact absurd e h | (split <;> rfl)
theorem fa_license : ∀ (s : RepoSt) (p : Str), p.head? ≠ some 'L' → (s.field p).info.license = s.info.license := by
  intro s p h
  cases p with
  | nil => rfl
  | cons a v =>
    simp only [List.head?_cons, ne_eq, Option.some.injEq] at h
    refine field_cases s a v (fun t => t.info.license = s.info.license) ?_ ?_ ?_ ?_ ?_ ?_ ?_ ?_ ?_ ?_ ?_ ?_ ?_ ?_ ?_ ?_ ?_ ?_ ?_ ?_ ?_ ?_ rfl <;> intro e <;>
      first | rfl | exact absurd e h | (split <;> rfl)
theorem fa_build : ∀ (s : RepoSt) (p : Str), p.head? ≠ some 'B' → (s.field p).info.build = s.info.build := by
  intro s p h
  cases p with
  | nil => rfl
  | cons a v =>
    simp only [List.head?_cons, ne_eq, Option.some.injEq] at h
    refine field_cases s a v (fun t => t.info.build = s.info.build) ?_ ?_ ?_ ?_ ?_ ?_ ?_ ?_ ?_ ?_ ?_ ?_ ?_ ?_ ?_ ?_ ?_ ?_ ?_ ?_ ?_ ?_ rfl <;> intro e <;>
      first | rfl | exact absurd e h | (split <;> rfl)
theorem fa_collection : ∀ (s : RepoSt) (p : Str), p.head? ≠ some 'c' → (s.field p).info.collection = s.info.collection := by
  intro s p h
  cases p with
  | nil => rfl
  | cons a v =>
    simp only [List.head?_cons, ne_eq, Option.some.injEq] at h
    refine field_cases s a v (fun t => t.info.collection = s.info.collection) ?_ ?_ ?_ ?_ ?_ ?_ ?_ ?_ ?_ ?_ ?_ ?_ ?_ ?_ ?_ ?_ ?_ ?_ ?_ ?_ ?_ ?_ rfl <;> intro e <;>
      first | rfl | exact absurd e h | (split <;> rfl)
theorem fa_group : ∀ (s : RepoSt) (p : Str), p.head? ≠ some 'g' → (s.field p).info.group = s.info.group := by
  intro s p h
  cases p with
  | nil => rfl
  | cons a v =>
    simp only [List.head?_cons, ne_eq, Option.some.injEq] at h
    refine field_cases s a v (fun t => t.info.group = s.info.group) ?_ ?_ ?_ ?_ ?_ ?_ ?_ ?_ ?_ ?_ ?_ ?_ ?_ ?_ ?_ ?_ ?_ ?_ ?_ ?_ ?_ ?_ rfl <;> intro e <;>
      first | rfl | exact absurd e h | (split <;> rfl)
theorem fa_nls : ∀ (s : RepoSt) (p : Str), p.head? ≠ some 'n' → (s.field p).info.nls = s.info.nls := by
  intro s p h
  cases p with
  | nil => rfl
  | cons a v =>
    simp only [List.head?_cons, ne_eq, Option.some.injEq] at h
    refine field_cases s a v (fun t => t.info.nls = s.info.nls) ?_ ?_ ?_ ?_ ?_ ?_ ?_ ?_ ?_ ?_ ?_ ?_ ?_ ?_ ?_ ?_ ?_ ?_ ?_ ?_ ?_ ?_ rfl <;> intro e <;>
      first | rfl | exact absurd e h | (split <;> rfl)
theorem fa_hash : ∀ (s : RepoSt) (p : Str), p.head? ≠ some 'H' → (s.field p).info.hash = s.info.hash := by
  intro s p h
  cases p with
  | nil => rfl
  | cons a v =>
    simp only [List.head?_cons, ne_eq, Option.some.injEq] at h
    refine field_cases s a v (fun t => t.info.hash = s.info.hash) ?_ ?_ ?_ ?_ ?_ ?_ ?_ ?_ ?_ ?_ ?_ ?_ ?_ ?_ ?_ ?_ ?_ ?_ ?_ ?_ ?_ ?_ rfl <;> intro e <;>
      first | rfl | exact absurd e h | (split <;> rfl)
theorem fa_sign : ∀ (s : RepoSt) (p : Str), p.head? ≠ some 'I' → (s.field p).info.signature = s.info.signature := by
  intro s p h
  cases p with
  | nil => rfl
  | cons a v =>
    simp only [List.head?_cons, ne_eq, Option.some.injEq] at h
    refine field_cases s a v (fun t => t.info.signature = s.info.signature) ?_ ?_ ?_ ?_ ?_ ?_ ?_ ?_ ?_ ?_ ?_ ?_ ?_ ?_ ?_ ?_ ?_ ?_ ?_ ?_ ?_ ?_ rfl <;> intro e <;>
      first | rfl | exact absurd e h | (split <;> rfl)
theorem fa_size : ∀ (s : RepoSt) (p : Str), p.head? ≠ some 'i' → (s.field p).info.size = s.info.size := by
  intro s p h
  cases p with
  | nil => rfl
  | cons a v =>
    simp only [List.head?_cons, ne_eq, Option.some.injEq] at h
    refine field_cases s a v (fun t => t.info.size = s.info.size) ?_ ?_ ?_ ?_ ?_ ?_ ?_ ?_ ?_ ?_ ?_ ?_ ?_ ?_ ?_ ?_ ?_ ?_ ?_ ?_ ?_ ?_ rfl <;> intro e <;>
      first | rfl | exact absurd e h | (split <;> rfl)
theorem fa_sets : ∀ (s : RepoSt) (p : Str), p.head? ≠ some 's' → (s.field p).sets = s.sets := by
  intro s p h
  cases p with
  | nil => rfl
  | cons a v =>
    simp only [List.head?_cons, ne_eq, Option.some.injEq] at h
    refine field_cases s a v (fun t => t.sets = s.sets) ?_ ?_ ?_ ?_ ?_ ?_ ?_ ?_ ?_ ?_ ?_ ?_ ?_ ?_ ?_ ?_ ?_ ?_ ?_ ?_ ?_ ?_ rfl <;> intro e <;>
      first | rfl | exact absurd e h | (split <;> rfl)
theorem fa_aliases : ∀ (s : RepoSt) (p : Str), p.head? ≠ some 'A' → (s.field p).aliases = s.aliases := by
  intro s p h
  cases p with
  | nil => rfl
  | cons a v =>
    simp only [List.head?_cons, ne_eq, Option.some.injEq] at h
    refine field_cases s a v (fun t => t.aliases = s.aliases) ?_ ?_ ?_ ?_ ?_ ?_ ?_ ?_ ?_ ?_ ?_ ?_ ?_ ?_ ?_ ?_ ?_ ?_ ?_ ?_ ?_ ?_ rfl <;> intro e <;>
      first | rfl | exact absurd e h | (split <;> rfl)
theorem fa_conflicts : ∀ (s : RepoSt) (p : Str), p.head? ≠ some 'o' → (s.field p).conflicts = s.conflicts := by
  intro s p h
  cases p with
  | nil => rfl
  | cons a v =>
    simp only [List.head?_cons, ne_eq, Option.some.injEq] at h
    refine field_cases s a v (fun t => t.conflicts = s.conflicts) ?_ ?_ ?_ ?_ ?_ ?_ ?_ ?_ ?_ ?_ ?_ ?_ ?_ ?_ ?_ ?_ ?_ ?_ ?_ ?_ ?_ ?_ rfl <;> intro e <;>
      first | rfl | exact absurd e h | (split <;> rfl)
theorem fa_deps : ∀ (s : RepoSt) (p : Str), p.head? ≠ some 'R' → (s.field p).deps = s.deps := by
  intro s p h
  cases p with
  | nil => rfl
  | cons a v =>
    simp only [List.head?_cons, ne_eq, Option.some.injEq] at h
    refine field_cases s a v (fun t => t.deps = s.deps) ?_ ?_ ?_ ?_ ?_ ?_ ?_ ?_ ?_ ?_ ?_ ?_ ?_ ?_ ?_ ?_ ?_ ?_ ?_ ?_ ?_ ?_ rfl <;> intro e <;>
      first | rfl | exact absurd e h

/-! ### One record -/

theorem cutFirst_some_of_append (pat a b : Str) : (cutFirst pat (a ++ pat ++ b)).isSome := by
  induction a with
  | nil =>
    cases h : pat ++ b with
    | nil =>
      obtain ⟨rfl, rfl⟩ := List.append_eq_nil_iff.mp h
      simp [cutFirst]
    | cons c cs =>
      have hp : pat.isPrefixOf (c :: cs) = true := List.isPrefixOf_iff_prefix.mpr ⟨b, h⟩
      simp [h, cutFirst, hp]
  | cons c cs ih =>
    simp only [List.cons_append, cutFirst]
    split
    · rfl
    · cases h : cutFirst pat (cs ++ pat ++ b) with
      | none => rw [h] at ih; simp at ih
      | some x => simp

/-- The variables when the `@` line of a record has been read. -/
def recStart (s : RepoSt) (file : Str) : RepoSt :=
  { s with info := { s.info with fileName := file, group := [], nls := [], baseName := [] }, found := true }

/-- The field lines of a record. -/
def recFields (r : Rec) : List Str := r.md ++ ['H' :: r.hash, 'I' :: r.sign, 'i' :: itos r.size]

theorem foldl_found (ls : List Str) (s : RepoSt) : (ls.foldl RepoSt.field s).found = s.found := by
  induction ls generalizing s with
  | nil => rfl
  | cons l ls ih => rw [List.foldl_cons, ih, fld_found]
theorem foldl_map (ls : List Str) (s : RepoSt) : (ls.foldl RepoSt.field s).map = s.map := by
  induction ls generalizing s with
  | nil => rfl
  | cons l ls ih => rw [List.foldl_cons, ih, fld_map]
theorem foldl_file (ls : List Str) (s : RepoSt) : (ls.foldl RepoSt.field s).info.fileName = s.info.fileName := by
  induction ls generalizing s with
  | nil => rfl
  | cons l ls ih => rw [List.foldl_cons, ih, fld_file]
theorem foldl_dir (ls : List Str) (s : RepoSt) : (ls.foldl RepoSt.field s).info.dirName = s.info.dirName := by
  induction ls generalizing s with
  | nil => rfl
  | cons l ls ih => rw [List.foldl_cons, ih, fld_dir]
theorem foldl_origin (ls : List Str) (s : RepoSt) : (ls.foldl RepoSt.field s).info.origin = s.info.origin := by
  induction ls generalizing s with
  | nil => rfl
  | cons l ls ih => rw [List.foldl_cons, ih, fld_origin]

theorem foldlM_fields (ls : List Str) (s : RepoSt) (hf : s.found = true)
    (h : ∀ l ∈ ls, ∃ c v, l = c :: v ∧ c ≠ '@' ∧ (c = 'r' → ∃ n < 65536, v = dec n)) :
    ls.foldlM RepoSt.line s = some (ls.foldl RepoSt.field s) := by
  induction ls generalizing s with
  | nil => rfl
  | cons l ls ih =>
    obtain ⟨c, v, rfl, hc, hr⟩ := h l (by simp)
    have h1 : RepoSt.line s (c :: v) = some (s.field (c :: v)) := by
      unfold RepoSt.line
      simp only [List.head?_cons, Option.some.injEq, hc, if_false, List.cons_ne_nil, hf, if_true, List.drop_succ_cons, List.drop_zero]
      rw [if_neg]
      rintro ⟨e, hs⟩
      obtain ⟨n, hn, rfl⟩ := hr e
      rw [stoi10_dec n (by omega)] at hs
      simp at hs
    rw [List.foldlM_cons, h1]
    exact ih _ (by rw [fld_found, hf]) (fun x hx => h x (by simp [hx]))

theorem record_read (r : Rec) (hr : RecOk r) (s : RepoSt) :
    r.lines.foldlM RepoSt.line s = some ((recFields r).foldl RepoSt.field (recStart s r.file)).finish := by
  have hat : RepoSt.line s ('@' :: r.file) = some (recStart s r.file) := by
    unfold RepoSt.line recStart
    obtain ⟨a, b, hf⟩ := hr.file
    have : (cutFirst ".cards-".toList ('@' :: r.file)).isSome := by
      rw [hf]; exact cutFirst_some_of_append ".cards-".toList ('@' :: a) b
    rw [if_pos (by simp), if_pos this]
    rfl
  have hl : r.lines = ('@' :: r.file) :: (recFields r ++ [[]]) := by simp [Rec.lines, recFields]
  rw [hl, List.foldlM_cons, hat]
  show (recFields r ++ [[]]).foldlM RepoSt.line (recStart s r.file) = _
  rw [List.foldlM_append, foldlM_fields (recFields r) _ rfl]
  · rfl
  · intro l hl
    simp only [recFields, List.mem_append, List.mem_cons, List.not_mem_nil, or_false] at hl
    rcases hl with hl | rfl | rfl | rfl
    · obtain ⟨c, v, rfl, h1, _, _, _⟩ := hr.lines l hl
      exact ⟨c, v, rfl, h1, fun e => by subst e; exact hr.release v hl⟩
    · exact ⟨'H', _, rfl, by decide, fun e => absurd e (by decide)⟩
    · exact ⟨'I', _, rfl, by decide, fun e => absurd e (by decide)⟩
    · exact ⟨'i', _, rfl, by decide, fun e => absurd e (by decide)⟩

/-- A field the description has: the value after the fields are read. -/
theorem rec_single {β : Type} (r : Rec) (hr : RecOk r) (π : RepoSt → β) (c : Char) (f : Str → β)
    (hc : c ∈ singleFields)
    (h : ∀ (s : RepoSt) (p : Str), p.head? ≠ some c → π (s.field p) = π s)
    (h' : ∀ (s : RepoSt) (v : Str), π (s.field (c :: v)) = f v) (s : RepoSt) (v : Str) (hv : r.Has c v) :
    π ((recFields r).foldl RepoSt.field s) = f v := by
  have hcc : c ≠ 'H' ∧ c ≠ 'I' ∧ c ≠ 'i' := by
    have : ∀ c ∈ singleFields, c ≠ 'H' ∧ c ≠ 'I' ∧ c ≠ 'i' := by decide
    exact this c hc
  apply fold_single π c f h h'
  · exact List.mem_append_left _ hv
  · intro w hw
    simp only [recFields, List.mem_append, List.mem_cons, List.cons.injEq, List.not_mem_nil, or_false] at hw
    rcases hw with hw | ⟨e, _⟩ | ⟨e, _⟩ | ⟨e, _⟩
    · exact hr.single c hc w v hw hv
    · exact absurd e hcc.1
    · exact absurd e hcc.2.1
    · exact absurd e hcc.2.2

/-- A field the description does not have stays what it was. -/
theorem rec_absent {β : Type} (r : Rec) (π : RepoSt → β) (c : Char) (hcc : c ≠ 'H' ∧ c ≠ 'I' ∧ c ≠ 'i')
    (h : ∀ (s : RepoSt) (p : Str), p.head? ≠ some c → π (s.field p) = π s) (s : RepoSt) (hv : ∀ v, ¬ r.Has c v) :
    π ((recFields r).foldl RepoSt.field s) = π s := by
  apply fold_absent π c h
  intro l hl e
  simp only [recFields, List.mem_append, List.mem_cons, List.not_mem_nil, or_false] at hl
  rcases hl with hl | rfl | rfl | rfl
  · cases l with
    | nil => simp at e
    | cons a w => simp at e; subst e; exact hv w hl
  · simp at e; exact hcc.1 e.symm
  · simp at e; exact hcc.2.1 e.symm
  · simp at e; exact hcc.2.2 e.symm

/-- The letter occurs nowhere in the description. -/
theorem noHas (r : Rec) (hr : RecOk r) (c : Char) (hc : c = 'H' ∨ c = 'I' ∨ c = 'i') (v : Str) : ¬ r.Has c v := by
  intro h
  obtain ⟨d, w, e, _, h1, h2, h3⟩ := hr.lines _ h
  simp only [List.cons.injEq] at e
  obtain ⟨rfl, _⟩ := e
  rcases hc with rfl | rfl | rfl
  · exact h1 rfl
  · exact h2 rfl
  · exact h3 rfl

/-- A set-valued field after the fields are read. -/
theorem rec_set (r : Rec) (π : RepoSt → List Str) (c : Char) (hcc : c ≠ 'H' ∧ c ≠ 'I' ∧ c ≠ 'i')
    (h : ∀ (s : RepoSt) (p : Str), p.head? ≠ some c → π (s.field p) = π s)
    (h' : ∀ (s : RepoSt) (v : Str), π (s.field (c :: v)) = sinsert v (π s)) (s : RepoSt) (h0 : π s = []) (x : Str) :
    x ∈ π ((recFields r).foldl RepoSt.field s) ↔ r.Has c x := by
  have := fold_collect π (fun p x => p = c :: x) (fun x : Str => x) (by
    intro s p x
    by_cases hp : p.head? = some c
    · cases p with
      | nil => simp at hp
      | cons a w =>
        simp at hp; subst hp
        rw [h', mem_sinsert]
        simp [eq_comm]
    · rw [h s p hp]
      constructor
      · exact .inr
      · rintro (rfl | h)
        · simp at hp
        · exact h) (recFields r) s x
  rw [this, h0]
  simp only [List.not_mem_nil, or_false]
  constructor
  · rintro ⟨p, hp, rfl⟩
    simp only [recFields, List.mem_append, List.mem_cons, List.cons.injEq, List.not_mem_nil, or_false] at hp
    rcases hp with hp | ⟨e, _⟩ | ⟨e, _⟩ | ⟨e, _⟩
    · exact hp
    · exact absurd e hcc.1
    · exact absurd e hcc.2.1
    · exact absurd e hcc.2.2
  · intro h
    exact ⟨c :: x, List.mem_append_left _ h, rfl⟩

theorem fa_base : ∀ (s : RepoSt) (p : Str), p.head? ≠ some 'g' → p.head? ≠ some 'n' → (s.field p).info.baseName = s.info.baseName := by
  intro s p h h'
  cases p with
  | nil => rfl
  | cons a v =>
    simp only [List.head?_cons, ne_eq, Option.some.injEq] at h h'
    refine field_cases s a v (fun t => t.info.baseName = s.info.baseName) ?_ ?_ ?_ ?_ ?_ ?_ ?_ ?_ ?_ ?_ ?_ ?_ ?_ ?_ ?_ ?_ ?_ ?_ ?_ ?_ ?_ ?_ rfl <;> intro e <;>
      first | rfl | exact absurd e h | exact absurd e h' | (split <;> rfl)

theorem fa_base_hit (s : RepoSt) (c : Char) (b g : Str) (hc : c = 'g' ∨ c = 'n') (hn : s.name = b ++ '.' :: g) :
    (s.field (c :: g)).info.baseName = b := by
  have h1 : (s.field (c :: g)).info.baseName =
      if s.name.length < g.length + 1 then s.name else s.name.take (s.name.length - (g.length + 1)) := by
    rcases hc with rfl | rfl <;> rfl
  rw [h1, hn, if_neg (by simp)]
  have : (b ++ '.' :: g).length - (g.length + 1) = b.length := by simp
  rw [this]; simp

theorem fold_base (b g : Str) (ls : List Str) (s : RepoSt) (hn : s.name = b ++ '.' :: g) (h0 : s.info.baseName = b ∨ ∃ c, (c = 'g' ∨ c = 'n') ∧ (c :: g) ∈ ls)
    (h1 : ∀ v, ('N' :: v) ∈ ls → v = b ++ '.' :: g) (h2 : ∀ c v, c = 'g' ∨ c = 'n' → (c :: v) ∈ ls → v = g) :
    (ls.foldl RepoSt.field s).info.baseName = b := by
  induction ls generalizing s with
  | nil =>
    rcases h0 with h | ⟨c, _, h⟩
    · exact h
    · simp at h
  | cons l ls ih =>
    rw [List.foldl_cons]
    have hname : (s.field l).name = b ++ '.' :: g := by
      by_cases hN : l.head? = some 'N'
      · cases l with
        | nil => simp at hN
        | cons a v => simp at hN; subst hN; have := h1 v (by simp); subst this; rfl
      · rw [fa_name s l hN, hn]
    apply ih _ hname ?_ (fun v hv => h1 v (by simp [hv])) (fun c v hc hv => h2 c v hc (by simp [hv]))
    by_cases hg : ∃ c v, (c = 'g' ∨ c = 'n') ∧ l = c :: v
    · obtain ⟨c, v, hc, rfl⟩ := hg
      have := h2 c v hc (by simp); subst this
      exact Or.inl (fa_base_hit s c b _ hc hn)
    · have k1 : l.head? ≠ some 'g' := by
        intro e; cases l with
        | nil => simp at e
        | cons a v => simp at e; exact hg ⟨a, v, Or.inl e, rfl⟩
      have k2 : l.head? ≠ some 'n' := by
        intro e; cases l with
        | nil => simp at e
        | cons a v => simp at e; exact hg ⟨a, v, Or.inr e, rfl⟩
      rcases h0 with h | ⟨c, hc, h⟩
      · exact Or.inl (by rw [fa_base s l k1 k2, h])
      · rcases List.mem_cons.mp h with rfl | h
        · exact absurd ⟨c, g, hc, rfl⟩ hg
        · exact Or.inr ⟨c, hc, h⟩

theorem rec_base (r : Rec) (hr : RecOk r) (s : RepoSt) (b g : Str) (h : r.SubOf b g) : ((recFields r).foldl RepoSt.field s).info.baseName = b := by
  obtain ⟨⟨rest, hmd⟩, hsay, honce⟩ := h
  have hin : ∀ c v, c ≠ 'H' ∧ c ≠ 'I' ∧ c ≠ 'i' → (c :: v) ∈ recFields r → r.Has c v := by
    intro c v hcc hv
    simp only [recFields, List.mem_append, List.mem_cons, List.cons.injEq, List.not_mem_nil, or_false] at hv
    rcases hv with hv | ⟨e, _⟩ | ⟨e, _⟩ | ⟨e, _⟩
    · exact hv
    · exact absurd e hcc.1
    · exact absurd e hcc.2.1
    · exact absurd e hcc.2.2
  have hN : r.Has 'N' (b ++ '.' :: g) := by unfold Rec.Has; rw [hmd]; simp
  have hrf : recFields r = ('N' :: (b ++ '.' :: g)) :: (rest ++ ['H' :: r.hash, 'I' :: r.sign, 'i' :: itos r.size]) := by
    unfold recFields; rw [hmd]; rfl
  rw [hrf, List.foldl_cons]
  apply fold_base b g _ _ rfl
  · right
    rcases hsay with h | h
    · refine ⟨'g', Or.inl rfl, ?_⟩
      unfold Rec.Has at h; rw [hmd] at h
      rcases List.mem_cons.mp h with e | e
      · simp at e
      · exact List.mem_append_left _ e
    · refine ⟨'n', Or.inr rfl, ?_⟩
      unfold Rec.Has at h; rw [hmd] at h
      rcases List.mem_cons.mp h with e | e
      · simp at e
      · exact List.mem_append_left _ e
  · intro v hv
    exact hr.single 'N' (by decide) _ _ (hin 'N' v (by decide) (by rw [hrf]; exact List.mem_cons_of_mem _ hv)) hN
  · intro c v hc hv
    have := hin c v (by rcases hc with rfl | rfl <;> decide) (by rw [hrf]; exact List.mem_cons_of_mem _ hv)
    rcases hc with rfl | rfl
    · exact honce v (Or.inl this)
    · exact honce v (Or.inr this)

theorem rec_noBase (r : Rec) (s : RepoSt) (h0 : s.info.baseName = []) (h : ∀ v, ¬ r.Has 'g' v ∧ ¬ r.Has 'n' v) :
    ((recFields r).foldl RepoSt.field s).info.baseName = [] := by
  have key : ∀ (ls : List Str) (s : RepoSt), (∀ l ∈ ls, l.head? ≠ some 'g' ∧ l.head? ≠ some 'n') →
      (ls.foldl RepoSt.field s).info.baseName = s.info.baseName := by
    intro ls
    induction ls with
    | nil => intro s _; rfl
    | cons l ls ih =>
      intro s hl
      rw [List.foldl_cons, ih _ (fun x hx => hl x (by simp [hx])), fa_base s l (hl l (by simp)).1 (hl l (by simp)).2]
  rw [key, h0]
  intro l hl
  simp only [recFields, List.mem_append, List.mem_cons, List.not_mem_nil, or_false] at hl
  rcases hl with hl | rfl | rfl | rfl
  · cases l with
    | nil => simp
    | cons a w =>
      simp only [List.head?_cons, ne_eq, Option.some.injEq]
      refine ⟨?_, ?_⟩
      · rintro rfl; exact (h w).1 hl
      · rintro rfl; exact (h w).2 hl
  all_goals simp

theorem dec_ten {t : Nat} (h1 : 10 ^ 9 ≤ t) (h2 : t < 10 ^ 10) : (dec t).length = 10 := dec_length t 9 h2 (.inl h1)

theorem rec_deps (r : Rec) (hr : RecOk r) (s : RepoSt) (h0 : s.deps = []) (n : Str) (t : Nat) (h1 : 10 ^ 9 ≤ t) (h2 : t < 10 ^ 10) :
    (n, t) ∈ ((recFields r).foldl RepoSt.field s).deps ↔ r.Has 'R' (n ++ dec t) ∧ 4 ≤ n.length := by
  have hR : ∀ (s : RepoSt) (v : Str), (s.field ('R' :: v)).deps =
      if 14 < v.length + 1 then dinsert (v.take (v.length + 1 - 11), strtoul0 (('R' :: v).drop (v.length + 1 - 10))) s.deps else s.deps := by
    intro s v
    unfold RepoSt.field
    simp only [List.head?_cons, List.drop_succ_cons, List.drop_zero, List.length_cons]
    simp only [show ¬ ('R' = 'N') by decide, show ¬ ('R' = 'V') by decide, show ¬ ('R' = 'r') by decide, show ¬ ('R' = 'S') by decide,
      show ¬ ('R' = 'a') by decide, show ¬ ('R' = 'D') by decide, show ¬ ('R' = 'U') by decide, show ¬ ('R' = 'C') by decide,
      show ¬ ('R' = 'M') by decide, show ¬ ('R' = 'P') by decide, show ¬ ('R' = 'L') by decide, show ¬ ('R' = 'B') by decide,
      show ¬ ('R' = 'c') by decide, show ¬ ('R' = 'g') by decide, show ¬ ('R' = 'n') by decide, if_false, if_true]
    split <;> rfl
  have hval : ∀ (m : Str) (u : Nat), 10 ^ 9 ≤ u → u < 10 ^ 10 → 4 ≤ m.length →
      ((m ++ dec u).take ((m ++ dec u).length + 1 - 11), strtoul0 (('R' :: (m ++ dec u)).drop ((m ++ dec u).length + 1 - 10))) = (m, u) := by
    intro m u a b _
    have hl := dec_ten a b
    have e1 : (m ++ dec u).length + 1 - 11 = m.length := by simp [hl]
    have e2 : (m ++ dec u).length + 1 - 10 = m.length + 1 := by simp [hl]
    rw [e1, e2]
    simp [strtoul0_dec u (by omega) (by omega)]
  have := fold_collect RepoSt.deps (fun p (x : Str × Nat) => ∃ v, p = 'R' :: v ∧ 14 < v.length + 1 ∧
      x = (v.take (v.length + 1 - 11), strtoul0 (('R' :: v).drop (v.length + 1 - 10)))) (fun x : Str × Nat => x) (by
    intro s p x
    by_cases hp : p.head? = some 'R'
    · cases p with
      | nil => simp at hp
      | cons a w =>
        simp at hp; subst hp
        rw [hR]
        constructor
        · split
          · rename_i hlen
            intro h
            rcases mem_dinsert.mp h with h | h
            · exact .inl ⟨w, rfl, hlen, h⟩
            · exact .inr h
          · exact .inr
        · rintro (⟨v, e, hlen, rfl⟩ | h)
          · simp only [List.cons.injEq, true_and] at e
            subst e
            rw [if_pos hlen]; exact mem_dinsert.mpr (.inl rfl)
          · split
            · exact mem_dinsert.mpr (.inr h)
            · exact h
    · rw [fa_deps s p hp]
      constructor
      · exact .inr
      · rintro (⟨v, rfl, _⟩ | h)
        · simp at hp
        · exact h) (recFields r) s (n, t)
  rw [this, h0]
  simp only [List.not_mem_nil, or_false]
  constructor
  · rintro ⟨p, hp, v, rfl, hlen, e⟩
    have hv : r.Has 'R' v := by
      simp only [recFields, List.mem_append, List.mem_cons, List.cons.injEq, List.not_mem_nil, or_false] at hp
      rcases hp with hp | ⟨e, _⟩ | ⟨e, _⟩ | ⟨e, _⟩
      · exact hp
      · exact absurd e (by decide)
      · exact absurd e (by decide)
      · exact absurd e (by decide)
    obtain ⟨m, u, rfl, a, b⟩ := hr.deps v hv
    have hl := dec_ten a b
    have hm : 4 ≤ m.length := by simp only [List.length_append, hl] at hlen; omega
    rw [hval m u a b hm] at e
    simp only [Prod.mk.injEq] at e
    obtain ⟨rfl, rfl⟩ := e
    exact ⟨hv, hm⟩
  · rintro ⟨hv, hn⟩
    refine ⟨_, List.mem_append_left _ hv, n ++ dec t, rfl, ?_, ?_⟩
    · simp only [List.length_append, dec_ten h1 h2]; omega
    · rw [hval n t h1 h2 hn]

/-! ### What one record leaves behind -/

/-- The entry stored for a record, when the collection is not empty. -/
theorem finish_map (t : RepoSt) (h : t.info.collection ≠ []) :
    t.finish.map = mset t.name { t.info with aliases := t.aliases, sets := t.sets, conflicts := t.conflicts, deps := t.deps } t.map := by
  unfold RepoSt.finish
  simp only [h, false_and, if_false]

/-- The state between two records. -/
structure Between (c : Coll) (s : RepoSt) : Prop where
  dir : s.info.dirName = c.dir ++ '/' :: c.name
  origin : s.info.origin = c.origin
  coll : s.info.collection ≠ []
  aliases : s.aliases = []
  sets : s.sets = []
  conflicts : s.conflicts = []
  deps : s.deps = []

theorem record_step (c : Coll) (r : Rec) (hr : RecOk r) (s : RepoSt) (hs : Between c s) (n : Str) (hn : r.Has 'N' n) :
    ∃ s' p, r.lines.foldlM RepoSt.line s = some s' ∧ Between c s' ∧ Describes p r c ∧ s'.map = mset n p s.map := by
  set t := (recFields r).foldl RepoSt.field (recStart s r.file) with ht
  have hcoll : t.info.collection ≠ [] := by
    by_cases h : ∃ v, r.Has 'c' v
    · obtain ⟨v, hv⟩ := h
      have := rec_single r hr (fun s => s.info.collection) 'c' id (by decide) fa_collection (fun s v => rfl) (recStart s r.file) v hv
      simp only [id] at this
      rw [ht, this]
      rintro rfl
      exact hr.collection hv
    · push Not at h
      have := rec_absent r (fun s => s.info.collection) 'c' (by decide) fa_collection (recStart s r.file) h
      rw [ht, this]
      exact hs.coll
  have hname : t.name = n := rec_single r hr RepoSt.name 'N' id (by decide) fa_name (fun s v => rfl) (recStart s r.file) n hn
  have hmap : t.map = s.map := foldl_map _ _
  refine ⟨t.finish, { t.info with aliases := t.aliases, sets := t.sets, conflicts := t.conflicts, deps := t.deps }, record_read r hr s, ?_, ?_, ?_⟩
  · have hd : t.finish.info.dirName = t.info.dirName ∧ t.finish.info.origin = t.info.origin ∧ t.finish.info.collection = t.info.collection := by
      unfold RepoSt.finish
      simp [hcoll]
    exact {
      dir := by rw [hd.1, foldl_dir]; exact hs.dir
      origin := by rw [hd.2.1, foldl_origin]; exact hs.origin
      coll := by rw [hd.2.2]; exact hcoll
      aliases := by unfold RepoSt.finish; rfl
      sets := by unfold RepoSt.finish; rfl
      conflicts := by unfold RepoSt.finish; rfl
      deps := by unfold RepoSt.finish; rfl }
  · exact {
      file := foldl_file _ _
      dir := by show t.info.dirName = _; rw [foldl_dir]; exact hs.dir
      origin := by show t.info.origin = _; rw [foldl_origin]; exact hs.origin
      version := fun v hv => rec_single r hr (fun s => s.info.version) 'V' id (by decide) fa_version (fun s v => rfl) _ v hv
      release := fun k hk hv => by
        have := rec_single r hr (fun s => s.info.release) 'r' (fun v => (((stoi10 v).getD 0) % 65536).toNat) (by decide) fa_release
          (fun s v => rfl) (recStart s r.file) (dec k) hv
        rw [stoi10_dec k (by omega)] at this
        refine this.trans ?_
        simp only [Option.getD_some]; omega
      space := fun k hk hv => by
        have := rec_single r hr (fun s => s.info.space) 'S' (fun v => ((atoi32 v) % 2 ^ 32).toNat) (by decide) fa_space
          (fun s v => rfl) (recStart s r.file) (dec k) hv
        rw [atoi32_dec k hk] at this
        refine this.trans ?_
        omega
      arch := fun v hv => rec_single r hr (fun s => s.info.arch) 'a' id (by decide) fa_arch (fun s v => rfl) _ v hv
      description := fun v hv => rec_single r hr (fun s => s.info.description) 'D' id (by decide) fa_description (fun s v => rfl) _ v hv
      url := fun v hv => rec_single r hr (fun s => s.info.url) 'U' id (by decide) fa_url (fun s v => rfl) _ v hv
      contributors := fun v hv => rec_single r hr (fun s => s.info.contributors) 'C' id (by decide) fa_contributors (fun s v => rfl) _ v hv
      maintainer := fun v hv => rec_single r hr (fun s => s.info.maintainer) 'M' id (by decide) fa_maintainer (fun s v => rfl) _ v hv
      packager := fun v hv => rec_single r hr (fun s => s.info.packager) 'P' id (by decide) fa_packager (fun s v => rfl) _ v hv
      license := fun v hv => rec_single r hr (fun s => s.info.license) 'L' id (by decide) fa_license (fun s v => rfl) _ v hv
      build := fun k h0 hk hv => by
        have := rec_single r hr (fun s => s.info.build) 'B' strtoul0 (by decide) fa_build
          (fun s v => rfl) (recStart s r.file) (dec k) hv
        rw [strtoul0_dec k h0 hk] at this
        exact this
      collection := fun v hv => rec_single r hr (fun s => s.info.collection) 'c' id (by decide) fa_collection (fun s v => rfl) _ v hv
      hash := fold_single (fun s => s.info.hash) 'H' id fa_hash (fun s v => rfl) _ _ r.hash (by simp [recFields]) (by
        intro w hw
        simp only [recFields, List.mem_append, List.mem_cons, List.cons.injEq, List.not_mem_nil, or_false] at hw
        rcases hw with hw | ⟨_, e⟩ | ⟨e, _⟩ | ⟨e, _⟩
        · exact absurd hw (noHas r hr 'H' (by simp) w)
        · exact e
        · exact absurd e (by decide)
        · exact absurd e (by decide))
      signature := fold_single (fun s => s.info.signature) 'I' id fa_sign (fun s v => rfl) _ _ r.sign (by simp [recFields]) (by
        intro w hw
        simp only [recFields, List.mem_append, List.mem_cons, List.cons.injEq, List.not_mem_nil, or_false] at hw
        rcases hw with hw | ⟨e, _⟩ | ⟨_, e⟩ | ⟨e, _⟩
        · exact absurd hw (noHas r hr 'I' (by simp) w)
        · exact absurd e (by decide)
        · exact e
        · exact absurd e (by decide))
      size := fun hz => by
        have := fold_single (fun s => s.info.size) 'i' (fun v => ((atoi32 v) % 2 ^ 64).toNat) fa_size (fun s v => rfl) (recFields r)
          (recStart s r.file) (itos r.size) (by simp [recFields]) (by
          intro w hw
          simp only [recFields, List.mem_append, List.mem_cons, List.cons.injEq, List.not_mem_nil, or_false] at hw
          rcases hw with hw | ⟨e, _⟩ | ⟨e, _⟩ | ⟨_, e⟩
          · exact absurd hw (noHas r hr 'i' (by simp) w)
          · exact absurd e (by decide)
          · exact absurd e (by decide)
          · exact e)
        have he : itos r.size = dec r.size := by unfold itos; rw [Nat.mod_eq_of_lt (by omega)]
        rw [he, atoi32_dec r.size hz] at this
        refine this.trans ?_
        omega
      group := fun v hv => rec_single r hr (fun s => s.info.group) 'g' id (by decide) fa_group (fun s v => rfl) _ v hv
      noGroup := fun h => rec_absent r (fun s => s.info.group) 'g' (by decide) fa_group (recStart s r.file) h
      nls := fun v hv => rec_single r hr (fun s => s.info.nls) 'n' id (by decide) fa_nls (fun s v => rfl) _ v hv
      noNls := fun h => rec_absent r (fun s => s.info.nls) 'n' (by decide) fa_nls (recStart s r.file) h
      sets := rec_set r RepoSt.sets 's' (by decide) fa_sets (fun s v => rfl) _ hs.sets
      aliases := rec_set r RepoSt.aliases 'A' (by decide) fa_aliases (fun s v => rfl) _ hs.aliases
      conflicts := rec_set r RepoSt.conflicts 'o' (by decide) fa_conflicts (fun s v => rfl) _ hs.conflicts
      base := fun b g h => rec_base r hr (recStart s r.file) b g h
      noBase := fun h => rec_noBase r (recStart s r.file) rfl h
      deps := fun n t h1 h2 => rec_deps r hr (recStart s r.file) hs.deps n t h1 h2 }
  · rw [finish_map t hcoll, hname, hmap]

/-! ### All collections -/

/-- All package files of all collections, in the order of the configuration and of the files. -/
def allRecs (cs : List (Coll × List Rec)) : List (Coll × Rec) := cs.flatMap (fun p => p.2.map (fun r => (p.1, r)))

/-- The map agrees with the records read so far: each name has the description of the last record with that name. -/
def RepoInv (done : List (Coll × Rec)) (m : List (Str × RepoPkg)) : Prop :=
  (∀ a c r b, done = a ++ (c, r) :: b → ∀ n, r.Has 'N' n → (∀ x ∈ b, ¬ x.2.Has 'N' n) → ∃ p, mget m n = some p ∧ Describes p r c) ∧
  (∀ k, k ∈ keys m ↔ ∃ x ∈ done, x.2.Has 'N' k)

theorem repoInv_step {done : List (Coll × Rec)} {m : List (Str × RepoPkg)} (h : RepoInv done m) (c0 : Coll) (r0 : Rec) (hr : RecOk r0)
    (n0 : Str) (hn0 : r0.Has 'N' n0) (p0 : RepoPkg) (hp0 : Describes p0 r0 c0) : RepoInv (done ++ [(c0, r0)]) (mset n0 p0 m) := by
  constructor
  · intro a c r b e n hn hb
    rcases List.eq_nil_or_concat b with rfl | ⟨b', x, rfl⟩
    · have e' : done ++ [(c0, r0)] = a ++ [(c, r)] := e
      obtain ⟨rfl, e2⟩ := List.append_inj' e' rfl
      simp only [List.cons.injEq, Prod.mk.injEq, and_true] at e2
      obtain ⟨rfl, rfl⟩ := e2
      have : n = n0 := hr.single 'N' (by decide) n n0 hn hn0
      subst this
      exact ⟨p0, by simp [mget_mset], hp0⟩
    · have e' : done ++ [(c0, r0)] = (a ++ (c, r) :: b') ++ [x] := by simpa using e
      obtain ⟨rfl, e2⟩ := List.append_inj' e' rfl
      simp only [List.cons.injEq, and_true] at e2
      subst e2
      have hne : n0 ≠ n := by rintro rfl; exact hb (c0, r0) (by simp) hn0
      obtain ⟨p, h1, h2⟩ := h.1 a c r b' rfl n hn (fun y hy => hb y (by simp [hy]))
      exact ⟨p, by rw [mget_mset, if_neg hne, h1], h2⟩
  · intro k
    rw [mem_keys_mset, h.2]
    constructor
    · rintro (rfl | ⟨x, hx, hk⟩)
      · exact ⟨(c0, r0), by simp, hn0⟩
      · exact ⟨x, by simp [hx], hk⟩
    · rintro ⟨x, hx, hk⟩
      simp only [List.mem_append, List.mem_singleton] at hx
      rcases hx with hx | rfl
      · exact .inr ⟨x, hx, hk⟩
      · exact .inl (hr.single 'N' (by decide) k n0 hk hn0)

theorem records_read (c : Coll) (rs : List Rec) (hr : ∀ r ∈ rs, RecOk r) (done : List (Coll × Rec)) (s : RepoSt) (hs : Between c s)
    (hm : RepoInv done s.map) :
    ∃ s', (writeRepo rs).foldlM RepoSt.line s = some s' ∧ Between c s' ∧ RepoInv (done ++ rs.map (fun r => (c, r))) s'.map := by
  induction rs generalizing s done with
  | nil => exact ⟨s, rfl, hs, by simpa using hm⟩
  | cons r rs ih =>
    obtain ⟨n, hn⟩ := (hr r (by simp)).name
    obtain ⟨s1, p, h1, h2, h3, h4⟩ := record_step c r (hr r (by simp)) s hs n hn
    obtain ⟨s2, k1, k2, k3⟩ := ih (fun x hx => hr x (by simp [hx])) (done ++ [(c, r)]) s1 h2
      (by rw [h4]; exact repoInv_step hm c r (hr r (by simp)) n hn p h3)
    refine ⟨s2, ?_, k2, by simpa using k3⟩
    simp only [writeRepo, List.flatMap_cons, List.foldlM_append]
    rw [h1]
    exact k1

theorem colls_read (cs : List (Coll × List Rec)) (h : ∀ x ∈ cs, x.1.repo = some (writeRepo x.2) ∧ x.1.name ≠ [] ∧ ∀ r ∈ x.2, RecOk r)
    (done : List (Coll × Rec)) (st : RepoPkg × List (Str × RepoPkg)) (hm : RepoInv done st.2) :
    ∃ st', (cs.map (·.1)).foldlM readColl st = some st' ∧ RepoInv (done ++ allRecs cs) st'.2 := by
  induction cs generalizing done st with
  | nil => exact ⟨st, rfl, by simpa [allRecs] using hm⟩
  | cons x cs ih =>
    obtain ⟨h1, h2, h3⟩ := h x (by simp)
    obtain ⟨s', k1, k2, k3⟩ := records_read x.1 x.2 h3 done
      { info := { st.1 with dirName := x.1.dir ++ '/' :: x.1.name, collection := x.1.name, origin := x.1.origin }, name := [], found := false,
        aliases := [], sets := [], conflicts := [], deps := [], map := st.2 }
      ⟨rfl, rfl, h2, rfl, rfl, rfl, rfl⟩ hm
    have hc : readColl st x.1 = some (s'.info, s'.map) := by
      unfold readColl
      simp only [h1]
      rw [k1]
    obtain ⟨st2, j1, j2⟩ := ih (fun y hy => h y (by simp [hy])) _ (s'.info, s'.map) k3
    refine ⟨st2, ?_, ?_⟩
    · rw [List.map_cons, List.foldlM_cons, hc]; exact j1
    · simpa [allRecs] using j2

/-- **C26** (part: see the note). Whatever package files the collections hold, reading back what `cards repo` wrote succeeds, knows exactly the packages that
were written, and for each name says what the (last) package file of that name says: every field its description has, and exactly its sets, aliases,
conflicts and dependencies on packages with a name of at least four characters. Missing: fields the description does not have, and short names (both
are false, see below). -/
theorem C26_roundtrip_partial (init : RepoPkg) (cs : List (Coll × List Rec))
    (h : ∀ x ∈ cs, x.1.repo = some (writeRepo x.2) ∧ x.1.name ≠ [] ∧ ∀ r ∈ x.2, RecOk r) :
    ∃ m, parseRepo init (cs.map (·.1)) = some m ∧
      (∀ a c r b, allRecs cs = a ++ (c, r) :: b → ∀ n, r.Has 'N' n → (∀ x ∈ b, ¬ x.2.Has 'N' n) →
        ∃ p, mget m n = some p ∧ Describes p r c) ∧
      (∀ k, k ∈ keys m ↔ ∃ x ∈ allRecs cs, x.2.Has 'N' k) := by
  obtain ⟨st, h1, h2⟩ := colls_read cs h [] (init, []) ⟨by simp, by simp [keys]⟩
  refine ⟨st.2, ?_, ?_⟩
  · unfold parseRepo; rw [h1]; rfl
  · simpa [RepoInv] using h2

/-- The bytes `cards repo` writes are read back as the same lines, when the lines are short enough. -/
theorem C26_bytes_partial (rs : List Rec) (h : ∀ l ∈ writeRepo rs, '\n' ∉ l ∧ '\x00' ∉ l ∧ l.length ≤ 8190) :
    parseFile (writeList (writeRepo rs)) = some (writeRepo rs) := C34_reads_exactly_partial _ h

/-! ### A concrete repository -/

/-- A package with everything. -/
def rZlib : Rec :=
  { file := "zlib.cards-1700000000-x86_64-1.3-2".toList
    md := ["Nzlib".toList, "V1.3".toList, "r2".toList, "B1700000000".toList, "S400".toList, "cbase".toList, "ax86_64".toList, "Dcompression".toList,
      "Uhttps://zlib.net".toList, "C".toList, "Mtnut".toList, "Pptnut".toList, "Lzlib".toList, "Rglibc1600000000".toList, "slibs".toList]
    hash := "ab01".toList, sign := "ff00".toList, size := 123 }

/-- The description of the sub-package `zstd.ca` (which sorts before `zstd`), as pkgmk writes it: no description, url, maintainer... -/
def rSub : Rec :=
  { file := "zstd.ca.cards-1700000001-x86_64-3.0-1".toList
    md := ["Nzstd.ca".toList, "V3.0".toList, "r1".toList, "B1700000001".toList, "S10".toList, "cbase".toList, "ax86_64".toList, "gca".toList]
    hash := "ab02".toList, sign := "ff01".toList, size := 9 }

/-- A package that depends on one with a short name. -/
def rGit : Rec :=
  { file := "cgit.cards-1700000000-x86_64-1-1".toList
    md := ["Ncgit".toList, "V1".toList, "r1".toList, "ccli".toList, "Rgit1600000000".toList, "Rzlib1700000000".toList]
    hash := [], sign := [], size := 1 }

/-- The collection of the examples. -/
def xColl (rs : List Rec) : Coll := { dir := "/var/lib/pkg/depot".toList, name := "base".toList, origin := "http://nutyx".toList, repo := some (writeRepo rs) }

theorem xColl_spec (rs : List Rec) : (xColl rs).repo = some (writeRepo rs) ∧ (xColl rs).name ≠ [] := ⟨rfl, (by decide : "base".toList ≠ ([] : Str))⟩

attribute [irreducible] xColl

theorem decLit : dec 1700000000 = "1700000000".toList ∧ dec 1600000000 = "1600000000".toList ∧ dec 2 = "2".toList ∧ dec 1 = "1".toList := by
  have h1 : dec 1700000000 = "1700000000".toList := by repeat (rw [dec.eq_def]; simp [digitC])
  have h2 : dec 1600000000 = "1600000000".toList := by repeat (rw [dec.eq_def]; simp [digitC])
  have h3 : dec 2 = "2".toList := by rw [dec.eq_def]; rfl
  have h4 : dec 1 = "1".toList := by rw [dec.eq_def]; rfl
  exact ⟨h1, h2, h3, h4⟩

/-- `itos` of the sizes used in the examples. -/
theorem itosLit : itos 123 = "123".toList ∧ itos 9 = "9".toList ∧ itos 1 = "1".toList := by
  refine ⟨?_, ?_, ?_⟩ <;> (unfold itos; repeat (rw [dec.eq_def]; simp [digitC]))

/-- The first condition of `RecOk` from something `decide` can check. -/
theorem lines_ok_of (md : List Str)
    (h : ∀ l ∈ md, l.head? ≠ none ∧ l.head? ≠ some '@' ∧ l.head? ≠ some 'H' ∧ l.head? ≠ some 'I' ∧ l.head? ≠ some 'i') :
    ∀ l ∈ md, ∃ c v, l = c :: v ∧ c ≠ '@' ∧ c ≠ 'H' ∧ c ≠ 'I' ∧ c ≠ 'i' := by
  intro l hl
  obtain ⟨h0, h1, h2, h3, h4⟩ := h l hl
  cases l with
  | nil => simp at h0
  | cons c v => exact ⟨c, v, rfl, by simpa using h1, by simpa using h2, by simpa using h3, by simpa using h4⟩

theorem rZlib_ok : RecOk rZlib where
  lines := by
    exact lines_ok_of _ (by decide)
  file := ⟨"zlib".toList, "1700000000-x86_64-1.3-2".toList, by decide⟩
  name := ⟨"zlib".toList, by unfold Rec.Has; decide⟩
  single := by
    intro c hc v w hv hw
    have : ∀ l ∈ rZlib.md, ∀ l' ∈ rZlib.md, l.head? = l'.head? → l = l' := by decide
    have := this _ hv _ hw rfl
    exact (List.cons.inj this).2
  release := by
    intro v hv
    have : v = "2".toList := by
      have : ∀ l ∈ rZlib.md, l.head? = some 'r' → l = "r2".toList := by decide
      have := this _ hv rfl
      exact (List.cons.inj this).2
    exact ⟨2, by omega, by rw [this, decLit.2.2.1]⟩
  collection := by unfold Rec.Has; decide
  deps := by
    intro v hv
    have : v = "glibc1600000000".toList := by
      have : ∀ l ∈ rZlib.md, l.head? = some 'R' → l = "Rglibc1600000000".toList := by decide
      have := this _ hv rfl
      exact (List.cons.inj this).2
    exact ⟨"glibc".toList, 1600000000, by rw [this, decLit.2.1]; rfl, by omega, by omega⟩

theorem rSub_ok : RecOk rSub where
  lines := by
    exact lines_ok_of _ (by decide)
  file := ⟨"zstd.ca".toList, "1700000001-x86_64-3.0-1".toList, by decide⟩
  name := ⟨"zstd.ca".toList, by unfold Rec.Has; decide⟩
  single := by
    intro c hc v w hv hw
    have : ∀ l ∈ rSub.md, ∀ l' ∈ rSub.md, l.head? = l'.head? → l = l' := by decide
    have := this _ hv _ hw rfl
    exact (List.cons.inj this).2
  release := by
    intro v hv
    have : v = "1".toList := by
      have : ∀ l ∈ rSub.md, l.head? = some 'r' → l = "r1".toList := by decide
      have := this _ hv rfl
      exact (List.cons.inj this).2
    exact ⟨1, by omega, by rw [this, decLit.2.2.2]⟩
  collection := by unfold Rec.Has; decide
  deps := by
    intro v hv
    exact absurd hv (by
      have : ∀ l ∈ rSub.md, l.head? ≠ some 'R' := by decide
      exact fun h => this _ h rfl)

/-- The hypotheses of `C26_roundtrip_partial` hold for a repository with these two packages, and it says something about them. -/
example : ∃ m, parseRepo defaultPkg [xColl [rZlib, rSub]] = some m ∧
    ∃ p, mget m "zlib".toList = some p ∧ p.version = "1.3".toList ∧ p.build = 1700000000 ∧ p.size = 123 ∧ "libs".toList ∈ p.sets ∧
      ("glibc".toList, 1600000000) ∈ p.deps := by
  obtain ⟨m, h1, h2, _⟩ := C26_roundtrip_partial defaultPkg [(xColl [rZlib, rSub], [rZlib, rSub])] (by
    intro x hx
    simp only [List.mem_singleton] at hx
    subst hx
    refine ⟨(xColl_spec _).1, (xColl_spec _).2, ?_⟩
    intro r hr
    simp only [List.mem_cons, List.not_mem_nil, or_false] at hr
    rcases hr with rfl | rfl
    · exact rZlib_ok
    · exact rSub_ok)
  obtain ⟨p, hp, hd⟩ := h2 [] (xColl [rZlib, rSub]) rZlib [(xColl [rZlib, rSub], rSub)] rfl "zlib".toList (by unfold Rec.Has; decide)
    (by intro x hx; simp only [List.mem_singleton] at hx; subst hx; unfold Rec.Has; decide)
  refine ⟨m, h1, p, hp, hd.version _ (by unfold Rec.Has; decide), hd.build _ (by omega) (by omega) (by rw [decLit.1]; unfold Rec.Has; decide),
    hd.size (by decide), (hd.sets _).mpr (by unfold Rec.Has; decide),
    (hd.deps _ _ (by omega) (by omega)).mpr ⟨by rw [decLit.2.1]; unfold Rec.Has; decide, by decide⟩⟩

/-- **C26** is false: fields of one package appear in another. pkgmk writes no description, url, maintainer, packager and license for sub-packages
(/repo/scripts/pkgmk.in:797-803); the reader keeps those of the record before. Here `zstd.ca` gets the description and the packager of `zlib`. -/
theorem C26_leak_counterexample : RecOk rZlib ∧ RecOk rSub ∧ (∀ v, ¬ rSub.Has 'D' v) ∧
    ∃ m p, parseRepo defaultPkg [xColl [rZlib, rSub]] = some m ∧ mget m "zstd.ca".toList = some p ∧
      p.description = "compression".toList ∧ p.packager = "ptnut".toList ∧ rZlib.Has 'D' p.description := by
  refine ⟨rZlib_ok, rSub_ok, ?_, ?_⟩
  · intro v hv
    have : ∀ l ∈ rSub.md, l.head? ≠ some 'D' := by decide
    exact this _ hv rfl
  · have hl : writeRepo [rZlib, rSub] = [('@' :: rZlib.file)] ++ rZlib.md ++ ["Hab01".toList, "Iff00".toList, "i123".toList, []] ++ [('@' :: rSub.file)]
        ++ rSub.md ++ ["Hab02".toList, "Iff01".toList, "i9".toList, []] := by
      simp only [writeRepo, List.flatMap_cons, List.flatMap_nil, Rec.lines]
      rw [show rZlib.size = 123 from rfl, show rSub.size = 9 from rfl, itosLit.1, itosLit.2.1]
      rfl
    unfold xColl
    rw [hl]
    unfold Rec.Has
    exact ⟨_, _, rfl, rfl, by decide, by decide, by decide⟩

/-- **C26** is false: a dependency on a package whose name has less than four characters is not read (the test `p.size() > 14`,
/repo/src/pkgrepo.cxx:494). -/
theorem C26_short_name_counterexample : rGit.Has 'R' "git1600000000".toList ∧
    ∃ m p, parseRepo defaultPkg [xColl [rGit]] = some m ∧ mget m "cgit".toList = some p ∧ p.deps.map (·.1) = ["zlib".toList] := by
  refine ⟨by unfold Rec.Has; decide, ?_⟩
  have hl : writeRepo [rGit] = [('@' :: rGit.file)] ++ rGit.md ++ ["H".toList, "I".toList, "i1".toList, []] := by
    simp only [writeRepo, List.flatMap_cons, List.flatMap_nil, Rec.lines]
    rw [show rGit.size = 1 from rfl, itosLit.2.2]
    rfl
  unfold xColl
  rw [hl]
  exact ⟨_, _, rfl, rfl, by decide⟩

/-- **C26** is false for package files from 2 GiB to 4 GiB: the size is read as a number above 2^63. -/
theorem C26_big_size_counterexample (n : Nat) (h : 2 ^ 31 ≤ n) (h' : n < 2 ^ 32) :
    ((atoi32 (itos n)) % 2 ^ 64).toNat = n + (2 ^ 64 - 2 ^ 32) := by
  have he : itos n = dec n := by unfold itos; rw [Nat.mod_eq_of_lt h']
  rw [he]
  simp only [atoi32, numText10_dec, wrap32]
  simp
  omega

end Cards.Props
