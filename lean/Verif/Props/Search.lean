import Verif.Props.RepoCmds
/-!
# C56, C57: `cards search`, `cards list` on the repositories
-/
namespace Cards.Props
open Cards Cards.Spec

/-! ## The records the loop makes -/

theorem gfold_absent {σ β : Type} (step : σ → Str → σ) (π : σ → β) (c : Char)
    (h : ∀ (s : σ) (p : Str), p.head? ≠ some c → π (step s p) = π s) (ls : List Str) (s : σ)
    (ha : ∀ l ∈ ls, l.head? ≠ some c) : π (ls.foldl step s) = π s := by
  induction ls generalizing s with
  | nil => rfl
  | cons l ls ih => rw [List.foldl_cons, ih _ (fun x hx => ha x (by simp [hx])), h s l (ha l (by simp))]

theorem gfold_single {σ β : Type} (step : σ → Str → σ) (π : σ → β) (c : Char) (f : Str → β)
    (h : ∀ (s : σ) (p : Str), p.head? ≠ some c → π (step s p) = π s)
    (h' : ∀ (s : σ) (v : Str), π (step s (c :: v)) = f v) (ls : List Str) (s : σ) (v : Str)
    (hm : (c :: v) ∈ ls) (hu : ∀ w, (c :: w) ∈ ls → w = v) : π (ls.foldl step s) = f v := by
  induction ls generalizing s with
  | nil => simp at hm
  | cons l ls ih =>
    rw [List.foldl_cons]
    by_cases hin : (c :: v) ∈ ls
    · exact ih _ hin (fun w hw => hu w (by simp [hw]))
    · have hl : l = c :: v := by
        rcases List.mem_cons.mp hm with e | e
        · exact e.symm
        · exact absurd e hin
      rw [gfold_absent step π c h ls _ ?_, hl, h']
      intro l' hl' he
      cases l' with
      | nil => simp at he
      | cons x w =>
        simp only [List.head?_cons, Option.some.injEq] at he
        subst he
        exact hin (hu w (by simp [hl']) ▸ hl')

/-- The record says about the package file what its description says. -/
structure SDesc (j : SPkg) (r : Rec) : Prop where
  name : ∀ v, r.Has 'N' v → j.name = v
  version : ∀ v, r.Has 'V' v → j.version = v
  release : ∀ v, r.Has 'r' v → j.release = v
  collection : ∀ v, r.Has 'c' v → j.collection = v
  description : ∀ v, r.Has 'D' v → j.description = v
  noDescription : (∀ v, ¬ r.Has 'D' v) → j.description = []
  url : ∀ v, r.Has 'U' v → j.url = v
  packager : ∀ v, r.Has 'P' v → j.packager = v
  nls : ∀ v, r.Has 'n' v → j.nls = v
  noNls : (∀ v, ¬ r.Has 'n' v) → j.nls = []

theorem sfield_desc {r : Rec} (hr : RecOk r) (s : SPkg) (hd : s.description = []) (hn : s.nls = []) : SDesc (r.md.foldl SPkg.field s) r := by
  have hu : ∀ c ∈ singleFields, ∀ v, r.Has c v → ∀ w, (c :: w) ∈ r.md → w = v := fun c hc v hv w hw => hr.single c hc w v hw hv
  have key : ∀ (π : SPkg → Str) (c : Char), c ∈ singleFields →
      (∀ (s : SPkg) (p : Str), p.head? ≠ some c → π (s.field p) = π s) → (∀ (s : SPkg) (v : Str), π (s.field (c :: v)) = v) →
      ∀ v, r.Has c v → π (r.md.foldl SPkg.field s) = v := by
    intro π c hc h h' v hv
    exact gfold_single SPkg.field π c id h h' r.md s v hv (hu c hc v hv)
  have key0 : ∀ (π : SPkg → Str) (c : Char), (∀ (s : SPkg) (p : Str), p.head? ≠ some c → π (s.field p) = π s) →
      π s = [] → (∀ v, ¬ r.Has c v) → π (r.md.foldl SPkg.field s) = [] := by
    intro π c h h0 hno
    rw [gfold_absent SPkg.field π c h r.md s ?_, h0]
    intro l hl he
    cases l with
    | nil => simp at he
    | cons x w =>
      simp only [List.head?_cons, Option.some.injEq] at he
      subst he
      exact hno w hl
  have aux : ∀ (c : Char), c ∈ singleFields → ∀ (s : SPkg) (p : Str), p.head? ≠ some c →
      (c = 'N' → (s.field p).name = s.name) ∧ (c = 'V' → (s.field p).version = s.version) ∧ (c = 'r' → (s.field p).release = s.release) ∧
      (c = 'c' → (s.field p).collection = s.collection) ∧ (c = 'D' → (s.field p).description = s.description) ∧ (c = 'U' → (s.field p).url = s.url) ∧
      (c = 'P' → (s.field p).packager = s.packager) ∧ (c = 'n' → (s.field p).nls = s.nls) := by
    intro c _ s p hp
    cases p with
    | nil => exact ⟨fun _ => rfl, fun _ => rfl, fun _ => rfl, fun _ => rfl, fun _ => rfl, fun _ => rfl, fun _ => rfl, fun _ => rfl⟩
    | cons x w =>
      have hx : x ≠ c := fun e => hp (by rw [e]; rfl)
      by_cases h1 : x = 'N'
      · subst h1; exact ⟨fun e => absurd e.symm hx, fun _ => rfl, fun _ => rfl, fun _ => rfl, fun _ => rfl, fun _ => rfl, fun _ => rfl, fun _ => rfl⟩
      by_cases h2 : x = 'V'
      · subst h2; exact ⟨fun _ => rfl, fun e => absurd e.symm hx, fun _ => rfl, fun _ => rfl, fun _ => rfl, fun _ => rfl, fun _ => rfl, fun _ => rfl⟩
      by_cases h3 : x = 'r'
      · subst h3; exact ⟨fun _ => rfl, fun _ => rfl, fun e => absurd e.symm hx, fun _ => rfl, fun _ => rfl, fun _ => rfl, fun _ => rfl, fun _ => rfl⟩
      by_cases h4 : x = 'c'
      · subst h4; exact ⟨fun _ => rfl, fun _ => rfl, fun _ => rfl, fun e => absurd e.symm hx, fun _ => rfl, fun _ => rfl, fun _ => rfl, fun _ => rfl⟩
      by_cases h5 : x = 'D'
      · subst h5; exact ⟨fun _ => rfl, fun _ => rfl, fun _ => rfl, fun _ => rfl, fun e => absurd e.symm hx, fun _ => rfl, fun _ => rfl, fun _ => rfl⟩
      by_cases h6 : x = 'U'
      · subst h6; exact ⟨fun _ => rfl, fun _ => rfl, fun _ => rfl, fun _ => rfl, fun _ => rfl, fun e => absurd e.symm hx, fun _ => rfl, fun _ => rfl⟩
      by_cases h7 : x = 'P'
      · subst h7; exact ⟨fun _ => rfl, fun _ => rfl, fun _ => rfl, fun _ => rfl, fun _ => rfl, fun _ => rfl, fun e => absurd e.symm hx, fun _ => rfl⟩
      by_cases h8 : x = 'g'
      · subst h8; exact ⟨fun _ => rfl, fun _ => rfl, fun _ => rfl, fun _ => rfl, fun _ => rfl, fun _ => rfl, fun _ => rfl, fun _ => rfl⟩
      by_cases h9 : x = 'n'
      · subst h9; exact ⟨fun _ => rfl, fun _ => rfl, fun _ => rfl, fun _ => rfl, fun _ => rfl, fun _ => rfl, fun _ => rfl, fun e => absurd e.symm hx⟩
      have hf : s.field (x :: w) = s := by
        unfold SPkg.field
        simp only [List.head?_cons, if_neg h1, if_neg h2, if_neg h3, if_neg h4, if_neg h5, if_neg h6, if_neg h7, if_neg h8, if_neg h9]
      rw [hf]
      exact ⟨fun _ => rfl, fun _ => rfl, fun _ => rfl, fun _ => rfl, fun _ => rfl, fun _ => rfl, fun _ => rfl, fun _ => rfl⟩
  constructor
  · exact key (·.name) 'N' (by decide) (fun s p h => (aux 'N' (by decide) s p h).1 rfl) (fun s v => rfl)
  · exact key (·.version) 'V' (by decide) (fun s p h => (aux 'V' (by decide) s p h).2.1 rfl) (fun s v => rfl)
  · exact key (·.release) 'r' (by decide) (fun s p h => (aux 'r' (by decide) s p h).2.2.1 rfl) (fun s v => rfl)
  · exact key (·.collection) 'c' (by decide) (fun s p h => (aux 'c' (by decide) s p h).2.2.2.1 rfl) (fun s v => rfl)
  · exact key (·.description) 'D' (by decide) (fun s p h => (aux 'D' (by decide) s p h).2.2.2.2.1 rfl) (fun s v => rfl)
  · exact key0 (·.description) 'D' (fun s p h => (aux 'D' (by decide) s p h).2.2.2.2.1 rfl) hd
  · exact key (·.url) 'U' (by decide) (fun s p h => (aux 'U' (by decide) s p h).2.2.2.2.2.1 rfl) (fun s v => rfl)
  · exact key (·.packager) 'P' (by decide) (fun s p h => (aux 'P' (by decide) s p h).2.2.2.2.2.2.1 rfl) (fun s v => rfl)
  · exact key (·.nls) 'n' (by decide) (fun s p h => (aux 'n' (by decide) s p h).2.2.2.2.2.2.2 rfl) (fun s v => rfl)
  · exact key0 (·.nls) 'n' (fun s p h => (aux 'n' (by decide) s p h).2.2.2.2.2.2.2 rfl) hn

theorem searchLine_md {r : Rec} (hr : RecOk r) (s : SPkg) (acc : List SPkg) : r.md.foldl searchLine (s, acc) = (r.md.foldl SPkg.field s, acc) := by
  have : ∀ ls : List Str, (∀ l ∈ ls, l ≠ []) → ∀ s, ls.foldl searchLine (s, acc) = (ls.foldl SPkg.field s, acc) := by
    intro ls
    induction ls with
    | nil => intro _ s; rfl
    | cons l ls ih =>
      intro h s
      rw [List.foldl_cons, List.foldl_cons, ← ih (fun x hx => h x (List.mem_cons_of_mem _ hx))]
      simp [searchLine, h l (by simp)]
  apply this
  intro l hl
  obtain ⟨c, v, e, _⟩ := hr.lines l hl
  simp [e]

theorem searchLine_rec {r : Rec} (hr : RecOk r) (s : SPkg) (hd : s.description = []) (hn : s.nls = []) (acc : List SPkg) :
    ∃ j s', r.lines.foldl searchLine (s, acc) = (s', j :: acc) ∧ SDesc j r ∧ s'.description = [] ∧ s'.nls = [] := by
  have hsk : ∀ (c : Char) (v : Str) (t : SPkg), c ∈ "@HIi".toList → searchLine (t, acc) (c :: v) = (t, acc) := by
    intro c v t hc
    simp only [searchLine, reduceCtorEq, if_false]
    have hc' : c = '@' ∨ c = 'H' ∨ c = 'I' ∨ c = 'i' := by simpa using hc
    rcases hc' with rfl | rfl | rfl | rfl <;> rfl
  refine ⟨r.md.foldl SPkg.field s, { r.md.foldl SPkg.field s with group := [], description := [], nls := [] }, ?_, sfield_desc hr s hd hn, rfl, rfl⟩
  · unfold Rec.lines
    rw [List.cons_append, List.foldl_cons, hsk '@' _ _ (by simp), List.foldl_append, searchLine_md hr]
    simp only [List.foldl_cons, List.foldl_nil]
    rw [hsk 'H' _ _ (by simp), hsk 'I' _ _ (by simp), hsk 'i' _ _ (by simp)]
    rfl

theorem search_coll (rs : List Rec) (hr : ∀ r ∈ rs, RecOk r) (s : SPkg) (hd : s.description = []) (hn : s.nls = []) (acc : List SPkg) :
    ∃ js, ((writeRepo rs).foldl searchLine (s, acc)).2 = js.reverse ++ acc ∧ List.Forall₂ SDesc js rs := by
  induction rs generalizing s acc with
  | nil => exact ⟨[], rfl, .nil⟩
  | cons r rs ih =>
    have hw : writeRepo (r :: rs) = r.lines ++ writeRepo rs := by simp [writeRepo]
    obtain ⟨j, s', e, hj, h1, h2⟩ := searchLine_rec (hr r (by simp)) s hd hn acc
    rw [hw, List.foldl_append, e]
    obtain ⟨js, e2, hf⟩ := ih (fun x hx => hr x (List.mem_cons_of_mem _ hx)) s' h1 h2 (j :: acc)
    exact ⟨j :: js, by rw [e2]; simp, .cons hj hf⟩

theorem search_parse (css : List (List Rec)) (hr : ∀ rs ∈ css, ∀ r ∈ rs, RecOk r) : List.Forall₂ SDesc (searchParse (css.map writeRepo)) css.flatten := by
  induction css with
  | nil => exact .nil
  | cons rs css ih =>
    obtain ⟨js, e, hf⟩ := search_coll rs (hr rs (by simp)) SPkg.start rfl rfl []
    have he : searchParse ((rs :: css).map writeRepo) = js ++ searchParse (css.map writeRepo) := by
      simp only [searchParse, List.map_cons, List.flatMap_cons]
      rw [e]; simp
    rw [he, List.flatten_cons]
    exact List.rel_append hf (ih (fun x hx => hr x (List.mem_cons_of_mem _ hx)))

/-! ## C57: `cards list` -/

/-- The description gives collection, name, version and release. -/
structure Rec.Complete (r : Rec) : Prop where
  ok : RecOk r
  version : ∃ v, r.Has 'V' v
  release : ∃ v, r.Has 'r' v
  collection : ∃ v, r.Has 'c' v

/-- **C57.** `cards list --binaries` prints one line for each package file of the collections, in their order, with its collection, name, version and
release. -/
theorem C57_binaries (css : List (List Rec)) (hr : ∀ rs ∈ css, ∀ r ∈ rs, Rec.Complete r) :
    List.Forall₂ (fun row r => r.Has 'c' row.collection ∧ r.Has 'N' row.name ∧ r.Has 'V' row.version ∧ r.Has 'r' row.release)
      (listBinariesCmd (css.map writeRepo)) css.flatten := by
  have h := search_parse css (fun rs h1 r h2 => (hr rs h1 r h2).ok)
  unfold listBinariesCmd
  rw [List.forall₂_map_left_iff]
  have hall : ∀ r ∈ css.flatten, Rec.Complete r := by
    intro r h
    obtain ⟨rs, h1, h2⟩ := List.mem_flatten.mp h
    exact hr rs h1 r h2
  generalize searchParse (css.map writeRepo) = js at h
  generalize css.flatten = rs at h hall
  induction h with
  | nil => exact .nil
  | cons hj _ ih =>
    rename_i j r js rs _
    refine .cons ?_ (ih (fun x hx => hall x (List.mem_cons_of_mem _ hx)))
    obtain ⟨hok, ⟨v, hv⟩, ⟨l, hl⟩, ⟨c, hc⟩⟩ := hall r (by simp)
    obtain ⟨n, hn⟩ := hok.name
    exact ⟨hj.collection c hc ▸ hc, hj.name n hn ▸ hn, hj.version v hv ▸ hv, hj.release l hl ▸ hl⟩

/-- **C57.** `cards list --sets` prints exactly the sets the package files are in, each once. -/
theorem C57_sets (css : List (List Rec)) :
    (listSetsCmd (css.map writeRepo)).Nodup ∧ ∀ x, x ∈ listSetsCmd (css.map writeRepo) ↔ ∃ rs ∈ css, ∃ r ∈ rs, r.Has 's' x := by
  constructor
  · exact sorted_nodup (sorted_sofList _)
  intro x
  unfold listSetsCmd
  rw [mem_sofList]
  simp only [List.mem_filterMap, List.mem_flatMap, List.mem_map, id]
  constructor
  · rintro ⟨l, ⟨ls, ⟨rs, hrs, rfl⟩, hl⟩, he⟩
    have hx : l = 's' :: x := by
      cases l with
      | nil => simp at he
      | cons c w =>
        by_cases hc : c = 's'
        · subst hc; simpa using he
        · simp [hc] at he
    subst hx
    unfold writeRepo at hl
    obtain ⟨r, hr', hl⟩ := List.mem_flatMap.mp hl
    refine ⟨rs, hrs, r, hr', ?_⟩
    unfold Rec.lines at hl
    simpa [Rec.Has] using hl
  · rintro ⟨rs, hrs, r, hr', hx⟩
    refine ⟨'s' :: x, ⟨writeRepo rs, ⟨rs, hrs, rfl⟩, ?_⟩, by simp⟩
    unfold writeRepo
    refine List.mem_flatMap.mpr ⟨r, hr', ?_⟩
    unfold Rec.lines
    simp only [List.cons_append, List.mem_cons, List.mem_append]
    exact Or.inr (Or.inl hx)

/-! ## C56: `cards search` -/

/-- `k` is a part of `s` when the difference of capital and small letters is ignored. -/
def ContainsNoCase (s k : Str) : Prop := ∃ a b c, s = a ++ b ++ c ∧ b.map Char.toLower = k.map Char.toLower

theorem lowerC_eq (c : Char) : lowerC c = c.toLower := by
  by_cases h : c ∈ uppers
  · have : ∀ c ∈ uppers, lowerC c = c.toLower := by decide
    exact this c h
  · rw [(C37_lower c).1 h]
    unfold Char.toLower
    split
    · rename_i hu
      exfalso; apply h
      obtain ⟨h1, h2⟩ := hu
      have hc : c = Char.ofNat c.toNat := by simp
      have hn : 65 ≤ c.toNat ∧ c.toNat ≤ 90 := by
        constructor
        · exact UInt32.le_iff_toNat_le.mp h1
        · exact UInt32.le_iff_toNat_le.mp h2
      rw [hc]
      generalize c.toNat = n at hn
      have : ∀ n : Nat, n < 91 → 65 ≤ n → Char.ofNat n ∈ uppers := by decide
      exact this n (by omega) hn.1
    · rfl

theorem lower_map (s : Str) : convertToLowerCase s = s.map Char.toLower := by
  unfold convertToLowerCase
  exact List.map_congr_left (fun c _ => lowerC_eq c)

theorem has_nocase (s k : Str) : Str.has (convertToLowerCase s) (convertToLowerCase k) = true ↔ ContainsNoCase s k := by
  rw [has_iff, lower_map, lower_map]
  constructor
  · rintro ⟨a, c, h⟩
    obtain ⟨ab, c', rfl, h1, rfl⟩ := List.map_eq_append_iff.mp h.symm
    obtain ⟨a', b, rfl, rfl, h2⟩ := List.map_eq_append_iff.mp h1
    exact ⟨a', b, c', rfl, h2⟩
  · rintro ⟨a, b, c, rfl, h⟩
    exact ⟨a.map Char.toLower, c.map Char.toLower, by rw [← h]; simp⟩

/-- The word has no capital letters. -/
def NoCapital (s : Str) : Prop := ∀ c ∈ s, c.toLower = c

theorem lower_nocap {s : Str} (h : NoCapital s) : convertToLowerCase s = s := by
  rw [lower_map]
  conv => rhs; rw [← List.map_id s]
  exact List.map_congr_left h

theorem has_nocap {s k : Str} (h : NoCapital s) : Str.has s (convertToLowerCase k) = true ↔ ContainsNoCase s k := by
  rw [← has_nocase, lower_nocap h]

/-- The line `cards search` prints for a package file. -/
structure SRow.For (row : SRow) (r : Rec) : Prop where
  collection : r.Has 'c' row.collection
  name : r.Has 'N' row.name
  version : r.Has 'V' row.version
  description : r.Has 'D' row.description ∨ (row.description = [] ∧ ∀ v, ¬ r.Has 'D' v)

theorem forall₂_filter {α β : Type} {R : α → β → Prop} (p : α → Bool) (q : β → Bool) {xs : List α} {ys : List β} (h : List.Forall₂ R xs ys)
    (hpq : ∀ x y, y ∈ ys → R x y → p x = q y) : List.Forall₂ R (xs.filter p) (ys.filter q) := by
  induction h with
  | nil => exact .nil
  | cons hr _ ih =>
    rename_i x y xs ys _
    have he := hpq x y (by simp) hr
    have ih' := ih (fun a b hb => hpq a b (List.mem_cons_of_mem _ hb))
    rw [List.filter_cons, List.filter_cons, he]
    split
    · exact .cons hr ih'
    · exact ih'

theorem forall₂_mem_imp {α β : Type} {R S : α → β → Prop} {xs : List α} {ys : List β} (h : List.Forall₂ R xs ys)
    (hi : ∀ x y, y ∈ ys → R x y → S x y) : List.Forall₂ S xs ys := by
  induction h with
  | nil => exact .nil
  | cons hr _ ih =>
    rename_i x y xs ys _
    exact .cons (hi x y (by simp) hr) (ih (fun a b hb => hi a b (List.mem_cons_of_mem _ hb)))

theorem search_rows (css : List (List Rec)) (hr : ∀ rs ∈ css, ∀ r ∈ rs, Rec.Complete r) (names : Bool) (kw : Str) (q : Rec → Bool)
    (hq : ∀ rs ∈ css, ∀ r ∈ rs, ∀ j, SDesc j r → (searchHit names kw j = q r)) :
    List.Forall₂ SRow.For (searchCmd names kw (css.map writeRepo)) (css.flatten.filter q) := by
  have h := search_parse css (fun rs h1 r h2 => (hr rs h1 r h2).ok)
  unfold searchCmd
  rw [List.forall₂_map_left_iff]
  have h2 := forall₂_filter (searchHit names kw) q h (by
    intro j r hmem hj
    obtain ⟨rs, h1, h2⟩ := List.mem_flatten.mp hmem
    exact hq rs h1 r h2 j hj)
  refine forall₂_mem_imp h2 ?_
  intro j r hmem hj
  obtain ⟨rs, h1, h2⟩ := List.mem_flatten.mp (List.mem_filter.mp hmem).1
  obtain ⟨hok, ⟨v, hv⟩, _, ⟨c, hc⟩⟩ := hr rs h1 r h2
  obtain ⟨n, hn⟩ := hok.name
  refine ⟨by rw [hj.collection c hc]; exact hc, by rw [hj.name n hn]; exact hn, by rw [hj.version v hv]; exact hv, ?_⟩
  by_cases hd : ∃ d, r.Has 'D' d
  · obtain ⟨d, hd⟩ := hd
    exact Or.inl (by rw [hj.description d hd]; exact hd)
  · have hd' : ∀ v, ¬ r.Has 'D' v := fun v hv => hd ⟨v, hv⟩
    exact Or.inr ⟨hj.noDescription hd', hd'⟩

open Classical in
/-- **C56** (package names without capital letters): `cards search --names WORD` prints a line for each package file whose name contains WORD, capital or
small letters, in the order of the collections, and no others. -/
theorem C56_names_partial (css : List (List Rec)) (kw : Str) (hr : ∀ rs ∈ css, ∀ r ∈ rs, Rec.Complete r)
    (hlow : ∀ rs ∈ css, ∀ r ∈ rs, ∀ n, r.Has 'N' n → NoCapital n) :
    List.Forall₂ SRow.For (searchCmd true kw (css.map writeRepo)) (css.flatten.filter (fun r => decide (∃ n, r.Has 'N' n ∧ ContainsNoCase n kw))) := by
  refine search_rows css hr true kw _ ?_
  intro rs h1 r h2 j hj
  obtain ⟨n, hn⟩ := (hr rs h1 r h2).ok.name
  have hlow' := hlow rs h1 r h2 n hn
  rw [Bool.eq_iff_iff]
  simp only [searchHit, if_true, decide_eq_true_eq]
  rw [hj.name n hn, has_nocap hlow']
  constructor
  · exact fun h => ⟨n, hn, h⟩
  · rintro ⟨n', hn', h⟩
    rwa [(hr rs h1 r h2).ok.single 'N' (by decide) n n' hn hn']

open Classical in
/-- **C56** (names and collections without capital letters, descriptions that give URL and packager): `cards search WORD` prints a line for each package file
that is not a language sub-package and whose collection, name, description, URL, packager or version contains WORD, capital or small letters, and no others. -/
theorem C56_all_partial (css : List (List Rec)) (kw : Str) (hkw : kw ≠ []) (hr : ∀ rs ∈ css, ∀ r ∈ rs, Rec.Complete r)
    (hlow : ∀ rs ∈ css, ∀ r ∈ rs, ∀ n, r.Has 'N' n ∨ r.Has 'c' n → NoCapital n)
    (hfull : ∀ rs ∈ css, ∀ r ∈ rs, (∃ v, r.Has 'U' v) ∧ ∃ v, r.Has 'P' v) (hnls : ∀ rs ∈ css, ∀ r ∈ rs, ¬ r.Has 'n' []) :
    List.Forall₂ SRow.For (searchCmd false kw (css.map writeRepo))
      (css.flatten.filter (fun r => decide ((∃ c ∈ "cNDUPV".toList, ∃ v, r.Has c v ∧ ContainsNoCase v kw) ∧ ∀ v, ¬ r.Has 'n' v))) := by
  refine search_rows css hr false kw _ ?_
  intro rs h1 r h2 j hj
  obtain ⟨n, hn⟩ := (hr rs h1 r h2).ok.name
  obtain ⟨c, hc⟩ := (hr rs h1 r h2).collection
  obtain ⟨v, hv⟩ := (hr rs h1 r h2).version
  obtain ⟨⟨u, hu⟩, ⟨p, hp⟩⟩ := hfull rs h1 r h2
  have hone : ∀ c ∈ singleFields, ∀ v, r.Has c v → ((∃ w, r.Has c w ∧ ContainsNoCase w kw) ↔ ContainsNoCase v kw) := by
    intro c hc v hv
    constructor
    · rintro ⟨w, hw, h⟩
      rwa [(hr rs h1 r h2).ok.single c hc v w hv hw]
    · exact fun h => ⟨v, hv, h⟩
  have hD : Str.has (convertToLowerCase j.description) (convertToLowerCase kw) = true ↔ ∃ w, r.Has 'D' w ∧ ContainsNoCase w kw := by
    rw [has_nocase]
    by_cases hd : ∃ d, r.Has 'D' d
    · obtain ⟨d, hd⟩ := hd
      rw [hone 'D' (by decide) d hd, hj.description d hd]
    · rw [hj.noDescription (fun v hv => hd ⟨v, hv⟩)]
      constructor
      · rintro ⟨a, b, c, h, hb⟩
        have : b = [] := by
          cases b with
          | nil => rfl
          | cons x b => simp at h
        rw [this] at hb
        exact absurd (List.map_eq_nil_iff.mp hb.symm) hkw
      · rintro ⟨w, hw, _⟩; exact absurd ⟨w, hw⟩ hd
  have hN : j.nls = [] ↔ ∀ v, ¬ r.Has 'n' v := by
    constructor
    · intro h v hv
      rw [hj.nls v hv] at h
      subst h
      exact hnls rs h1 r h2 hv
    · exact hj.noNls
  rw [Bool.eq_iff_iff]
  simp only [searchHit, Bool.false_eq_true, if_false, decide_eq_true_eq, Bool.and_eq_true, Bool.or_eq_true]
  rw [hN, hD, hj.name n hn, hj.collection c hc, hj.url u hu, hj.packager p hp, hj.version v hv, has_nocase, has_nocase, has_nocase,
    has_nocap (hlow rs h1 r h2 n (Or.inl hn)), has_nocap (hlow rs h1 r h2 c (Or.inr hc))]
  rw [← hone 'c' (by decide) c hc, ← hone 'N' (by decide) n hn, ← hone 'U' (by decide) u hu, ← hone 'P' (by decide) p hp, ← hone 'V' (by decide) v hv]
  have : (∃ c ∈ "cNDUPV".toList, ∃ v, r.Has c v ∧ ContainsNoCase v kw) ↔
      (((((∃ w, r.Has 'c' w ∧ ContainsNoCase w kw) ∨ ∃ w, r.Has 'N' w ∧ ContainsNoCase w kw) ∨ ∃ w, r.Has 'D' w ∧ ContainsNoCase w kw) ∨
        ∃ w, r.Has 'U' w ∧ ContainsNoCase w kw) ∨ ∃ w, r.Has 'P' w ∧ ContainsNoCase w kw) ∨ ∃ w, r.Has 'V' w ∧ ContainsNoCase w kw := by
    simp [or_assoc]
  rw [this]

/-- A package file with the given description. -/
def sRec (file : String) (md : List String) : Rec := { file := file.toList, md := md.map String.toList, hash := "0".toList, sign := [], size := 7 }

def sFoo : Rec := sRec "foo.cards-1700000000-x86_64-1.0-1" ["Nfoo", "cbase", "V1.0", "r1", "DFoo Tools", "Uhttps://foo.example", "Pann"]
def sXorg : Rec := sRec "Xorg.cards-1700000000-x86_64-21-1" ["NXorg", "cbase", "V21", "r1", "Dserver", "Uhttps://x.example", "Pann"]
def sBar : Rec := sRec "bar.cards-1700000000-x86_64-1.0-1" ["Nbar", "cbase", "V1.0", "r1", "Dtool", "Uhttps://bar.example", "Pann"]
def sQuxBin : Rec := sRec "qux.bin.cards-1700000000-x86_64-1.0-1" ["Nqux.bin", "cbase", "V1.0", "r1", "Dtool", "gbin"]

/-- What the tests below need of a description, in a form that can be computed. -/
theorem recOk_of {r : Rec} (h1 : ∀ l ∈ r.md, l ≠ [] ∧ l.head? ∉ "@HIiR".toList.map some) (h2 : Str.has r.file ".cards-".toList = true)
    (h3 : ∃ l ∈ r.md, l.head? = some 'N') (h4 : ∀ a ∈ r.md, ∀ b ∈ r.md, a.head? = b.head? → a = b) (h5 : ∀ l ∈ r.md, l.head? = some 'r' → l = "r1".toList)
    (h6 : "c".toList ∉ r.md) : RecOk r := by
  constructor
  · intro l hl
    obtain ⟨ha, hb⟩ := h1 l hl
    cases l with
    | nil => exact absurd rfl ha
    | cons c v => exact ⟨c, v, rfl, by rintro rfl; simp at hb, by rintro rfl; simp at hb, by rintro rfl; simp at hb, by rintro rfl; simp at hb⟩
  · obtain ⟨a, b, h⟩ := has_iff.mp h2
    exact ⟨a, b, h.symm⟩
  · obtain ⟨l, hl, hh⟩ := h3
    cases l with
    | nil => simp at hh
    | cons c v => simp only [List.head?_cons, Option.some.injEq] at hh; subst hh; exact ⟨v, hl⟩
  · intro c _ v w hv hw
    have := h4 _ hv _ hw rfl
    exact (List.cons.inj this).2
  · intro v hv
    have := h5 _ hv rfl
    have e : 'r' :: v = 'r' :: dec 1 := this.trans (by decide +kernel)
    exact ⟨1, by decide, (List.cons.inj e).2⟩
  · exact h6
  · intro v hv
    have := (h1 _ hv).2
    simp at this

theorem sFoo_complete : Rec.Complete sFoo :=
  ⟨recOk_of (by decide) (by decide) (by decide) (by decide) (by decide) (by decide), ⟨_, (by decide : 'V' :: "1.0".toList ∈ sFoo.md)⟩,
    ⟨_, (by decide : 'r' :: "1".toList ∈ sFoo.md)⟩, ⟨_, (by decide : 'c' :: "base".toList ∈ sFoo.md)⟩⟩
theorem sBar_complete : Rec.Complete sBar :=
  ⟨recOk_of (by decide) (by decide) (by decide) (by decide) (by decide) (by decide), ⟨_, (by decide : 'V' :: "1.0".toList ∈ sBar.md)⟩,
    ⟨_, (by decide : 'r' :: "1".toList ∈ sBar.md)⟩, ⟨_, (by decide : 'c' :: "base".toList ∈ sBar.md)⟩⟩
theorem sXorg_complete : Rec.Complete sXorg :=
  ⟨recOk_of (by decide) (by decide) (by decide) (by decide) (by decide) (by decide), ⟨_, (by decide : 'V' :: "21".toList ∈ sXorg.md)⟩,
    ⟨_, (by decide : 'r' :: "1".toList ∈ sXorg.md)⟩, ⟨_, (by decide : 'c' :: "base".toList ∈ sXorg.md)⟩⟩
theorem sQuxBin_complete : Rec.Complete sQuxBin :=
  ⟨recOk_of (by decide) (by decide) (by decide) (by decide) (by decide) (by decide), ⟨_, (by decide : 'V' :: "1.0".toList ∈ sQuxBin.md)⟩,
    ⟨_, (by decide : 'r' :: "1".toList ∈ sQuxBin.md)⟩, ⟨_, (by decide : 'c' :: "base".toList ∈ sQuxBin.md)⟩⟩

theorem noCap_foo : ∀ n, sFoo.Has 'N' n ∨ sFoo.Has 'c' n → NoCapital n := by
  intro n h
  have h' : n = "foo".toList ∨ n = "base".toList := by
    rcases h with h | h
    · left; simpa [Rec.Has, sFoo, sRec] using h
    · right; simpa [Rec.Has, sFoo, sRec] using h
  rcases h' with rfl | rfl <;> unfold NoCapital <;> decide
theorem noCap_bar : ∀ n, sBar.Has 'N' n ∨ sBar.Has 'c' n → NoCapital n := by
  intro n h
  have h' : n = "bar".toList ∨ n = "base".toList := by
    rcases h with h | h
    · left; simpa [Rec.Has, sBar, sRec] using h
    · right; simpa [Rec.Has, sBar, sRec] using h
  rcases h' with rfl | rfl <;> unfold NoCapital <;> decide

/-- The hypotheses of C56 and C57 hold for two package files; what the commands print. -/
example : (∀ rs ∈ [[sFoo], [sBar]], ∀ r ∈ rs, Rec.Complete r) ∧
    (∀ rs ∈ [[sFoo], [sBar]], ∀ r ∈ rs, ∀ n, r.Has 'N' n ∨ r.Has 'c' n → NoCapital n) ∧
    searchCmd true "FO".toList ([[sFoo], [sBar]].map writeRepo) = [⟨"base".toList, "foo".toList, "1.0".toList, "Foo Tools".toList⟩] ∧
    (searchCmd false "TOOL".toList ([[sFoo], [sBar]].map writeRepo)).map (·.name) = ["foo".toList, "bar".toList] ∧
    listBinariesCmd ([[sFoo], [sBar]].map writeRepo) =
      [⟨"base".toList, "foo".toList, "1.0".toList, "1".toList⟩, ⟨"base".toList, "bar".toList, "1.0".toList, "1".toList⟩] := by
  refine ⟨?_, ?_, by decide +kernel, by decide +kernel, by decide +kernel⟩
  · intro rs h r hr
    simp only [List.mem_cons, List.not_mem_nil, or_false] at h
    rcases h with rfl | rfl <;> rw [List.mem_singleton] at hr <;> subst hr
    · exact sFoo_complete
    · exact sBar_complete
  · intro rs h r hr
    simp only [List.mem_cons, List.not_mem_nil, or_false] at h
    rcases h with rfl | rfl <;> rw [List.mem_singleton] at hr <;> subst hr
    · exact noCap_foo
    · exact noCap_bar

/-- **C56 fails** for a package name with capital letters: the word is turned into small letters, the name is not, so `cards search --names Xorg` does not find
the package `Xorg`. -/
theorem C56_capital_counterexample : Rec.Complete sXorg ∧ sXorg.Has 'N' "Xorg".toList ∧ ContainsNoCase "Xorg".toList "Xorg".toList ∧
    searchCmd true "Xorg".toList ([[sXorg]].map writeRepo) = [] :=
  ⟨sXorg_complete, by unfold Rec.Has; decide, ⟨[], "Xorg".toList, [], by decide, rfl⟩, by decide +kernel⟩

/-- **C56 fails** for sub-packages, whose descriptions have no URL: the URL of the record before is searched, so `qux.bin` is found with a word that occurs only in
the URL of `bar`. -/
theorem C56_previous_url_counterexample : Rec.Complete sBar ∧ Rec.Complete sQuxBin ∧ (∀ l ∈ sQuxBin.md, Str.has (convertToLowerCase l) "bar.example".toList = false) ∧
    (searchCmd false "bar.example".toList ([[sBar, sQuxBin]].map writeRepo)).map (·.name) = ["bar".toList, "qux.bin".toList] :=
  ⟨sBar_complete, sQuxBin_complete, by decide, by decide +kernel⟩

/-- `cards list --sets` on two package files. -/
example : listSetsCmd ([[sRec "foo.cards-1" ["Nfoo", "sdevel"]], [sRec "bar.cards-1" ["Nbar", "schroot", "sdevel"]]].map writeRepo) =
    ["chroot".toList, "devel".toList] := by decide +kernel

end Cards.Props
