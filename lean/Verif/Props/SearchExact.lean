import Mathlib.Tactic.Common
import Verif.Props.Search
/-!
# C56, for all repositories: what `cards search` finds, exactly
-/
namespace Cards.Props
open Cards Cards.Spec

open Classical in
/-- **C56, `--names`, all names.** A line for each package file whose name contains the word in small letters, and no others. -/
theorem C56_names_exact (css : List (List Rec)) (kw : Str) (hr : ∀ rs ∈ css, ∀ r ∈ rs, Rec.Complete r) :
    List.Forall₂ SRow.For (searchCmd true kw (css.map writeRepo))
      (css.flatten.filter (fun r => decide (∃ n, r.Has 'N' n ∧ kw.map Char.toLower <:+: n))) := by
  refine search_rows css hr true kw _ ?_
  intro rs h1 r h2 j hj
  obtain ⟨n, hn⟩ := (hr rs h1 r h2).ok.name
  rw [Bool.eq_iff_iff]
  simp only [searchHit, if_true, decide_eq_true_eq]
  rw [hj.name n hn, lower_map, has_iff]
  constructor
  · exact fun h => ⟨n, hn, h⟩
  · rintro ⟨n', hn', h⟩
    rwa [(hr rs h1 r h2).ok.single 'N' (by decide) n n' hn hn']

/-- Each package file of a collection with those listed before it, the nearest first. -/
def histories : List Rec → List Rec → List (List Rec × Rec)
  | _, [] => []
  | prev, r :: rs => (prev, r) :: histories (r :: prev) rs

/-- `v` is what the first of these descriptions that has the field `c` says; nothing when none has it. -/
def Says (c : Char) : List Rec → Str → Prop
  | [], v => v = []
  | r :: rs, v => r.Has c v ∨ ((∀ w, ¬ r.Has c w) ∧ Says c rs v)

theorem field_url (s : SPkg) (p : Str) (h : p.head? ≠ some 'U') : (s.field p).url = s.url := by
  cases p with
  | nil => rfl
  | cons c v =>
    have hc : c ≠ 'U' := fun e => h (by rw [e]; rfl)
    unfold SPkg.field
    simp only [List.head?_cons]
    repeat' split
    all_goals rfl

theorem field_packager (s : SPkg) (p : Str) (h : p.head? ≠ some 'P') : (s.field p).packager = s.packager := by
  cases p with
  | nil => rfl
  | cons c v =>
    have hc : c ≠ 'P' := fun e => h (by rw [e]; rfl)
    unfold SPkg.field
    simp only [List.head?_cons]
    repeat' split
    all_goals rfl

/-- The record says what the description says, with URL and packager of the descriptions before when it has none. -/
structure SFull (j : SPkg) (x : List Rec × Rec) : Prop where
  desc : SDesc j x.2
  url : Says 'U' (x.2 :: x.1) j.url
  packager : Says 'P' (x.2 :: x.1) j.packager

theorem not_has_head {r : Rec} {c : Char} (h : ∀ w, ¬ r.Has c w) : ∀ l ∈ r.md, l.head? ≠ some c := by
  intro l hl he
  cases l with
  | nil => simp at he
  | cons x w =>
    simp only [List.head?_cons, Option.some.injEq] at he
    subst he
    exact h w hl

theorem searchLine_full {r : Rec} (hr : RecOk r) (prev : List Rec) (s : SPkg) (hd : s.description = []) (hn : s.nls = [])
    (hu : Says 'U' prev s.url) (hp : Says 'P' prev s.packager) (acc : List SPkg) :
    ∃ j s', r.lines.foldl searchLine (s, acc) = (s', j :: acc) ∧ SFull j (prev, r) ∧ s'.description = [] ∧ s'.nls = [] ∧
      Says 'U' (r :: prev) s'.url ∧ Says 'P' (r :: prev) s'.packager := by
  have hsk : ∀ (c : Char) (v : Str) (t : SPkg), c ∈ "@HIi".toList → searchLine (t, acc) (c :: v) = (t, acc) := by
    intro c v t hc
    simp only [searchLine, reduceCtorEq, if_false]
    have hc' : c = '@' ∨ c = 'H' ∨ c = 'I' ∨ c = 'i' := by simpa using hc
    rcases hc' with rfl | rfl | rfl | rfl <;> rfl
  have hdesc := sfield_desc hr s hd hn
  have h1 : Says 'U' (r :: prev) (r.md.foldl SPkg.field s).url := by
    by_cases h : ∃ v, r.Has 'U' v
    · obtain ⟨v, hv⟩ := h
      exact Or.inl (hdesc.url v hv ▸ hv)
    · have h' : ∀ w, ¬ r.Has 'U' w := fun w hw => h ⟨w, hw⟩
      refine Or.inr ⟨h', ?_⟩
      rw [gfold_absent SPkg.field (·.url) 'U' field_url r.md s (not_has_head h')]
      exact hu
  have h2 : Says 'P' (r :: prev) (r.md.foldl SPkg.field s).packager := by
    by_cases h : ∃ v, r.Has 'P' v
    · obtain ⟨v, hv⟩ := h
      exact Or.inl (hdesc.packager v hv ▸ hv)
    · have h' : ∀ w, ¬ r.Has 'P' w := fun w hw => h ⟨w, hw⟩
      refine Or.inr ⟨h', ?_⟩
      rw [gfold_absent SPkg.field (·.packager) 'P' field_packager r.md s (not_has_head h')]
      exact hp
  refine ⟨r.md.foldl SPkg.field s, { r.md.foldl SPkg.field s with group := [], description := [], nls := [] }, ?_, ⟨hdesc, h1, h2⟩, rfl, rfl, h1, h2⟩
  unfold Rec.lines
  rw [List.cons_append, List.foldl_cons, hsk '@' _ _ (by simp), List.foldl_append, searchLine_md hr]
  simp only [List.foldl_cons, List.foldl_nil]
  rw [hsk 'H' _ _ (by simp), hsk 'I' _ _ (by simp), hsk 'i' _ _ (by simp)]
  rfl

theorem search_coll_full (rs : List Rec) (hr : ∀ r ∈ rs, RecOk r) (prev : List Rec) (s : SPkg) (hd : s.description = []) (hn : s.nls = [])
    (hu : Says 'U' prev s.url) (hp : Says 'P' prev s.packager) (acc : List SPkg) :
    ∃ js, ((writeRepo rs).foldl searchLine (s, acc)).2 = js.reverse ++ acc ∧ List.Forall₂ SFull js (histories prev rs) := by
  induction rs generalizing prev s acc with
  | nil => exact ⟨[], rfl, .nil⟩
  | cons r rs ih =>
    have hw : writeRepo (r :: rs) = r.lines ++ writeRepo rs := by simp [writeRepo]
    obtain ⟨j, s', e, hj, h1, h2, h3, h4⟩ := searchLine_full (hr r (by simp)) prev s hd hn hu hp acc
    rw [hw, List.foldl_append, e]
    obtain ⟨js, e2, hf⟩ := ih (fun x hx => hr x (List.mem_cons_of_mem _ hx)) (r :: prev) s' h1 h2 h3 h4 (j :: acc)
    exact ⟨j :: js, by rw [e2]; simp, .cons hj hf⟩

theorem search_parse_full (css : List (List Rec)) (hr : ∀ rs ∈ css, ∀ r ∈ rs, RecOk r) :
    List.Forall₂ SFull (searchParse (css.map writeRepo)) (css.flatMap (histories [])) := by
  induction css with
  | nil => exact .nil
  | cons rs css ih =>
    obtain ⟨js, e, hf⟩ := search_coll_full rs (hr rs (by simp)) [] SPkg.start rfl rfl rfl rfl []
    have he : searchParse ((rs :: css).map writeRepo) = js ++ searchParse (css.map writeRepo) := by
      simp only [searchParse, List.map_cons, List.flatMap_cons]
      rw [e]; simp
    rw [he, List.flatMap_cons]
    exact List.rel_append hf (ih (fun x hx => hr x (List.mem_cons_of_mem _ hx)))

theorem mem_histories {prev rs : List Rec} {x : List Rec × Rec} (h : x ∈ histories prev rs) : x.2 ∈ rs := by
  induction rs generalizing prev with
  | nil => cases h
  | cons r rs ih =>
    rcases List.mem_cons.mp h with rfl | h
    · simp
    · exact List.mem_cons_of_mem _ (ih h)

/-- `cards search WORD` finds the package file `x.2`, listed behind `x.1`. -/
def SearchFound (kw : Str) (x : List Rec × Rec) : Prop :=
  ((∃ c ∈ "cN".toList, ∃ v, x.2.Has c v ∧ kw.map Char.toLower <:+: v) ∨
    (∃ c ∈ "DV".toList, ∃ v, x.2.Has c v ∧ ContainsNoCase v kw) ∨
    (∃ c ∈ "UP".toList, ∃ v, Says c (x.2 :: x.1) v ∧ ContainsNoCase v kw)) ∧
  ∀ v, x.2.Has 'n' v → v = []

theorem Says_one {c : Char} (hc : c ∈ singleFields) {rs : List Rec} (hr : ∀ r ∈ rs, RecOk r) {v w : Str} (h : Says c rs v) (h' : Says c rs w) : v = w := by
  induction rs with
  | nil => exact h.trans h'.symm
  | cons r rs ih =>
    rcases h with h | ⟨hn, h⟩ <;> rcases h' with h' | ⟨hn', h'⟩
    · exact (hr r (by simp)).single c hc v w h h'
    · exact absurd h (hn' _)
    · exact absurd h' (hn _)
    · exact ih (fun x hx => hr x (List.mem_cons_of_mem _ hx)) h h'

theorem histories_ok {prev rs : List Rec} (h : ∀ r ∈ rs, RecOk r) (hp : ∀ r ∈ prev, RecOk r) {x : List Rec × Rec} (hx : x ∈ histories prev rs) :
    ∀ r ∈ x.2 :: x.1, RecOk r := by
  induction rs generalizing prev with
  | nil => cases hx
  | cons r rs ih =>
    have hc : ∀ q ∈ r :: prev, RecOk q := by
      intro q hq
      rcases List.mem_cons.mp hq with rfl | hq
      · exact h _ (by simp)
      · exact hp q hq
    rcases List.mem_cons.mp hx with rfl | hx
    · exact hc
    · exact ih (fun y hy => h y (List.mem_cons_of_mem _ hy)) hc hx

open Classical in
/-- **C56, all package files.** `cards search WORD` prints a line for each package file, in the order of the collections, that `SearchFound` describes: not a language
sub-package, and the word in small letters is a part of its collection or name, or the word in any case a part of its description or version, or of the URL or
packager, where a description without takes those of the package files listed before it. -/
theorem C56_all_exact (css : List (List Rec)) (kw : Str) (hr : ∀ rs ∈ css, ∀ r ∈ rs, Rec.Complete r) :
    List.Forall₂ (fun row x => SRow.For row x.2) (searchCmd false kw (css.map writeRepo)) ((css.flatMap (histories [])).filter (fun x => decide (SearchFound kw x))) := by
  have h := search_parse_full css (fun rs h1 r h2 => (hr rs h1 r h2).ok)
  unfold searchCmd
  rw [List.forall₂_map_left_iff]
  have h2 := forall₂_filter (searchHit false kw) (fun x => decide (SearchFound kw x)) h (by
    intro j x hmem hj
    obtain ⟨rs, h1, h2⟩ := List.mem_flatMap.mp hmem
    have hok := histories_ok (fun r hr' => (hr rs h1 r hr').ok) (by simp) h2
    have hx := mem_histories h2
    obtain ⟨-, ⟨v, hv⟩, -, ⟨c, hc⟩⟩ := hr rs h1 x.2 hx
    have hrok := hok x.2 (by simp)
    obtain ⟨n, hn⟩ := hrok.name
    have hone : ∀ c ∈ singleFields, ∀ v, x.2.Has c v → ∀ P : Str → Prop, ((∃ w, x.2.Has c w ∧ P w) ↔ P v) := by
      intro c hc v hv P
      constructor
      · rintro ⟨w, hw, h⟩
        rwa [hrok.single c hc v w hv hw]
      · exact fun h => ⟨v, hv, h⟩
    have hsone : ∀ c ∈ singleFields, ∀ v, Says c (x.2 :: x.1) v → ((∃ w, Says c (x.2 :: x.1) w ∧ ContainsNoCase w kw) ↔ ContainsNoCase v kw) := by
      intro c hc v hv
      constructor
      · rintro ⟨w, hw, h⟩
        rwa [Says_one hc hok hv hw]
      · exact fun h => ⟨v, hv, h⟩
    have hD : Str.has (convertToLowerCase j.description) (convertToLowerCase kw) = true ∨ Str.has j.name (convertToLowerCase kw) = true ↔
        (∃ w, x.2.Has 'D' w ∧ ContainsNoCase w kw) ∨ Str.has j.name (convertToLowerCase kw) = true := by
      rw [has_nocase]
      by_cases hd : ∃ d, x.2.Has 'D' d
      · obtain ⟨d, hd⟩ := hd
        rw [hone 'D' (by decide) d hd, hj.desc.description d hd]
      · rw [hj.desc.noDescription (fun v hv => hd ⟨v, hv⟩)]
        constructor
        · rintro (⟨a, b, c, h, hb⟩ | h)
          · have : b = [] := by
              cases b with
              | nil => rfl
              | cons x b => simp at h
            rw [this] at hb
            right
            rw [List.map_eq_nil_iff.mp hb.symm, has_iff]
            exact ⟨[], j.name, by simp [convertToLowerCase]⟩
          · exact Or.inr h
        · rintro (⟨w, hw, _⟩ | h)
          · exact absurd ⟨w, hw⟩ hd
          · exact Or.inr h
    have hN : j.nls = [] ↔ ∀ v, x.2.Has 'n' v → v = [] := by
      constructor
      · intro h v hv
        rw [hj.desc.nls v hv] at h
        exact h
      · intro h
        by_cases hh : ∃ v, x.2.Has 'n' v
        · obtain ⟨v, hv⟩ := hh
          rw [hj.desc.nls v hv, h v hv]
        · exact hj.desc.noNls (fun v hv => hh ⟨v, hv⟩)
    have e1 : (∃ c ∈ "cN".toList, ∃ v, x.2.Has c v ∧ kw.map Char.toLower <:+: v) ↔
        (Str.has j.collection (convertToLowerCase kw) = true ∨ Str.has j.name (convertToLowerCase kw) = true) := by
      rw [has_iff, has_iff, lower_map, hj.desc.collection c hc, hj.desc.name n hn, ← hone 'c' (by decide) c hc (fun v => kw.map Char.toLower <:+: v),
        ← hone 'N' (by decide) n hn (fun v => kw.map Char.toLower <:+: v)]
      simp
    have e2 : (∃ c ∈ "DV".toList, ∃ v, x.2.Has c v ∧ ContainsNoCase v kw) ↔
        ((∃ w, x.2.Has 'D' w ∧ ContainsNoCase w kw) ∨ Str.has (convertToLowerCase j.version) (convertToLowerCase kw) = true) := by
      rw [has_nocase, hj.desc.version v hv, ← hone 'V' (by decide) v hv (fun v => ContainsNoCase v kw)]
      simp
    have e3 : (∃ c ∈ "UP".toList, ∃ v, Says c (x.2 :: x.1) v ∧ ContainsNoCase v kw) ↔
        (Str.has (convertToLowerCase j.url) (convertToLowerCase kw) = true ∨ Str.has (convertToLowerCase j.packager) (convertToLowerCase kw) = true) := by
      rw [has_nocase, has_nocase, ← hsone 'U' (by decide) _ hj.url, ← hsone 'P' (by decide) _ hj.packager]
      simp
    rw [Bool.eq_iff_iff]
    unfold SearchFound
    simp only [searchHit, Bool.false_eq_true, if_false, decide_eq_true_eq, Bool.and_eq_true, Bool.or_eq_true]
    rw [hN, e1, e2, e3]
    clear * - hD
    generalize (Str.has j.collection (convertToLowerCase kw) = true) = A at *
    generalize (Str.has j.name (convertToLowerCase kw) = true) = B at *
    generalize (Str.has (convertToLowerCase j.description) (convertToLowerCase kw) = true) = C at *
    generalize (Str.has (convertToLowerCase j.version) (convertToLowerCase kw) = true) = D at *
    generalize (Str.has (convertToLowerCase j.url) (convertToLowerCase kw) = true) = E at *
    generalize (Str.has (convertToLowerCase j.packager) (convertToLowerCase kw) = true) = F at *
    generalize (∃ w, x.2.Has 'D' w ∧ ContainsNoCase w kw) = G at *
    tauto)
  refine forall₂_mem_imp h2 ?_
  intro j x hmem hj
  obtain ⟨rs, h1, h2⟩ := List.mem_flatMap.mp (List.mem_filter.mp hmem).1
  obtain ⟨hok, ⟨v, hv⟩, _, ⟨c, hc⟩⟩ := hr rs h1 x.2 (mem_histories h2)
  obtain ⟨n, hn⟩ := hok.name
  refine ⟨by rw [hj.desc.collection c hc]; exact hc, by rw [hj.desc.name n hn]; exact hn, by rw [hj.desc.version v hv]; exact hv, ?_⟩
  by_cases hd : ∃ d, x.2.Has 'D' d
  · obtain ⟨d, hd⟩ := hd
    exact Or.inl (by rw [hj.desc.description d hd]; exact hd)
  · have hd' : ∀ v, ¬ x.2.Has 'D' v := fun v hv => hd ⟨v, hv⟩
    exact Or.inr ⟨hj.desc.noDescription hd', hd'⟩

/-- The repository of the counterexamples: `qux.bin`, which has no URL, stands behind `bar`, and is found with a word of `bar`'s URL. -/
example : Rec.Complete sXorg ∧ Rec.Complete sBar ∧ Rec.Complete sQuxBin ∧ SearchFound "bar.example".toList ([sBar], sQuxBin) := by
  refine ⟨sXorg_complete, sBar_complete, sQuxBin_complete, Or.inr (Or.inr ⟨'U', by decide, "https://bar.example".toList, ?_, ?_⟩), ?_⟩
  · refine Or.inr ⟨?_, Or.inl ?_⟩
    · intro w hw
      unfold Rec.Has sQuxBin sRec at hw
      simp at hw
    · unfold Rec.Has; decide
  · exact ⟨"https://".toList, "bar.example".toList, [], by decide, rfl⟩
  · intro v hv
    unfold Rec.Has sQuxBin sRec at hv
    simp at hv

end Cards.Props
