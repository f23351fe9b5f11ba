import Verif.Model.RemoveCmd
import Verif.Lemmas.Base
import Mathlib.Logic.Relation
import Mathlib.Tactic.Common
/-!
# The depth first search of `cards remove`
-/
namespace Cards

/-- `b` is listed at `a` in the graph. -/
def Edge (g : List (Str × List Str)) (a b : Str) : Prop := ∃ ds, mget g a = some ds ∧ b ∈ ds

/-- Reachable through any number of edges. -/
abbrev Reach (g : List (Str × List Str)) : Str → Str → Prop := Relation.ReflTransGen (Edge g)

/-- The number of graph nodes not visited. -/
def unvisited (g : List (Str × List Str)) (vis : List Str) : Nat := ((keys g).filter (fun n => !vis.contains n)).length

theorem unvisited_mono {g : List (Str × List Str)} {vis vis' : List Str} (h : ∀ x ∈ vis, x ∈ vis') :
    unvisited g vis' ≤ unvisited g vis := by
  simp only [unvisited]
  induction keys g with
  | nil => simp
  | cons k ks ih =>
    simp only [List.filter_cons]
    by_cases hk : k ∈ vis
    · simp [hk, h k hk]; simpa using ih
    · by_cases hk' : k ∈ vis'
      · simp [hk, hk']; simp at ih; omega
      · simp [hk, hk']; simpa using ih

theorem unvisited_lt {g : List (Str × List Str)} {vis : List Str} {n : Str} (hn : n ∈ keys g) (hv : n ∉ vis) :
    unvisited g (sinsert n vis) < unvisited g vis := by
  have aux : ∀ ks : List Str, n ∈ ks →
      (ks.filter (fun m => !(sinsert n vis).contains m)).length < (ks.filter (fun m => !vis.contains m)).length := by
    intro ks
    induction ks with
    | nil => simp
    | cons k ks ih =>
      intro hk
      have hle : (ks.filter (fun m => !(sinsert n vis).contains m)).length ≤ (ks.filter (fun m => !vis.contains m)).length := by
        clear ih hk
        induction ks with
        | nil => simp
        | cons x xs ihx =>
          simp only [List.filter_cons]
          by_cases hx : x ∈ vis
          · simp [hx]; simpa using ihx
          · by_cases hx' : x = n
            · subst hx'; simp [hx]; simp at ihx; omega
            · simp [hx, hx']; simpa using ihx
      simp only [List.filter_cons]
      by_cases hkn : k = n
      · subst hkn
        simp [hv]; simp at hle; omega
      · have := ih (by simpa [Ne.symm hkn] using hk)
        by_cases hk' : k ∈ vis
        · simp [hk']; simpa using this
        · simp [hk', hkn]; simpa using this
  exact aux _ hn

theorem unvisited_nil (g : List (Str × List Str)) : unvisited g [] = g.length := by
  have : (keys g).filter (fun n => !([] : List Str).contains n) = keys g := by simp
  simp only [unvisited, this]; simp [keys]

/-- What a search from `n` with visited set `vis` gives. -/
structure Visits (g : List (Str × List Str)) (from_ : Str → Prop) (vis vis' : List Str) : Prop where
  sub : ∀ x ∈ vis, x ∈ vis'
  reach : ∀ x ∈ vis', x ∈ vis ∨ ∃ n, from_ n ∧ Reach g n x
  closed : ∀ x ∈ vis', x ∉ vis → ∀ y, Edge g x y → y ∈ vis'

theorem visit_spec (g : List (Str × List Str)) (fuel : Nat) : ∀ (n : Str) (vis : List Str), unvisited g vis < fuel →
    ∃ vis', visit g fuel n vis = some vis' ∧ n ∈ vis' ∧ Visits g (· = n) vis vis' := by
  induction fuel with
  | zero => intro n vis h; omega
  | succ f ih =>
    intro n vis hu
    simp only [visit]
    by_cases hn : n ∈ vis
    · refine ⟨vis, by simp [hn], hn, ⟨fun x h => h, fun x h => Or.inl h, fun x h h' => absurd h h'⟩⟩
    · simp only [List.contains_iff_mem, hn, if_false]
      cases hg : mget g n with
      | none =>
        refine ⟨sinsert n vis, rfl, by simp, ⟨fun x h => by simp [h], ?_, ?_⟩⟩
        · intro x hx
          rcases mem_sinsert.1 hx with h | h
          · exact Or.inr ⟨n, rfl, h ▸ .refl⟩
          · exact Or.inl h
        · intro x hx hx' y ⟨ds, hd, _⟩
          rcases mem_sinsert.1 hx with h | h
          · subst h; rw [hg] at hd; simp at hd
          · exact absurd h hx'
      | some ds =>
        have hkey : n ∈ keys g := by
          by_contra h; rw [mget_none_iff.2 h] at hg; simp at hg
        have hlt := unvisited_lt (g := g) hkey hn
        -- the loop over the dependencies
        have loop : ∀ (es : List Str) (v : List Str), unvisited g v < f → n ∈ v →
            ∃ v', es.foldlM (fun vis d => if n = d then some vis else visit g f d vis) v = some v' ∧
              (∀ d ∈ es, d ∈ v') ∧ Visits g (· ∈ es) v v' := by
          intro es
          induction es with
          | nil => intro v _ _; exact ⟨v, rfl, by simp, ⟨fun x h => h, fun x h => Or.inl h, fun x h h' => absurd h h'⟩⟩
          | cons d es ihe =>
            intro v hv hnv
            by_cases hnd : n = d
            · obtain ⟨v', h1, h2, h3⟩ := ihe v hv hnv
              refine ⟨v', by simpa [List.foldlM_cons, hnd] using h1, ?_, ⟨h3.sub, ?_, h3.closed⟩⟩
              · intro x hx
                rcases List.mem_cons.1 hx with h | h
                · rw [h, ← hnd]; exact h3.sub n hnv
                · exact h2 x h
              · intro x hx
                rcases h3.reach x hx with h | ⟨m, hm, hr⟩
                · exact Or.inl h
                · exact Or.inr ⟨m, List.mem_cons_of_mem _ hm, hr⟩
            · obtain ⟨v1, a1, a2, a3⟩ := ih d v hv
              have hv1 : unvisited g v1 < f := Nat.lt_of_le_of_lt (unvisited_mono a3.sub) hv
              obtain ⟨v', h1, h2, h3⟩ := ihe v1 hv1 (a3.sub n hnv)
              refine ⟨v', by simp [List.foldlM_cons, hnd, a1, h1], ?_, ⟨fun x h => h3.sub x (a3.sub x h), ?_, ?_⟩⟩
              · intro x hx
                rcases List.mem_cons.1 hx with h | h
                · rw [h]; exact h3.sub d a2
                · exact h2 x h
              · intro x hx
                rcases h3.reach x hx with h | ⟨m, hm, hr⟩
                · rcases a3.reach x h with h | ⟨m, hm, hr⟩
                  · exact Or.inl h
                  · exact Or.inr ⟨m, hm ▸ List.mem_cons_self .., hr⟩
                · exact Or.inr ⟨m, List.mem_cons_of_mem _ hm, hr⟩
              · intro x hx hx' y hy
                by_cases h : x ∈ v1
                · exact h3.sub y (a3.closed x h hx' y hy)
                · exact h3.closed x hx h y hy
        obtain ⟨v', h1, h2, h3⟩ := loop ds (sinsert n vis) (by omega) (by simp)
        refine ⟨v', h1, h3.sub n (by simp), ⟨fun x h => h3.sub x (by simp [h]), ?_, ?_⟩⟩
        · intro x hx
          rcases h3.reach x hx with h | ⟨m, hm, hr⟩
          · rcases mem_sinsert.1 h with h | h
            · exact Or.inr ⟨n, rfl, h ▸ .refl⟩
            · exact Or.inl h
          · exact Or.inr ⟨n, rfl, .head ⟨ds, hg, hm⟩ hr⟩
        · intro x hx hx' y hy
          by_cases h : x = n
          · subst h
            obtain ⟨ds', hd, hmem⟩ := hy
            rw [hg] at hd; cases hd
            exact h2 y hmem
          · exact h3.closed x hx (by simp [h, hx']) y hy

/-- The search ends, whatever the graph, and finds exactly what is reachable from the roots. -/
theorem needed_spec (g : List (Str × List Str)) (roots : List Str) :
    ∃ vis, needed g roots = some vis ∧ ∀ x, x ∈ vis ↔ ∃ n ∈ roots, Reach g n x := by
  have loop : ∀ (rs : List Str) (v : List Str), (∀ x ∈ v, ∀ y, Edge g x y → y ∈ v) →
      ∃ v', rs.foldlM (fun vis n => visit g (g.length + 1) n vis) v = some v' ∧ (∀ r ∈ rs, r ∈ v') ∧
        (∀ x ∈ v, x ∈ v') ∧ (∀ x ∈ v', ∀ y, Edge g x y → y ∈ v') ∧ (∀ x ∈ v', x ∈ v ∨ ∃ n ∈ rs, Reach g n x) := by
    intro rs
    induction rs with
    | nil => intro v hv; exact ⟨v, rfl, by simp, fun x h => h, hv, fun x h => Or.inl h⟩
    | cons r rs ih =>
      intro v hv
      have hu : unvisited g v < g.length + 1 := by
        have := unvisited_mono (g := g) (vis := []) (vis' := v) (by simp)
        rw [unvisited_nil] at this; omega
      obtain ⟨v1, a1, a2, a3⟩ := visit_spec g _ r v hu
      have hc1 : ∀ x ∈ v1, ∀ y, Edge g x y → y ∈ v1 := by
        intro x hx y hy
        by_cases h : x ∈ v
        · exact a3.sub y (hv x h y hy)
        · exact a3.closed x hx h y hy
      obtain ⟨v', h1, h2, h3, h4, h5⟩ := ih v1 hc1
      refine ⟨v', by simp [List.foldlM_cons, a1, h1], ?_, fun x h => h3 x (a3.sub x h), h4, ?_⟩
      · intro x hx
        rcases List.mem_cons.1 hx with h | h
        · rw [h]; exact h3 r a2
        · exact h2 x h
      · intro x hx
        rcases h5 x hx with h | ⟨m, hm, hr⟩
        · rcases a3.reach x h with h | ⟨m, hm, hr⟩
          · exact Or.inl h
          · exact Or.inr ⟨m, hm ▸ List.mem_cons_self .., hr⟩
        · exact Or.inr ⟨m, List.mem_cons_of_mem _ hm, hr⟩
  obtain ⟨v', h1, h2, _, h4, h5⟩ := loop roots [] (by simp)
  refine ⟨v', h1, fun x => ⟨?_, ?_⟩⟩
  · intro hx
    rcases h5 x hx with h | h
    · simp at h
    · exact h
  · rintro ⟨n, hn, hr⟩
    have hn' := h2 n hn
    induction hr with
    | refl => exact hn'
    | tail _ he ih => exact h4 _ ih _ he

end Cards
