import Verif.Model.WebMain
import Mathlib.Tactic.Common
/-!
# C202: every request is answered with a whole page
-/
namespace Cards.Props
open Cards

/-- No slash of either kind. -/
def NoSlash (s : Str) : Prop := '/' ∉ s ∧ '\\' ∉ s

/-- A slash of either kind. -/
def Slash (c : Char) : Prop := c = '/' ∨ c = '\\'

theorem isSlashish_iff (c : Char) : isSlashish c = true ↔ Slash c := by
  unfold isSlashish Slash
  simp

theorem noSlash_iff (s : Str) : NoSlash s ↔ ∀ c ∈ s, (!isSlashish c) = true := by
  unfold NoSlash
  constructor
  · rintro ⟨h1, h2⟩ c hc
    rw [Bool.not_eq_true', ← Bool.not_eq_true, isSlashish_iff]
    rintro (rfl | rfl)
    · exact h1 hc
    · exact h2 hc
  · intro h
    exact ⟨fun hc => absurd (h _ hc) (by decide), fun hc => absurd (h _ hc) (by decide)⟩

theorem inTakeWhile {p : Char → Bool} {l : Str} {x : Char} (h : x ∈ l.takeWhile p) : p x = true := by
  induction l with
  | nil => cases h
  | cons y l ih =>
    rw [List.takeWhile_cons] at h
    split at h
    · rename_i hy
      rcases List.mem_cons.mp h with rfl | h
      · exact hy
      · exact ih h
    · cases h

theorem dropWhile_app {p : Char → Bool} (l : Str) (c : Char) (r : Str) (hl : ∀ x ∈ l, p x = true) (hc : p c = false) :
    (l ++ c :: r).dropWhile p = c :: r ∧ (l ++ c :: r).takeWhile p = l := by
  induction l with
  | nil => simp [hc]
  | cons x l ih =>
    have hx := hl x (by simp)
    obtain ⟨h1, h2⟩ := ih (fun y hy => hl y (by simp [hy]))
    simp [hx, h1, h2]

/-- The cut at the last slash. -/
theorem splitLastSlash_some (s a b : Str) : splitLastSlash s = some (a, b) ↔ ∃ c, Slash c ∧ s = a ++ c :: b ∧ NoSlash b := by
  constructor
  · intro h
    unfold splitLastSlash at h
    have e := List.takeWhile_append_dropWhile (p := fun c => !isSlashish c) (l := s.reverse)
    revert h
    cases hd : s.reverse.dropWhile (fun c => !isSlashish c) with
    | nil => intro h; cases h
    | cons c r =>
      intro h
      injection h with h
      obtain ⟨rfl, rfl⟩ := Prod.mk.inj h
      refine ⟨c, ?_, ?_, ?_⟩
      · rw [← isSlashish_iff]
        have := List.head?_dropWhile_not (p := fun c => !isSlashish c) (l := s.reverse)
        rw [hd] at this
        simpa using this
      · rw [hd] at e
        have := congrArg List.reverse e
        rw [List.reverse_reverse] at this
        exact this.symm.trans (by simp)
      · rw [noSlash_iff]
        intro x hx
        rw [List.mem_reverse] at hx
        exact inTakeWhile hx
  · rintro ⟨c, hc, rfl, hb⟩
    unfold splitLastSlash
    have hr : (a ++ c :: b).reverse = b.reverse ++ c :: a.reverse := by simp
    have hc' : (fun c => !isSlashish c) c = false := by simp [(isSlashish_iff c).mpr hc]
    obtain ⟨h1, h2⟩ := dropWhile_app (p := fun c => !isSlashish c) b.reverse c a.reverse (by rw [noSlash_iff] at hb; intro x hx; exact hb x (List.mem_reverse.mp hx)) hc'
    rw [hr, h1, h2]
    simp

theorem splitLastSlash_none (s : Str) : splitLastSlash s = none ↔ NoSlash s := by
  constructor
  · intro h
    unfold splitLastSlash at h
    rw [noSlash_iff]
    have e := List.takeWhile_append_dropWhile (p := fun c => !isSlashish c) (l := s.reverse)
    revert h
    cases hd : s.reverse.dropWhile (fun c => !isSlashish c) with
    | cons c r => intro h; cases h
    | nil =>
      intro _ x hx
      rw [hd, List.append_nil] at e
      have : x ∈ s.reverse := List.mem_reverse.mpr hx
      rw [← e] at this
      exact inTakeWhile this
  · intro h
    cases hs : splitLastSlash s with
    | none => rfl
    | some p =>
      obtain ⟨c, hc, he, _⟩ := (splitLastSlash_some s p.1 p.2).mp hs
      rcases hc with rfl | rfl
      · exact absurd (by rw [he]; simp) h.1
      · exact absurd (by rw [he]; simp) h.2

/-- The script lies in the directory `lang` of the site (and this directory in another one, be it the root). -/
def LiesIn (script lang : Str) : Prop := ∃ a c d b, script = a ++ c :: (lang ++ d :: b) ∧ Slash c ∧ Slash d ∧ NoSlash lang ∧ NoSlash b

/-- A whole page in a language for a request. -/
def WholePage (site : Site) (q : Str) (fr : Bool) : List WebPart := [.header, .menu fr, .cell, .content (webBody { site with french := fr } q), .footer]

theorem webMain_in (site : Site) (q p lang : Str) (h : LiesIn p lang) : webMain site (some q) (some p) = WholePage site q (decide (lang = "fr".toList)) := by
  obtain ⟨a, c, d, b, rfl, hc, hd, hl, hb⟩ := h
  unfold webMain
  have h1 : splitLastSlash (a ++ c :: (lang ++ d :: b)) = some (a ++ c :: lang, b) := (splitLastSlash_some _ _ _).mpr ⟨d, hd, by simp, hb⟩
  have h2 : splitLastSlash (a ++ c :: lang) = some (a, lang) := (splitLastSlash_some _ _ _).mpr ⟨c, hc, rfl, hl⟩
  simp only [h1, h2]
  rfl

/-- **C202.** A request to a script that lies in a directory of the site gets a whole page: header, menu, content for the request, and the end of the page; in French when the directory is `fr`, in English otherwise. -/
theorem C202_whole (site : Site) (q p lang : Str) (h : LiesIn p lang) :
    (lang = "fr".toList → webMain site (some q) (some p) = WholePage site q true) ∧ (lang ≠ "fr".toList → webMain site (some q) (some p) = WholePage site q false) := by
  rw [webMain_in site q p lang h]
  generalize "fr".toList = f
  exact ⟨fun e => by simp [e], fun e => by simp [e]⟩

/-- **C202, the other requests.** The end of the page is printed for no other: without a request or a name of the script, or when the name has no slash, nothing is printed; when it has one, only the header is. -/
theorem C202_otherwise (site : Site) (q p : Option Str) :
    (WebPart.footer ∈ webMain site q p ↔ q ≠ none ∧ ∃ s lang, p = some s ∧ LiesIn s lang) ∧
    (webMain site q p = [] ↔ q = none ∨ p = none ∨ ∃ s, p = some s ∧ NoSlash s) ∧
    (webMain site q p = [.header] ↔ q ≠ none ∧ ∃ a c b, p = some (a ++ c :: b) ∧ Slash c ∧ NoSlash a ∧ NoSlash b) := by
  cases q with
  | none => simp [webMain]
  | some q =>
    cases p with
    | none => simp [webMain]
    | some p =>
      cases h1 : splitLastSlash p with
      | none =>
        have hn := (splitLastSlash_none p).mp h1
        have hno : ∀ a c b, Slash c → p ≠ a ++ c :: b := by
          rintro a c b (rfl | rfl) rfl
          · exact hn.1 (by simp)
          · exact hn.2 (by simp)
        have e : webMain site (some q) (some p) = [] := by unfold webMain; simp only [h1]
        rw [e]
        refine ⟨⟨fun h => by simp at h, ?_⟩, ⟨fun _ => Or.inr (Or.inr ⟨p, rfl, hn⟩), fun _ => rfl⟩, ⟨fun h => by simp at h, ?_⟩⟩
        · rintro ⟨_, s, lang, hs, a, c, d, b, hp, hc, _⟩
          injection hs with hs
          exact absurd (hs.trans hp) (hno _ _ _ hc)
        · rintro ⟨_, a, c, b, hs, hc, _⟩
          injection hs with hs
          exact absurd hs (hno _ _ _ hc)
      | some x =>
        obtain ⟨path, base⟩ := x
        obtain ⟨d, hd, hp, hb⟩ := (splitLastSlash_some _ _ _).mp h1
        have hsl : ¬ NoSlash p := by
          rintro ⟨n1, n2⟩
          rcases hd with rfl | rfl
          · exact n1 (by rw [hp]; simp)
          · exact n2 (by rw [hp]; simp)
        cases h2 : splitLastSlash path with
        | none =>
          have hn := (splitLastSlash_none path).mp h2
          have e : webMain site (some q) (some p) = [.header] := by unfold webMain; simp only [h1, h2]
          rw [e]
          refine ⟨⟨fun h => by simp at h, ?_⟩, ⟨fun h => by simp at h, ?_⟩, ⟨fun _ => ⟨by simp, path, d, base, by rw [hp], hd, hn, hb⟩, fun _ => rfl⟩⟩
          · rintro ⟨_, s, lang, hs, hl⟩
            injection hs with hs
            subst hs
            have := webMain_in site q p lang hl
            rw [e] at this
            simp [WholePage] at this
          · rintro (h | h | ⟨s, hs, h⟩)
            · cases h
            · cases h
            · injection hs with hs
              subst hs
              exact absurd h hsl
        | some y =>
          obtain ⟨a, lang⟩ := y
          obtain ⟨c, hc, hpath, hl⟩ := (splitLastSlash_some _ _ _).mp h2
          have hin : LiesIn p lang := ⟨a, c, d, base, by rw [hp, hpath]; simp, hc, hd, hl, hb⟩
          rw [webMain_in site q p lang hin]
          refine ⟨⟨fun _ => ⟨by simp, p, lang, rfl, hin⟩, fun _ => by simp [WholePage]⟩, ⟨fun h => by simp [WholePage] at h, ?_⟩, ⟨fun h => by simp [WholePage] at h, ?_⟩⟩
          · rintro (h | h | ⟨s, hs, h⟩)
            · cases h
            · cases h
            · injection hs with hs
              subst hs
              exact absurd h hsl
          · rintro ⟨_, a', c', b', hs, hc', ha', hb'⟩
            injection hs with hs
            have k1 := (splitLastSlash_some p a' b').mpr ⟨c', hc', hs, hb'⟩
            rw [h1] at k1
            injection k1 with k1
            obtain ⟨rfl, rfl⟩ := Prod.mk.inj k1
            rw [(splitLastSlash_none _).mpr ha'] at h2
            cases h2

example : LiesIn "/cgi/fr/index.cgi".toList "fr".toList ∧ LiesIn "/en/".toList "en".toList ∧ ¬ NoSlash "/index.cgi".toList :=
  ⟨⟨"/cgi".toList, '/', '/', "index.cgi".toList, rfl, Or.inl rfl, Or.inl rfl, ⟨by decide, by decide⟩, ⟨by decide, by decide⟩⟩,
   ⟨[], '/', '/', [], rfl, Or.inl rfl, Or.inl rfl, ⟨by decide, by decide⟩, ⟨by decide, by decide⟩⟩, fun h => h.1 (by decide)⟩

end Cards.Props
