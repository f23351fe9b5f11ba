import Verif.Model.Mybld
import Verif.Props.Pkgfile
import Verif.Props.WebPkgs
/-!
# C118: mybld changes the version or the release of a port, and nothing else
-/
namespace Cards.Props
open Cards Cards.Spec

/-! ## Lines and their beginnings -/

/-- `K` is what the line begins with, after white space. -/
def Begins (K l : Str) : Prop := ∃ a x, (∀ c ∈ a, White c) ∧ l = a ++ K ++ x

theorem begins_of_stripped {K l t : Str} (h : Stripped l t) (hk : K <+: t) : Begins K l := by
  obtain ⟨a, b, rfl, ha, _, _, _⟩ := h
  obtain ⟨x, rfl⟩ := hk
  exact ⟨a, x ++ b, ha, by simp⟩

theorem stripped_of_begins {K l t : Str} (hK : K ≠ []) (hw : ∀ c ∈ K, ¬ White c) (h : Stripped l t) (hb : Begins K l) : K <+: t := by
  obtain ⟨a, b, e, ha, hbw, hh, _⟩ := h
  obtain ⟨a', x, ha', e'⟩ := hb
  rw [e, List.append_assoc, List.append_assoc] at e'
  obtain ⟨k, K', rfl⟩ := List.exists_cons_of_ne_nil hK
  rcases List.append_eq_append_iff.mp e' with ⟨z, rfl, hz⟩ | ⟨z, rfl, hz⟩
  · -- a' = a ++ z
    cases z with
    | nil =>
      rw [List.nil_append] at hz
      rcases List.append_eq_append_iff.mp hz with ⟨y, hy, hy'⟩ | ⟨y, hy, hy'⟩
      · cases y with
        | nil => rw [hy]; simp
        | cons c y =>
          exfalso
          exact hw c (by rw [hy]; simp) (hbw c (by rw [hy']; simp))
      · rw [hy]; exact List.prefix_append _ _
    | cons c z =>
      exfalso
      cases t with
      | nil =>
        rw [List.nil_append] at hz
        exact hw k (by simp) (hbw k (by rw [hz]; simp))
      | cons d t =>
        have : d = c := by simpa using congrArg List.head? hz
        subst this
        exact hh d rfl (ha' d (by simp))
  · cases z with
    | nil =>
      rw [List.nil_append] at hz
      rcases List.append_eq_append_iff.mp hz.symm with ⟨y, hy, hy'⟩ | ⟨y, hy, hy'⟩
      · cases y with
        | nil => rw [List.append_nil] at hy; rw [← hy]
        | cons c y =>
          exfalso
          exact hw c (by rw [hy]; simp) (hbw c (by rw [hy']; simp))
      · rw [hy]; exact List.prefix_append _ _
    | cons c z =>
      exfalso
      have : k = c := by simpa using congrArg List.head? hz
      subst this
      exact hw k (by simp) (ha k (by simp))

theorem stripped_infix {K l t : Str} (hK : K ≠ []) (hw : ∀ c ∈ K, ¬ White c) (h : Stripped l t) : K <:+: l ↔ K <:+: t := by
  obtain ⟨a, b, rfl, ha, hb, _, _⟩ := h
  constructor
  · rintro ⟨X, Y, e⟩
    obtain ⟨k, K', rfl⟩ := List.exists_cons_of_ne_nil hK
    rw [List.append_assoc, List.append_assoc] at e
    rcases List.append_eq_append_iff.mp e with ⟨z, rfl, hz⟩ | ⟨z, rfl, hz⟩
    · cases z with
      | nil =>
        rw [List.nil_append] at hz
        rcases List.append_eq_append_iff.mp hz.symm with ⟨y, hy, hy'⟩ | ⟨y, hy, hy'⟩
        · cases y with
          | nil => rw [List.append_nil] at hy; exact ⟨[], [], by simp [hy]⟩
          | cons c y => exact absurd (hb c (by rw [hy']; simp)) (hw c (by rw [hy]; simp))
        · exact ⟨[], y, by simp [hy]⟩
      | cons c z =>
        have : k = c := by simpa using congrArg List.head? hz
        subst this
        exact absurd (ha k (by simp)) (hw k (by simp))
    · rw [← List.append_assoc] at hz
      rcases List.append_eq_append_iff.mp hz.symm with ⟨y, hy, hy'⟩ | ⟨y, hy, hy'⟩
      · exact ⟨z, y, hy.symm⟩
      · cases y with
        | nil => rw [List.append_nil] at hy; exact ⟨z, [], by simp [hy]⟩
        | cons c y =>
          exfalso
          have e1 : (z ++ k :: K').getLast? = (t ++ c :: y).getLast? := by rw [hy]
          rw [List.getLast?_append_cons, List.getLast?_append_cons] at e1
          obtain ⟨d, hd⟩ : ∃ d, (c :: y).getLast? = some d := ⟨_, List.getLast?_eq_some_getLast (by simp)⟩
          rw [hd] at e1
          exact hw d (List.mem_of_getLast? e1) (hb d (by rw [hy']; exact List.mem_append_left _ (List.mem_of_getLast? hd)))
  · rintro ⟨X, Y, e⟩
    exact ⟨a ++ X, Y ++ b, by rw [← e]; simp⟩

theorem begins_infix {K l : Str} (h : Begins K l) : K <:+: l := by
  obtain ⟨a, x, _, rfl⟩ := h
  exact ⟨a, x, rfl⟩

theorem white_version : ∀ c ∈ "version=".toList, ¬ White c := by unfold White; decide
theorem white_release : ∀ c ∈ "release=".toList, ¬ White c := by unfold White; decide
theorem white_keyword {K : Str} (h : IsKeyword K) : ∀ c ∈ K, ¬ White c := by
  unfold White
  rcases h with rfl | rfl <;> decide

/-! ## sed -/

theorem sedHere_eq {p s r : Str} (h : sedHere p s = some r) : ∃ m, s = m ++ r ∧ m.length = p.length := by
  induction p generalizing s with
  | nil => cases h; exact ⟨[], rfl, rfl⟩
  | cons c p ih =>
    cases s with
    | nil => simp [sedHere] at h
    | cons d s =>
      simp only [sedHere] at h
      split at h
      · obtain ⟨m, rfl, hl⟩ := ih h
        exact ⟨d :: m, rfl, by simp [hl]⟩
      · exact absurd h nofun

theorem sedHere_lit {k v s r : Str} (hk : '.' ∉ k) (h : sedHere (k ++ v) s = some r) : ∃ m, s = k ++ m ++ r := by
  induction k generalizing s with
  | nil =>
    obtain ⟨m, rfl, _⟩ := sedHere_eq h
    exact ⟨m, by simp⟩
  | cons c k ih =>
    cases s with
    | nil => simp [sedHere] at h
    | cons d s =>
      simp only [List.cons_append, sedHere] at h
      split at h
      · next hc =>
        obtain ⟨m, rfl⟩ := ih (fun hm => hk (by simp [hm])) h
        rcases hc with rfl | rfl
        · exact absurd (List.mem_cons_self ..) hk
        · exact ⟨m, rfl⟩
      · exact absurd h nofun

theorem sedHere_self (p r : Str) : sedHere p (p ++ r) = some r := by
  induction p with
  | nil => rfl
  | cons c p ih => simp [sedHere, ih]

theorem sedFirst_cases (v new l : Str) :
    sedFirst ("version=".toList ++ v) new l = l ∨
    ∃ A m B, l = A ++ ("version=".toList ++ m) ++ B ∧ sedFirst ("version=".toList ++ v) new l = A ++ new ++ B := by
  induction l with
  | nil =>
    left
    have : sedHere ("version=".toList ++ v) [] = none := rfl
    simp only [sedFirst, this]
  | cons c l ih =>
    unfold sedFirst
    cases h : sedHere ("version=".toList ++ v) (c :: l) with
    | some r =>
      right
      obtain ⟨m, hm⟩ := sedHere_lit (by decide) h
      exact ⟨[], m, r, by rw [hm]; rfl, rfl⟩
    | none =>
      rcases ih with e | ⟨A, m, B, e1, e2⟩
      · left; simp only [e]
      · right
        refine ⟨c :: A, m, B, ?_, ?_⟩
        · conv_lhs => rw [e1]
          rfl
        · simp only [e2]; rfl

/-- What the changed line begins with, the line began with. -/
theorem begins_sed {K v new l : Str} (hK : K ≠ []) (hw : ∀ c ∈ K, ¬ White c) (hv : 'v' ∉ K.tail) (hk : K.head? = some 'v' → K = "version=".toList)
    (h : Begins K (sedFirst ("version=".toList ++ v) ("version=".toList ++ new) l)) : Begins K l := by
  rcases sedFirst_cases v ("version=".toList ++ new) l with e | ⟨A, m, B, e1, e2⟩
  · rwa [e] at h
  · rw [e2] at h
    obtain ⟨a, x, ha, e⟩ := h
    simp only [List.append_assoc] at e
    obtain ⟨k, K', rfl⟩ := List.exists_cons_of_ne_nil hK
    rw [show ("version=".toList ++ (new ++ B) : Str) = 'v' :: ("ersion=".toList ++ (new ++ B)) from rfl] at e
    rcases List.append_eq_append_iff.mp e with ⟨z, rfl, hz⟩ | ⟨z, rfl, hz⟩
    · -- `A` is white
      cases z with
      | nil =>
        have : 'v' = k := by simpa using congrArg List.head? hz
        subst this
        have := hk rfl
        rw [this, e1]
        exact ⟨A, m ++ B, fun c hc => ha c (by simp [hc]), by simp⟩
      | cons c z =>
        have : 'v' = c := by simpa using congrArg List.head? hz
        subst this
        exact absurd (ha 'v' (by simp)) (by unfold White; decide)
    · rcases List.append_eq_append_iff.mp hz.symm with ⟨y, hy, hy'⟩ | ⟨y, hy, hy'⟩
      · cases y with
        | nil =>
          rw [List.append_nil] at hy
          exact ⟨a, ("version=".toList ++ m) ++ B, ha, by rw [e1, hy]; simp⟩
        | cons d y =>
          have : 'v' = d := by simpa using congrArg List.head? hy'
          subst this
          cases z with
          | nil =>
            have hk' := hk (by rw [hy]; rfl)
            rw [hk', e1]
            exact ⟨a, m ++ B, ha, by simp⟩
          | cons c z =>
            exfalso
            rw [hy] at hv
            exact hv (by simp)
      · -- the key ends in `z`
        exact ⟨a, y ++ (("version=".toList ++ m) ++ B), ha, by rw [e1, hy]; simp⟩

theorem sedFirst_infix (v new l : Str) :
    "version=".toList <:+: sedFirst ("version=".toList ++ v) ("version=".toList ++ new) l ↔ "version=".toList <:+: l := by
  rcases sedFirst_cases v ("version=".toList ++ new) l with e | ⟨A, m, B, e1, e2⟩
  · rw [e]
  · rw [e2]
    exact iff_of_true ⟨A, new ++ B, by simp⟩ ⟨A, m ++ B, by rw [e1]; simp⟩

theorem sedFirst_untouched {v new l : Str} (h : ¬ "version=".toList <:+: l) : sedFirst ("version=".toList ++ v) new l = l := by
  rcases sedFirst_cases v new l with e | ⟨A, m, B, e1, e2⟩
  · exact e
  · exact absurd ⟨A, m ++ B, by rw [e1]; simp⟩ h

/-- The line that sets the version. -/
theorem sedFirst_version {a b v : Str} (new : Str) (ha : ∀ c ∈ a, White c) :
    sedFirst ("version=".toList ++ v) new (a ++ ("version=".toList ++ v) ++ b) = a ++ new ++ b := by
  induction a with
  | nil =>
    have h := sedHere_self ("version=".toList ++ v) b
    rw [List.nil_append, List.nil_append]
    rw [show (("version=".toList ++ v) ++ b : Str) = 'v' :: ("ersion=".toList ++ v ++ b) from rfl] at h ⊢
    unfold sedFirst
    rw [h]
  | cons c a ih =>
    have hc : sedHere ("version=".toList ++ v) (c :: (a ++ ("version=".toList ++ v) ++ b)) = none := by
      have hne : ('v' : Char) ≠ c := by rintro rfl; exact absurd (ha 'v' (by simp)) (by unfold White; decide)
      rw [show ("version=".toList ++ v : Str) = 'v' :: ("ersion=".toList ++ v) from rfl]
      simp only [sedHere]
      rw [if_neg (by simp [hne])]
    rw [List.cons_append, List.cons_append, List.cons_append, List.cons_append]
    conv_lhs => unfold sedFirst
    rw [hc]
    simp only
    rw [ih (fun c hc => ha c (by simp [hc]))]

theorem hasRelease_iff {l : Str} : hasRelease l = true ↔ "release=".toList <:+: l := isSome_infix

/-- The line that sets the version does not hold `release=`. -/
theorem version_line_kept {a b v : Str} (ha : ∀ c ∈ a, White c) (hb : ∀ c ∈ b, White c) (hv : '=' ∉ v) : ¬ "release=".toList <:+: a ++ ("version=".toList ++ v) ++ b := by
  rintro ⟨X, Y, e⟩
  have w : ¬ White '=' := by unfold White; decide
  have e' : (X ++ "release".toList) ++ '=' :: Y = (a ++ "version".toList) ++ '=' :: (v ++ b) := by
    have : (X ++ "release=".toList ++ Y : Str) = (X ++ "release".toList) ++ '=' :: Y := by simp
    rw [← this, e]; simp
  have n1 : '=' ∉ a ++ "version".toList := by
    intro h
    rcases List.mem_append.mp h with h | h
    · exact w (ha _ h)
    · exact absurd h (by decide)
  have n2 : '=' ∉ v ++ b := by
    intro h
    rcases List.mem_append.mp h with h | h
    · exact hv h
    · exact w (hb _ h)
  rcases List.append_eq_append_iff.mp e' with ⟨z, h1, h2⟩ | ⟨z, h1, h2⟩
  · cases z with
    | nil =>
      rw [List.append_nil] at h1
      have := congrArg List.getLast? h1
      simp at this
    | cons c z =>
      have : '=' = c := by simpa using congrArg List.head? h2
      subst this
      exact n1 (by rw [h1]; simp)
  · cases z with
    | nil =>
      rw [List.append_nil] at h1
      have := congrArg List.getLast? h1
      simp at this
    | cons c z =>
      rw [List.cons_append] at h2
      injection h2 with _ h2
      exact n2 (by rw [h2]; simp)

/-! ## What cards reads afterwards -/

/-- A value for a version: a word without comma, backslash, number sign and equals sign. -/
def PlainWord (v : Str) : Prop := (∀ c ∈ v, ¬ White c ∧ c ≠ ',' ∧ c ≠ '\\' ∧ c ≠ '#') ∧ '=' ∉ v

theorem no_release {l : Str} (h : ¬ "release=".toList <:+: l) (r : Str) (hr : Stripped l r) : ¬ "release=".toList <+: r := by
  intro hp
  exact h (begins_infix (begins_of_stripped hr hp))

theorem mem_mybldVersion {v new : Str} {lines : List Str} {l : Str} (h : l ∈ mybldVersion v new lines) :
    ¬ "release=".toList <:+: l ∧ ∃ q ∈ lines, l = sedFirst ("version=".toList ++ v) ("version=".toList ++ new) q := by
  unfold mybldVersion at h
  rw [List.mem_filter, List.mem_map] at h
  obtain ⟨⟨q, hq, rfl⟩, hr⟩ := h
  refine ⟨fun hi => ?_, q, hq, rfl⟩
  rw [hasRelease_iff.mpr hi] at hr
  exact absurd hr (by decide)

theorem version_not_begins {v new q : Str} (hq : ∀ r, Stripped q r → ¬ "version=".toList <+: r) (r : Str)
    (hr : Stripped (sedFirst ("version=".toList ++ v) ("version=".toList ++ new) q) r) : ¬ "version=".toList <+: r := by
  intro hp
  have hb := begins_sed (K := "version=".toList) (by decide) white_version (by decide) (fun _ => rfl) (begins_of_stripped hr hp)
  exact hq _ ((strip_iff _ _).mp rfl) (stripped_of_begins (by decide) white_version ((strip_iff _ _).mp rfl) hb)

theorem sets_version {v new : Str} {lines : List Str} (h : Sets lines "version=".toList v) (hn : PlainWord new) :
    Sets (mybldVersion v new lines) "version=".toList new := by
  obtain ⟨hv, pre, l, post, rfl, hl, hpost⟩ := h
  refine ⟨hn.1, ?_⟩
  obtain ⟨a, b, e, ha, hb, h1, h2⟩ := hl
  have hs : sedFirst ("version=".toList ++ v) ("version=".toList ++ new) l = a ++ ("version=".toList ++ new) ++ b := by
    rw [e, sedFirst_version _ ha]
  have hk : hasRelease (a ++ ("version=".toList ++ new) ++ b) = false :=
    Bool.eq_false_iff.mpr (fun h => version_line_kept ha hb hn.2 (hasRelease_iff.mp h))
  refine ⟨mybldVersion v new pre, a ++ ("version=".toList ++ new) ++ b, mybldVersion v new post, ?_, ⟨a, b, rfl, ha, hb, ?_, ?_⟩, ?_⟩
  · unfold mybldVersion
    rw [List.map_append, List.filter_append, List.map_cons, hs, List.filter_cons, if_pos (by rw [hk]; rfl)]
  · intro c hc
    have : c = 'v' := by simpa using hc.symm
    subst this
    unfold White; decide
  · intro c hc
    have hm := List.mem_of_getLast? hc
    rcases List.mem_append.mp hm with hm | hm
    · exact white_version c hm
    · exact (hn.1 c hm).1
  · intro q hq r hr
    obtain ⟨_, q', hq', rfl⟩ := mem_mybldVersion hq
    exact version_not_begins (hpost q' hq') r hr

/-- **C118, the version.** `mybld NAME VERSION` on a Pkgfile that sets its version with a plain line: cards then reads that version, release 1. -/
theorem C118_version_partial (v new : Str) (lines : List Str) (h : Sets lines "version=".toList v) (hn : PlainWord new) (before : Str) :
    (readPkgfile before (mybldVersion v new lines)).version = new ∧ (readPkgfile before (mybldVersion v new lines)).release = 1 := by
  refine ⟨C48_version _ _ (sets_version h hn) _, C48_release_default _ ?_ _ _ _⟩
  intro l hl r hr
  exact no_release (mem_mybldVersion hl).1 r hr

theorem pkgLine_release_same {l : Str} (h : ¬ "release=".toList <:+: l) (st : PkgState) : (pkgLine st l).release = st.release := by
  rw [show pkgLine st l = strippedLine st (stripWhiteSpace l) from rfl]
  exact strippedLine_release (no_release h _ ((strip_iff _ _).mp rfl))

theorem dec_plain (n : Nat) : ∀ c ∈ dec n, ¬ White c ∧ c ≠ ',' ∧ c ≠ '\\' ∧ c ≠ '#' := by
  induction n using Nat.strongRecOn with
  | _ n ih =>
    unfold dec
    have hd : ∀ k, k < 10 → (¬ White (digitC k) ∧ digitC k ≠ ',' ∧ digitC k ≠ '\\' ∧ digitC k ≠ '#') := by
      intro k hk
      have : k = 0 ∨ k = 1 ∨ k = 2 ∨ k = 3 ∨ k = 4 ∨ k = 5 ∨ k = 6 ∨ k = 7 ∨ k = 8 ∨ k = 9 := by omega
      unfold White
      rcases this with rfl | rfl | rfl | rfl | rfl | rfl | rfl | rfl | rfl | rfl <;> decide
    split
    · intro c hc
      rw [List.mem_singleton] at hc
      subst hc
      exact hd n (by omega)
    · intro c hc
      rcases List.mem_append.mp hc with hc | hc
      · exact ih (n / 10) (by omega) c hc
      · rw [List.mem_singleton] at hc
        subst hc
        exact hd _ (by omega)

theorem pkgLine_release_set (n : Nat) (st : PkgState) : (pkgLine st ("release=".toList ++ dec n)).release = n % 65536 := by
  rw [show pkgLine st ("release=".toList ++ dec n) = strippedLine st (stripWhiteSpace ("release=".toList ++ dec n)) from rfl]
  have : stripWhiteSpace ("release=".toList ++ dec n) = "release=".toList ++ dec n := by
    rw [strip_iff]
    refine ⟨[], [], by simp, by simp, by simp, ?_, ?_⟩
    · intro c hc
      have : c = 'r' := by simpa using hc.symm
      subst this
      unfold White; decide
    · intro c hc
      rcases List.mem_append.mp (List.mem_of_getLast? hc) with hm | hm
      · exact white_release c hm
      · exact (dec_plain n c hm).1
  rw [this, line_sets_release _ (dec_plain n)]
  unfold atoi
  rw [numText10_dec]
  simp only [Bool.false_eq_true, if_false]
  omega

theorem sedAppend_release (n : Nat) (lines : List Str) (h : ∀ l ∈ lines, ¬ "release=".toList <:+: l) (st : PkgState) :
    ((sedAppend n lines).foldl pkgLine st).release = if lines.any (fun l => "version=".toList.isPrefixOf l) then n % 65536 else st.release := by
  induction lines generalizing st with
  | nil => rfl
  | cons l ls ih =>
    have ih := ih (fun l hl => h l (by simp [hl]))
    have hl := h l (by simp)
    have e : sedAppend n (l :: ls) = (if "version=".toList.isPrefixOf l then [l, "release=".toList ++ dec n] else [l]) ++ sedAppend n ls := rfl
    rw [e, List.foldl_append, ih]
    by_cases hv : "version=".toList.isPrefixOf l = true
    · rw [if_pos hv]
      simp only [List.foldl_cons, List.foldl_nil, pkgLine_release_set, List.any_cons, hv, Bool.true_or, if_true, ite_self]
    · rw [if_neg hv]
      simp only [List.foldl_cons, List.foldl_nil, pkgLine_release_same hl, List.any_cons, Bool.eq_false_iff.mpr hv, Bool.false_or]

/-- **C118, the release, exactly.** After `mybld -i NAME` cards reads the release one higher if a line begins with `version=` at its very beginning (and does not hold `release=`),
otherwise release 1, whatever it was. -/
theorem C118_release_exact (release : Nat) (lines : List Str) (before : Str) :
    ((∃ l ∈ lines, "version=".toList <+: l ∧ ¬ "release=".toList <:+: l) → (readPkgfile before (mybldIncrement release lines)).release = (release + 1) % 65536) ∧
    ((¬ ∃ l ∈ lines, "version=".toList <+: l ∧ ¬ "release=".toList <:+: l) → (readPkgfile before (mybldIncrement release lines)).release = 1) := by
  have hk : ∀ l ∈ lines.filter (fun l => !hasRelease l), ¬ "release=".toList <:+: l := by
    intro l hl hi
    rw [List.mem_filter, hasRelease_iff.mpr hi] at hl
    exact absurd hl.2 (by decide)
  unfold readPkgfile mybldIncrement
  rw [sedAppend_release _ _ hk]
  have : (lines.filter (fun l => !hasRelease l)).any (fun l => "version=".toList.isPrefixOf l) = true ↔
      ∃ l ∈ lines, "version=".toList <+: l ∧ ¬ "release=".toList <:+: l := by
    rw [List.any_eq_true]
    constructor
    · rintro ⟨l, hl, hp⟩
      exact ⟨l, (List.mem_filter.mp hl).1, List.isPrefixOf_iff_prefix.mp hp, hk l hl⟩
    · rintro ⟨l, hl, hp, hr⟩
      refine ⟨l, List.mem_filter.mpr ⟨hl, ?_⟩, List.isPrefixOf_iff_prefix.mpr hp⟩
      rw [Bool.eq_false_iff.mpr (fun h => hr (hasRelease_iff.mp h))]; rfl
  constructor
  · intro h; rw [if_pos (this.mpr h)]
  · intro h; rw [if_neg (fun x => h (this.mp x))]

theorem begins_release (n : Nat) : ¬ Begins "version=".toList ("release=".toList ++ dec n) := by
  rintro ⟨a, x, ha, e⟩
  cases a with
  | nil =>
    have : 'r' = 'v' := by simpa using congrArg List.head? e
    exact absurd this (by decide)
  | cons c a =>
    have : 'r' = c := by simpa using congrArg List.head? e
    subst this
    exact absurd (ha 'r' (by simp)) (by unfold White; decide)

theorem mem_sedAppend {n : Nat} {lines : List Str} {l : Str} (h : l ∈ sedAppend n lines) : l ∈ lines ∨ l = "release=".toList ++ dec n := by
  obtain ⟨q, hq, hl⟩ := List.mem_flatMap.mp h
  split at hl
  · rcases List.mem_cons.mp hl with rfl | hl
    · exact Or.inl hq
    · exact Or.inr (List.mem_singleton.mp hl)
  · rw [List.mem_singleton] at hl
    subst hl; exact Or.inl hq

theorem sedAppend_append (n : Nat) (x y : List Str) : sedAppend n (x ++ y) = sedAppend n x ++ sedAppend n y := List.flatMap_append

theorem sets_append {v : Str} {lines : List Str} (n : Nat) (h : Sets lines "version=".toList v) : Sets (sedAppend n lines) "version=".toList v := by
  obtain ⟨hv, pre, l, post, rfl, hl, hpost⟩ := h
  refine ⟨hv, ?_⟩
  have hnb : ∀ q ∈ sedAppend n post, ∀ r, Stripped q r → ¬ "version=".toList <+: r := by
    intro q hq r hr hp
    rcases mem_sedAppend hq with h | rfl
    · exact hpost q h r hr hp
    · exact begins_release n (begins_of_stripped hr hp)
  rw [sedAppend_append]
  have e : sedAppend n (l :: post) = (if "version=".toList.isPrefixOf l then [l, "release=".toList ++ dec n] else [l]) ++ sedAppend n post := rfl
  rw [e]
  split
  · refine ⟨sedAppend n pre, l, ("release=".toList ++ dec n) :: sedAppend n post, rfl, hl, ?_⟩
    intro q hq r hr hp
    rcases List.mem_cons.mp hq with rfl | hq
    · exact begins_release n (begins_of_stripped hr hp)
    · exact hnb q hq r hr hp
  · exact ⟨sedAppend n pre, l, sedAppend n post, rfl, hl, hnb⟩

theorem sets_filter {v : Str} {lines : List Str} (h : Sets lines "version=".toList v) (he : '=' ∉ v) :
    Sets (lines.filter (fun l => !hasRelease l)) "version=".toList v := by
  obtain ⟨hv, pre, l, post, rfl, hl, hpost⟩ := h
  refine ⟨hv, pre.filter (fun l => !hasRelease l), l, post.filter (fun l => !hasRelease l), ?_, hl, fun q hq => hpost q (List.mem_filter.mp hq).1⟩
  obtain ⟨a, b, rfl, ha, hb, _, _⟩ := hl
  rw [List.filter_append, List.filter_cons, if_pos]
  rw [Bool.eq_false_iff.mpr (fun h => version_line_kept ha hb he (hasRelease_iff.mp h))]; rfl

/-- **C118, the release leaves the version.** After `mybld -i NAME` cards reads the same version. -/
theorem C118_release_version_partial (v : Str) (release : Nat) (lines : List Str) (h : Sets lines "version=".toList v) (he : '=' ∉ v) (before : Str) :
    (readPkgfile before (mybldIncrement release lines)).version = v :=
  C48_version _ _ (sets_append _ (sets_filter h he)) _

/-- **C118, a set of ports.** As for one port: the new version with release 1, or the same version with the release one higher. -/
theorem C118_set_partial (v new : Str) (release : Nat) (hr : release < 65535) (lines : List Str) (h : Sets lines "version=".toList v) (he : '=' ∉ v) (hn : PlainWord new)
    (hc : ∃ l ∈ lines, "version=".toList <+: l ∧ ¬ "release=".toList <:+: l) (before : Str) :
    (readPkgfile before (mybldSet false v new release lines)).version = new ∧ (readPkgfile before (mybldSet false v new release lines)).release = 1 ∧
    (readPkgfile before (mybldSet true v new release lines)).version = v ∧ (readPkgfile before (mybldSet true v new release lines)).release = release + 1 := by
  refine ⟨?_, ?_, ?_, ?_⟩
  · exact C48_version _ _ (sets_append 1 (sets_version h hn)) _
  · have := sedAppend_release 1 (mybldVersion v new lines) (fun l hl => (mem_mybldVersion hl).1) ⟨false, [], before, 1⟩
    simp only [ite_self, show 1 % 65536 = 1 from rfl] at this
    exact this
  · exact C118_release_version_partial v release lines h he before
  · have := (C118_release_exact release lines before).1 hc
    rw [Nat.mod_eq_of_lt (by omega)] at this
    exact this

/-! ## The other lines -/

/-- A line that says nothing of a version or release. -/
def Aside (l : Str) : Prop := ¬ "version=".toList <:+: l ∧ ¬ "release=".toList <:+: l

instance (l : Str) : Decidable (Aside l) := by unfold Aside; infer_instance

/-- **C118, the rest.** The lines in which neither `version=` nor `release=` occurs are kept, in order, and none is added. -/
theorem C118_rest (v new : Str) (release : Nat) (lines : List Str) :
    (mybldVersion v new lines).filter (fun l => decide (Aside l)) = lines.filter (fun l => decide (Aside l)) ∧
    (mybldIncrement release lines).filter (fun l => decide (Aside l)) = lines.filter (fun l => decide (Aside l)) := by
  constructor
  · unfold mybldVersion
    induction lines with
    | nil => rfl
    | cons l ls ih =>
      rw [List.map_cons, List.filter_cons (xs := ls)]
      by_cases ha : Aside l
      · rw [sedFirst_untouched ha.1, List.filter_cons, if_pos (by rw [Bool.eq_false_iff.mpr (fun h => ha.2 (hasRelease_iff.mp h))]; rfl),
          List.filter_cons, if_pos (decide_eq_true ha), if_pos (decide_eq_true ha), ih]
      · rw [if_neg (fun x => ha (of_decide_eq_true x)), List.filter_cons]
        split
        · next hr =>
          rw [List.filter_cons, if_neg, ih]
          simp only [decide_eq_true_eq]
          rintro ⟨h1, h2⟩
          rw [sedFirst_infix] at h1
          rw [sedFirst_untouched h1] at h2
          exact ha ⟨h1, h2⟩
        · exact ih
  · unfold mybldIncrement
    induction lines with
    | nil => rfl
    | cons l ls ih =>
      rw [List.filter_cons (xs := ls) (p := fun l => decide (Aside l)), List.filter_cons (xs := ls) (p := fun l => !hasRelease l)]
      by_cases ha : Aside l
      · have hv : "version=".toList.isPrefixOf l = false := Bool.eq_false_iff.mpr (fun h => ha.1 (List.isPrefixOf_iff_prefix.mp h).isInfix)
        rw [if_pos (by rw [Bool.eq_false_iff.mpr (fun h => ha.2 (hasRelease_iff.mp h))]; rfl), if_pos (decide_eq_true ha)]
        have e : ∀ ys, sedAppend (release + 1) (l :: ys) = l :: sedAppend (release + 1) ys := by
          intro ys
          have : sedAppend (release + 1) (l :: ys) = (if "version=".toList.isPrefixOf l then [l, "release=".toList ++ dec (release + 1)] else [l]) ++ sedAppend (release + 1) ys := rfl
          rw [this, hv]; rfl
        rw [e, List.filter_cons, if_pos (decide_eq_true ha), ih]
      · rw [if_neg (c := decide (Aside l) = true) (fun x => ha (of_decide_eq_true x))]
        split
        · have e : ∀ ys, sedAppend (release + 1) (l :: ys) = (if "version=".toList.isPrefixOf l then [l, "release=".toList ++ dec (release + 1)] else [l]) ++ sedAppend (release + 1) ys := fun _ => rfl
          have hrel : ¬ Aside ("release=".toList ++ dec (release + 1)) := fun h => h.2 ⟨[], dec (release + 1), by simp⟩
          rw [e, List.filter_append, ih]
          split
          · rw [List.filter_cons, if_neg (fun x => ha (of_decide_eq_true x)), List.filter_cons, if_neg (fun x => hrel (of_decide_eq_true x))]; rfl
          · rw [List.filter_cons, if_neg (fun x => ha (of_decide_eq_true x))]; rfl
        · exact ih

/-! ## The dependencies -/

/-- An edit of the Pkgfile line by line that leaves the lines aside and begins no array. -/
structure Edit (f : Str → List Str) : Prop where
  aside : ∀ l, Aside l → f l = [l]
  array : ∀ K l, IsKeyword K → ¬ Begins K l → ∀ q ∈ f l, ¬ Begins K q

theorem forall₂_split {α β : Type} {R : α → β → Prop} {l : List α} {b c : List β} (h : List.Forall₂ R l (b ++ c)) :
    ∃ x y, l = x ++ y ∧ List.Forall₂ R x b ∧ List.Forall₂ R y c := by
  induction b generalizing l with
  | nil => exact ⟨[], l, rfl, List.Forall₂.nil, h⟩
  | cons d b ih =>
    cases l with
    | nil => exact absurd h nofun
    | cons a l =>
      cases h with
      | cons h1 h2 =>
        obtain ⟨x, y, rfl, hx, hy⟩ := ih h2
        exact ⟨a :: x, y, rfl, List.Forall₂.cons h1 hx, hy⟩

theorem forall₂_join {α β : Type} {R : α → β → Prop} {x y : List α} {b c : List β} (h : List.Forall₂ R x b) (h' : List.Forall₂ R y c) :
    List.Forall₂ R (x ++ y) (b ++ c) := by
  induction h with
  | nil => exact h'
  | cons h1 _ ih => exact List.Forall₂.cons h1 ih

theorem aside_stripped {l t : Str} (h : Stripped l t) : Aside l ↔ Aside t := by
  unfold Aside
  rw [stripped_infix (by decide) white_version h, stripped_infix (by decide) white_release h]

theorem edit_aside {f : Str → List Str} (hf : Edit f) {ls ts : List Str} (h : List.Forall₂ Stripped ls ts) (ha : ∀ t ∈ ts, Aside t) : ls.flatMap f = ls := by
  induction h with
  | nil => rfl
  | cons h1 _ ih =>
    rw [List.flatMap_cons, hf.aside _ ((aside_stripped h1).mpr (ha _ (by simp))), ih (fun t ht => ha t (by simp [ht]))]
    rfl

/-- The lines of an array hold neither `version=` nor `release=`. -/
def ArraysAside (items : List PkgItem) : Prop := ∀ i ∈ items, (∃ t, i = .other t) ∨ ∀ l ∈ i.lines, Aside l

theorem starts_begins {l : Str} : (∃ t, Stripped l t ∧ StartsArray t) ↔ ∃ K, IsKeyword K ∧ Begins K l := by
  constructor
  · rintro ⟨t, hs, K, hK, hp⟩
    exact ⟨K, hK, begins_of_stripped hs hp⟩
  · rintro ⟨K, hK, hb⟩
    refine ⟨stripWhiteSpace l, (strip_iff _ _).mp rfl, K, hK, stripped_of_begins ?_ (white_keyword hK) ((strip_iff _ _).mp rfl) hb⟩
    rcases hK with rfl | rfl <;> decide

theorem edit_written {f : Str → List Str} (hf : Edit f) (items : List PkgItem) : ∀ lines, Written lines items → ArraysAside items →
    ∃ items', Written (lines.flatMap f) items' ∧ ∀ w, Lists items' w ↔ Lists items w := by
  induction items with
  | nil =>
    rintro lines ⟨_, h⟩ _
    cases h
    exact ⟨[], ⟨by simp, List.Forall₂.nil⟩, fun _ => Iff.rfl⟩
  | cons i items ih =>
    rintro lines ⟨hok, h⟩ ha
    rw [List.flatMap_cons] at h
    obtain ⟨x, y, rfl, hx, hy⟩ := forall₂_split h
    obtain ⟨items', ⟨w1, w2⟩, w3⟩ := ih y ⟨fun j hj => hok j (by simp [hj]), hy⟩ (fun j hj => ha j (by simp [hj]))
    rw [List.flatMap_append]
    rcases ha i (by simp) with ⟨t, rfl⟩ | hi
    · -- a line outside the arrays
      simp only [PkgItem.lines] at hx
      cases hx with
      | cons h1 h2 =>
        rename_i l _
        cases h2
        have hno : ∀ q ∈ f l, ¬ StartsArray (stripWhiteSpace q) := by
          intro q hq hs
          obtain ⟨K, hK, hb⟩ := starts_begins.mp ⟨_, (strip_iff q _).mp rfl, hs⟩
          refine hf.array K l hK (fun hb' => ?_) q hq hb
          obtain ⟨t', ht', hs'⟩ := starts_begins.mpr ⟨K, hK, hb'⟩
          have e : t' = t := by rw [← (strip_iff _ _).mpr ht', ← (strip_iff _ _).mpr h1]
          subst e
          exact hok (.other t') (by simp) hs'
        refine ⟨(f l).map (fun q => PkgItem.other (stripWhiteSpace q)) ++ items', ⟨?_, ?_⟩, fun w => ?_⟩
        · intro j hj
          rcases List.mem_append.mp hj with hj | hj
          · obtain ⟨q, hq, rfl⟩ := List.mem_map.mp hj
            exact hno q hq
          · exact w1 j hj
        · rw [List.flatMap_append]
          refine forall₂_join ?_ w2
          simp only [List.flatMap_cons, List.flatMap_nil, List.append_nil]
          generalize f l = qs
          induction qs with
          | nil => exact List.Forall₂.nil
          | cons q qs ih => exact List.Forall₂.cons ((strip_iff _ _).mp rfl) ih
        · unfold Lists at w3 ⊢
          constructor
          · rintro ⟨j, hj, t', ht', hw⟩
            rcases List.mem_append.mp hj with hj | hj
            · obtain ⟨q, hq, rfl⟩ := List.mem_map.mp hj
              exact absurd ht' (by simp [PkgItem.texts])
            · obtain ⟨j', hj', r⟩ := (w3 w).mp ⟨j, hj, t', ht', hw⟩
              exact ⟨j', by simp [hj'], r⟩
          · rintro ⟨j, hj, t', ht', hw⟩
            rcases List.mem_cons.mp hj with rfl | hj
            · exact absurd ht' (by simp [PkgItem.texts])
            · obtain ⟨j', hj', r⟩ := (w3 w).mpr ⟨j, hj, t', ht', hw⟩
              exact ⟨j', by simp [hj'], r⟩
    · rw [edit_aside hf hx hi]
      refine ⟨i :: items', ⟨?_, ?_⟩, fun w => ?_⟩
      · intro j hj
        rcases List.mem_cons.mp hj with rfl | hj
        · exact hok j (by simp)
        · exact w1 j hj
      · rw [List.flatMap_cons]; exact forall₂_join hx w2
      · unfold Lists at w3 ⊢
        constructor
        · rintro ⟨j, hj, r⟩
          rcases List.mem_cons.mp hj with rfl | hj
          · exact ⟨j, by simp, r⟩
          · obtain ⟨j', hj', r'⟩ := (w3 w).mp ⟨j, hj, r⟩
            exact ⟨j', by simp [hj'], r'⟩
        · rintro ⟨j, hj, r⟩
          rcases List.mem_cons.mp hj with rfl | hj
          · exact ⟨j, by simp, r⟩
          · obtain ⟨j', hj', r'⟩ := (w3 w).mpr ⟨j, hj, r⟩
            exact ⟨j', by simp [hj'], r'⟩

theorem edit_version (v new : Str) : Edit (fun l => ([l].map (sedFirst ("version=".toList ++ v) ("version=".toList ++ new))).filter (fun l => !hasRelease l)) := by
  refine ⟨fun l ha => ?_, fun K l hK hb q hq => ?_⟩
  · simp only [List.map_cons, List.map_nil]
    rw [sedFirst_untouched ha.1, List.filter_cons, if_pos (by rw [Bool.eq_false_iff.mpr (fun h => ha.2 (hasRelease_iff.mp h))]; rfl)]
    rfl
  · have := (List.mem_filter.mp hq).1
    rw [List.map_cons, List.map_nil, List.mem_singleton] at this
    subst this
    intro h
    refine hb (begins_sed ?_ (white_keyword hK) ?_ ?_ h)
    · rcases hK with rfl | rfl <;> decide
    · rcases hK with rfl | rfl <;> decide
    · rcases hK with rfl | rfl <;> decide

theorem edit_increment (n : Nat) : Edit (fun l => sedAppend n ([l].filter (fun l => !hasRelease l))) := by
  refine ⟨fun l ha => ?_, fun K l hK hb q hq => ?_⟩
  · have hv : "version=".toList.isPrefixOf l = false := Bool.eq_false_iff.mpr (fun h => ha.1 (List.isPrefixOf_iff_prefix.mp h).isInfix)
    rw [List.filter_cons, if_pos (by rw [Bool.eq_false_iff.mpr (fun h => ha.2 (hasRelease_iff.mp h))]; rfl)]
    simp only [List.filter_nil, sedAppend, List.flatMap_cons, List.flatMap_nil, hv, Bool.false_eq_true, if_false, List.append_nil]
  · rcases mem_sedAppend hq with h | rfl
    · have := (List.mem_filter.mp h).1
      rw [List.mem_singleton] at this
      subst this
      exact hb
    · rintro ⟨a, x, ha, e⟩
      cases a with
      | nil =>
        rcases hK with rfl | rfl
        · have : 'r' = 'm' := by simpa using congrArg List.head? e
          exact absurd this (by decide)
        · have e' := congrArg (fun l : Str => l.tail.head?) e
          simp at e'
      | cons c a =>
        have : 'r' = c := by
          have := congrArg List.head? e
          simpa using this
        subst this
        exact absurd (ha 'r' (List.mem_cons_self ..)) (by unfold White; decide)

theorem flat_version (v new : Str) (lines : List Str) :
    mybldVersion v new lines = lines.flatMap (fun l => ([l].map (sedFirst ("version=".toList ++ v) ("version=".toList ++ new))).filter (fun l => !hasRelease l)) := by
  unfold mybldVersion
  induction lines with
  | nil => rfl
  | cons l ls ih => rw [List.flatMap_cons, ← ih, ← List.filter_append]; rfl

theorem flat_increment (release : Nat) (lines : List Str) :
    mybldIncrement release lines = lines.flatMap (fun l => sedAppend (release + 1) ([l].filter (fun l => !hasRelease l))) := by
  unfold mybldIncrement
  induction lines with
  | nil => rfl
  | cons l ls ih => rw [List.flatMap_cons, ← ih, ← sedAppend_append, ← List.filter_append]; rfl

/-- **C118, the dependencies.** After `mybld` cards reads the same dependencies, of every Pkgfile with closed arrays in whose arrays the two texts do not occur. -/
theorem C118_deps_partial (v new : Str) (release : Nat) (lines : List Str) (items : List PkgItem) (hw : Written lines items) (ha : ArraysAside items) (before : Str) (w : Str) :
    (w ∈ depSet (readPkgfile before (mybldVersion v new lines)).s ↔ w ∈ depSet (readPkgfile before lines).s) ∧
    (w ∈ depSet (readPkgfile before (mybldIncrement release lines)).s ↔ w ∈ depSet (readPkgfile before lines).s) := by
  have base := (pkgfile_deps lines items hw before 1).2 w
  constructor
  · obtain ⟨items', h1, h2⟩ := edit_written (edit_version v new) items lines hw ha
    rw [← flat_version] at h1
    exact (((pkgfile_deps _ items' h1 before 1).2 w).trans (h2 w)).trans base.symm
  · obtain ⟨items', h1, h2⟩ := edit_written (edit_increment (release + 1)) items lines hw ha
    rw [← flat_increment] at h1
    exact (((pkgfile_deps _ items' h1 before 1).2 w).trans (h2 w)).trans base.symm

/-! ## Examples -/

/-- A port. -/
def mbPort : List Str := ["description=\"A file pager\"", "name=less", "version=590", "release=3", "run=(ncurses libgcc)", "build() {", "  ./configure --prefix=/usr", "}"].map String.toList

example : mybldVersion "590".toList "608".toList mbPort =
    ["description=\"A file pager\"", "name=less", "version=608", "run=(ncurses libgcc)", "build() {", "  ./configure --prefix=/usr", "}"].map String.toList := by decide +kernel

example : mybldIncrement 3 mbPort =
    ["description=\"A file pager\"", "name=less", "version=590", "release=4", "run=(ncurses libgcc)", "build() {", "  ./configure --prefix=/usr", "}"].map String.toList := by decide +kernel

theorem mbPort_sets : Sets mbPort "version=".toList "590".toList := by
  refine ⟨by unfold White; decide, ["description=\"A file pager\"", "name=less"].map String.toList, "version=590".toList,
    ["release=3", "run=(ncurses libgcc)", "build() {", "  ./configure --prefix=/usr", "}"].map String.toList, rfl, (strip_iff _ _).mp (by decide +kernel), ?_⟩
  intro q hq r hr
  rw [← (strip_iff _ _).mpr hr]
  clear hr
  revert q
  decide +kernel

example : PlainWord "608".toList := by unfold PlainWord White; decide

example : (readPkgfile [] (mybldVersion "590".toList "608".toList mbPort)).version = "608".toList :=
  (C118_version_partial _ _ mbPort mbPort_sets (by unfold PlainWord White; decide) []).1

theorem mbPort_written : Written mbPort [.other "description=\"A file pager\"".toList, .other "name=less".toList, .other "version=590".toList, .other "release=3".toList,
    .short "run=(".toList "ncurses libgcc".toList, .other "build() {".toList, .other "./configure --prefix=/usr".toList, .other "}".toList] := by
  constructor
  · have hns : ∀ t ∈ ["description=\"A file pager\"", "name=less", "version=590", "release=3", "build() {", "./configure --prefix=/usr", "}"].map String.toList, ¬ StartsArray t := by
      rintro t ht ⟨k, hk, hp⟩
      revert t
      rcases hk with rfl | rfl <;> decide +kernel
    intro i hi
    simp only [List.mem_cons, List.not_mem_nil, or_false] at hi
    rcases hi with rfl | rfl | rfl | rfl | rfl | rfl | rfl | rfl
    · exact hns _ (by decide +kernel)
    · exact hns _ (by decide +kernel)
    · exact hns _ (by decide +kernel)
    · exact hns _ (by decide +kernel)
    · exact ⟨Or.inr rfl, by decide⟩
    · exact hns _ (by decide +kernel)
    · exact hns _ (by decide +kernel)
    · exact hns _ (by decide +kernel)
  · repeat (first | exact List.Forall₂.nil | refine List.Forall₂.cons ((strip_iff _ _).mp (by decide +kernel)) ?_)

example : "ncurses".toList ∈ depSet (readPkgfile [] (mybldIncrement 3 mbPort)).s := by
  refine (C118_deps_partial [] [] 3 mbPort _ mbPort_written ?_ [] _).2.mpr (by decide +kernel)
  intro i hi
  simp only [List.mem_cons, List.not_mem_nil, or_false] at hi
  rcases hi with rfl | rfl | rfl | rfl | rfl | rfl | rfl | rfl
  case inr.inr.inr.inr.inl => right; decide +kernel
  all_goals exact Or.inl ⟨_, rfl⟩

/-! ## Where the claim fails -/

/-- **C118 is false: a quoted version.** `. Pkgfile` gives the version without the quotes, the line is not found, and the port keeps its version: but its release is lost. -/
theorem C118_counterexample_quoted :
    mybldVersion "590".toList "608".toList ["version=\"590\"".toList, "release=3".toList] = ["version=\"590\"".toList] := by decide +kernel

/-- **C118 is false: another line is lost.** A line of the build that holds `release=` disappears. -/
theorem C118_counterexample_line :
    mybldIncrement 1 (["version=5", "build() {", "  ./configure --enable-release=yes", "}"].map String.toList) =
      ["version=5", "release=2", "build() {", "}"].map String.toList := by decide +kernel

/-- **C118 is false: another variable is changed.** -/
theorem C118_counterexample_variable :
    mybldVersion "1.2".toList "1.3".toList (["version=1.2", "_apiversion=1.2"].map String.toList) = ["version=1.3", "_apiversion=1.3"].map String.toList := by decide +kernel

/-- **C118 is false: the version by its beginning.** The pattern is not anchored at its end and its points match any character: version 1.2 of the port becomes 1.3,
and so does the beginning of the version 1525 of something else. -/
theorem C118_counterexample_prefix :
    mybldVersion "1.2".toList "1.3".toList (["version=1.2", "dbversion=1525"].map String.toList) = ["version=1.3", "dbversion=1.35"].map String.toList := by decide +kernel

/-- **C118 is false: an indented version.** cards reads the line, but `mybld -i` sets no release: it goes back to 1. -/
theorem C118_counterexample_indented :
    (readPkgfile [] (["  version=5", "release=3"].map String.toList)).version = "5".toList ∧
    (readPkgfile [] (mybldIncrement 3 (["  version=5", "release=3"].map String.toList))).release = 1 := by decide +kernel

end Cards.Props
