import Verif.Model.Firmware
import Verif.Props.WebPkgs
/-!
# C186: the sections of WHENCE
-/
namespace Cards.Props
open Cards Cards.Spec

/-- The text is somewhere in the line. -/
theorem lineHas_iff (pat l : Str) : lineHas pat l = true ↔ pat <:+: l := isSome_infix

theorem sedRange_snd (pat : Str) (b : Bool) (ls : List Str) : (sedRange pat b ls).map (·.2) = ls := by
  induction ls generalizing b with
  | nil => cases b <;> rfl
  | cons l ls ih =>
    cases b with
    | true => rw [sedRange, List.map_cons, ih]
    | false =>
      rw [sedRange]
      split
      · rw [List.map_cons, ih]
      · rw [List.map_cons, ih]

theorem count_split (x : Str) (R : List (Bool × Str)) :
    (R.map (·.2)).count x = ((R.filter (·.1)).map (·.2)).count x + ((R.filter (fun p => !p.1)).map (·.2)).count x := by
  induction R with
  | nil => rfl
  | cons p R ih =>
    obtain ⟨b, l⟩ := p
    cases b with
    | true =>
      rw [List.map_cons, List.filter_cons_of_pos rfl, List.filter_cons_of_neg (by simp), List.map_cons, List.count_cons, List.count_cons, ih]
      omega
    | false =>
      rw [List.map_cons, List.filter_cons_of_neg (by simp), List.filter_cons_of_pos rfl, List.map_cons, List.count_cons, List.count_cons, ih]
      omega

/-- **C186.** No line is lost and none is written twice: every line of WHENCE is in exactly one of the files written, or left over, as often as it was there. -/
theorem C186_conserved (ns ls : List Str) (x : Str) : ls.count x = ((fwLoop ns ls).1.map (fun p => p.2.count x)).sum + (fwLoop ns ls).2.count x := by
  induction ns generalizing ls with
  | nil => simp [fwLoop]
  | cons n ns ih =>
    rw [fwLoop]
    simp only [List.map_cons, List.sum_cons]
    have h := count_split x (sedRange (driverText n) false ls)
    rw [sedRange_snd] at h
    have := ih (fwSedDelete (driverText n) ls)
    have h1 : ((sedRange (driverText n) false ls).filter (·.1)).map (·.2) = sedPrint (driverText n) ls := rfl
    have h2 : ((sedRange (driverText n) false ls).filter (fun p => !p.1)).map (·.2) = fwSedDelete (driverText n) ls := rfl
    rw [h1, h2] at h
    omega

/-- A section: the driver, what stands after its name, the lines and the line of dashes at the end. -/
structure FwSection where
  name : Str
  rest : Str
  body : List Str
  last : Str

/-- Its lines. -/
def FwSection.lines (s : FwSection) : List Str := ("Driver: ".toList ++ s.name ++ s.rest) :: (s.body ++ [s.last])

/-- A well written section: the name is a word, the rest begins after a blank, only the first line tells a driver, only the last line is one of dashes. -/
def FwSection.Good (s : FwSection) : Prop :=
  (s.name ≠ [] ∧ ' ' ∉ s.name) ∧ (s.rest = [] ∨ ∃ t, s.rest = ' ' :: t) ∧ (∀ x ∈ s.body ++ [s.last], ¬ "Driver: ".toList <:+: x) ∧
  (∀ t, t <:+ (s.name ++ s.rest) → ¬ "Driver: ".toList <+: t) ∧ (∀ x ∈ s.body, ¬ "-----".toList <+: x) ∧ "-----".toList <+: s.last

/-- The lines before the first driver. -/
def Preamble (pre : List Str) : Prop := ∀ x ∈ pre, ¬ "Driver: ".toList <:+: x

theorem driver_infix {n l : Str} (h : driverText n <:+: l) : "Driver: ".toList <:+: l := by
  obtain ⟨a, b, rfl⟩ := h
  refine ⟨a, n ++ b, ?_⟩
  unfold driverText
  simp only [List.append_assoc]

/-- The first line of a section holds `Driver: n` exactly if `n` is a beginning of the name. -/
theorem header_iff {s : FwSection} (hs : s.Good) {n : Str} (hn : ' ' ∉ n) : driverText n <:+: "Driver: ".toList ++ s.name ++ s.rest ↔ n <+: s.name := by
  obtain ⟨⟨hne, hsp⟩, hrest, _, hno, _⟩ := hs
  constructor
  · rintro ⟨a, b, h⟩
    -- the text can only be at the beginning of the line
    have h' : a ++ driverText n ++ b = "Driver: ".toList ++ (s.name ++ s.rest) := by rw [h, List.append_assoc]
    have hpos : a = [] := by
      rcases a with _ | ⟨c, a⟩
      · rfl
      · exfalso
        -- the rest of the line after at least one character
        by_cases hlen : 8 ≤ (c :: a).length
        · have hsuf : (driverText n ++ b) <:+ (s.name ++ s.rest) := by
            have h2 : (c :: a) ++ (driverText n ++ b) = "Driver: ".toList ++ (s.name ++ s.rest) := by rw [← h', List.append_assoc]
            have := congrArg (List.drop 8) h2
            rw [List.drop_append_of_le_length hlen, show List.drop 8 ("Driver: ".toList ++ (s.name ++ s.rest)) = s.name ++ s.rest from rfl] at this
            exact ⟨_, this⟩
          refine hno _ hsuf ⟨n ++ b, ?_⟩
          unfold driverText
          rw [List.append_assoc]
        · have hc : (c :: a) <+: "Driver: ".toList := by
            have h2 : (c :: a) ++ (driverText n ++ b) = "Driver: ".toList ++ (s.name ++ s.rest) := by rw [← h', List.append_assoc]
            have h3 : (c :: a) <+: "Driver: ".toList ++ (s.name ++ s.rest) := ⟨_, h2⟩
            exact List.prefix_of_prefix_length_le h3 ⟨_, rfl⟩ (by have : ("Driver: ".toList : Str).length = 8 := rfl; omega)
          have hD : (("Driver: ".toList ++ (s.name ++ s.rest)).drop (c :: a).length).head? = some 'D' := by
            have h2 : (c :: a) ++ (driverText n ++ b) = "Driver: ".toList ++ (s.name ++ s.rest) := by rw [← h', List.append_assoc]
            rw [← h2, List.drop_left]
            rfl
          generalize hk : (c :: a).length = k at hD hlen
          have hk1 : 1 ≤ k := by rw [← hk]; simp
          have : k = 1 ∨ k = 2 ∨ k = 3 ∨ k = 4 ∨ k = 5 ∨ k = 6 ∨ k = 7 := by omega
          have hD' : ∀ c, (("Driver: ".toList ++ (s.name ++ s.rest)).drop k).head? = some c → c ≠ 'D' := by
            intro c hc
            rcases this with rfl | rfl | rfl | rfl | rfl | rfl | rfl <;> (have hc' := Option.some.inj hc; rw [← hc']; decide)
          exact hD' 'D' hD rfl
    subst hpos
    rw [List.nil_append] at h'
    unfold driverText at h'
    rw [List.append_assoc] at h'
    have h2 := List.append_cancel_left h'
    have hp : n <+: s.name ++ s.rest := ⟨b, h2⟩
    rcases hrest with hr | ⟨t, hr⟩
    · rw [hr, List.append_nil] at hp; exact hp
    · rcases Nat.le_or_le n.length s.name.length with hl | hl
      · exact List.prefix_of_prefix_length_le hp ⟨_, rfl⟩ hl
      · by_cases he : n.length = s.name.length
        · exact List.prefix_of_prefix_length_le hp ⟨_, rfl⟩ (by omega)
        · exfalso
          have hq : s.name ++ [' '] <+: n := by
            refine List.prefix_of_prefix_length_le (l₃ := s.name ++ s.rest) ⟨t, by rw [hr]; simp⟩ hp ?_
            rw [List.length_append, List.length_singleton]
            omega
          obtain ⟨u, hu⟩ := hq
          exact hn (by rw [← hu]; simp)
  · rintro ⟨u, hu⟩
    refine ⟨[], u ++ s.rest, ?_⟩
    unfold driverText
    rw [← hu]
    simp only [List.nil_append, List.append_assoc]

theorem range_open (pat : Str) (body : List Str) (last : Str) (ls : List Str) (hb : ∀ x ∈ body, ¬ "-----".toList <+: x) (hl : "-----".toList <+: last) :
    sedRange pat true (body ++ last :: ls) = (body ++ [last]).map (fun l => (true, l)) ++ sedRange pat false ls := by
  induction body with
  | nil =>
    have : endsSection last = true := List.isPrefixOf_iff_prefix.mpr hl
    rw [List.nil_append, sedRange, this]
    rfl
  | cons x body ih =>
    have : endsSection x = false := by rw [Bool.eq_false_iff]; exact fun h => hb x (by simp) (List.isPrefixOf_iff_prefix.mp h)
    rw [List.cons_append, sedRange, this]
    show (true, x) :: sedRange pat true (body ++ last :: ls) = _
    rw [ih (fun y hy => hb y (by simp [hy]))]
    rfl

theorem range_closed (pat : Str) (xs ls : List Str) (h : ∀ x ∈ xs, ¬ pat <:+: x) : sedRange pat false (xs ++ ls) = xs.map (fun l => (false, l)) ++ sedRange pat false ls := by
  induction xs with
  | nil => rfl
  | cons x xs ih =>
    have : lineHas pat x = false := by rw [Bool.eq_false_iff]; exact fun e => h x (by simp) ((lineHas_iff pat x).mp e)
    rw [List.cons_append, sedRange, this]
    simp only [Bool.false_eq_true, if_false, List.map_cons, List.cons_append]
    rw [ih (fun y hy => h y (by simp [hy]))]

theorem filt_true (xs : List Str) : (((xs.map (fun l => (true, l))).filter (·.1)).map (·.2) = xs) ∧ (((xs.map (fun l => (true, l))).filter (fun p => !p.1)).map (·.2) = []) := by
  induction xs with
  | nil => exact ⟨rfl, rfl⟩
  | cons x xs ih =>
    refine ⟨?_, ?_⟩
    · rw [List.map_cons, List.filter_cons_of_pos rfl, List.map_cons, ih.1]
    · rw [List.map_cons, List.filter_cons_of_neg (by simp), ih.2]

theorem filt_false (xs : List Str) : (((xs.map (fun l => (false, l))).filter (·.1)).map (·.2) = []) ∧ (((xs.map (fun l => (false, l))).filter (fun p => !p.1)).map (·.2) = xs) := by
  induction xs with
  | nil => exact ⟨rfl, rfl⟩
  | cons x xs ih =>
    refine ⟨?_, ?_⟩
    · rw [List.map_cons, List.filter_cons_of_neg (by simp), ih.1]
    · rw [List.map_cons, List.filter_cons_of_pos rfl, List.map_cons, ih.2]

/-- One driver: its file has the sections whose name begins so, and the rest is left. -/
theorem sed_sections (n : Str) (hn : ' ' ∉ n) (pre : List Str) (hpre : Preamble pre) (ss : List FwSection) (hs : ∀ s ∈ ss, s.Good) :
    sedPrint (driverText n) (pre ++ ss.flatMap FwSection.lines) = (ss.filter (fun s => n.isPrefixOf s.name)).flatMap FwSection.lines ∧
    fwSedDelete (driverText n) (pre ++ ss.flatMap FwSection.lines) = pre ++ (ss.filter (fun s => !n.isPrefixOf s.name)).flatMap FwSection.lines := by
  unfold sedPrint fwSedDelete
  rw [range_closed _ _ _ (fun x hx h => hpre x hx (driver_infix h))]
  rw [List.filter_append, List.filter_append, List.map_append, List.map_append, (filt_false pre).1, (filt_false pre).2]
  have key : ((sedRange (driverText n) false (ss.flatMap FwSection.lines)).filter (·.1)).map (·.2) = (ss.filter (fun s => n.isPrefixOf s.name)).flatMap FwSection.lines ∧
      ((sedRange (driverText n) false (ss.flatMap FwSection.lines)).filter (fun p => !p.1)).map (·.2) = (ss.filter (fun s => !n.isPrefixOf s.name)).flatMap FwSection.lines := by
    induction ss with
    | nil => exact ⟨rfl, rfl⟩
    | cons s ss ih =>
      have hg := hs s (by simp)
      obtain ⟨ih1, ih2⟩ := ih (fun x hx => hs x (by simp [hx]))
      rw [List.flatMap_cons]
      by_cases hp : n <+: s.name
      · have hb : n.isPrefixOf s.name = true := List.isPrefixOf_iff_prefix.mpr hp
        have hh : lineHas (driverText n) ("Driver: ".toList ++ s.name ++ s.rest) = true := (lineHas_iff _ _).mpr ((header_iff hg hn).mpr hp)
        have e : sedRange (driverText n) false (s.lines ++ ss.flatMap FwSection.lines) = s.lines.map (fun l => (true, l)) ++ sedRange (driverText n) false (ss.flatMap FwSection.lines) := by
          show sedRange (driverText n) false (("Driver: ".toList ++ s.name ++ s.rest) :: ((s.body ++ [s.last]) ++ ss.flatMap FwSection.lines)) = _
          rw [sedRange, if_pos hh, show (s.body ++ [s.last]) ++ ss.flatMap FwSection.lines = s.body ++ s.last :: ss.flatMap FwSection.lines by simp,
            range_open _ _ _ _ hg.2.2.2.2.1 hg.2.2.2.2.2]
          rfl
        rw [e, List.filter_append, List.filter_append, List.map_append, List.map_append, (filt_true _).1, (filt_true _).2, ih1, ih2,
          List.filter_cons_of_pos (p := fun s : FwSection => n.isPrefixOf s.name) hb, List.filter_cons_of_neg (by simp [hb]), List.flatMap_cons]
        exact ⟨rfl, rfl⟩
      · have hb : n.isPrefixOf s.name = false := by rw [Bool.eq_false_iff]; exact fun h => hp (List.isPrefixOf_iff_prefix.mp h)
        have e : sedRange (driverText n) false (s.lines ++ ss.flatMap FwSection.lines) = s.lines.map (fun l => (false, l)) ++ sedRange (driverText n) false (ss.flatMap FwSection.lines) := by
          apply range_closed
          intro x hx h
          unfold FwSection.lines at hx
          rcases List.mem_cons.mp hx with rfl | hx
          · exact hp ((header_iff hg hn).mp h)
          · exact hg.2.2.1 x hx (driver_infix h)
        rw [e, List.filter_append, List.filter_append, List.map_append, List.map_append, (filt_false _).1, (filt_false _).2, ih1, ih2,
          List.filter_cons_of_neg (by simp [hb]), List.filter_cons_of_pos (by simp [hb]), List.flatMap_cons]
        exact ⟨rfl, rfl⟩
  rw [key.1, key.2]
  exact ⟨rfl, rfl⟩

theorem fwLoop_sections (ns : List Str) (hns : ∀ n ∈ ns, ' ' ∉ n) (pre : List Str) (hpre : Preamble pre) (ss : List FwSection) (hs : ∀ s ∈ ss, s.Good) (A B : List Str) (n : Str)
    (he : ns = A ++ n :: B) :
    ∃ P Q, (fwLoop ns (pre ++ ss.flatMap FwSection.lines)).1 = P ++ (fwDir n, (ss.filter (fun s => n.isPrefixOf s.name && A.all (fun a => !a.isPrefixOf s.name))).flatMap FwSection.lines) :: Q ∧
      P.map (·.1) = A.map fwDir ∧ Q.map (·.1) = B.map fwDir := by
  have hdirs : ∀ (ns ls : List Str), (fwLoop ns ls).1.map (·.1) = ns.map fwDir := by
    intro ns
    induction ns with
    | nil => exact fun _ => rfl
    | cons m ns ih => intro ls; rw [fwLoop]; simp only [List.map_cons]; rw [ih]
  induction A generalizing ns ss with
  | nil =>
    subst he
    have := sed_sections n (hns n (by simp)) pre hpre ss hs
    refine ⟨[], (fwLoop B (fwSedDelete (driverText n) (pre ++ ss.flatMap FwSection.lines))).1, ?_, rfl, hdirs _ _⟩
    rw [List.nil_append, fwLoop]
    simp only [this.1, List.nil_append, List.all_nil, Bool.and_true]
  | cons a A ih =>
    subst he
    have h1 := sed_sections a (hns a (by simp)) pre hpre ss hs
    obtain ⟨P, Q, e, hP, hQ⟩ := ih (A ++ n :: B) (fun m hm => hns m (by rw [List.cons_append]; exact List.mem_cons_of_mem _ hm)) (ss.filter (fun s => !a.isPrefixOf s.name))
      (fun s hs' => hs s (List.mem_filter.mp hs').1) rfl
    refine ⟨(fwDir a, sedPrint (driverText a) (pre ++ ss.flatMap FwSection.lines)) :: P, Q, ?_, by rw [List.map_cons, hP, List.map_cons], hQ⟩
    rw [List.cons_append, fwLoop]
    simp only [h1.2, e, List.cons_append, List.filter_filter, List.all_cons]
    congr 4
    refine congrArg (List.flatMap FwSection.lines) ?_
    apply List.filter_congr
    intro s _
    cases n.isPrefixOf s.name <;> cases a.isPrefixOf s.name <;> cases A.all (fun a => !a.isPrefixOf s.name) <;> rfl

/-- **C186.** When no driver's name begins with that of another and the ports have different names, the port of each driver gets exactly the sections of that driver, in order, in whatever order the drivers are gone through. -/
theorem C186_sections_partial (ns : List Str) (hns : ∀ n ∈ ns, ' ' ∉ n) (pre : List Str) (hpre : Preamble pre) (ss : List FwSection) (hs : ∀ s ∈ ss, s.Good)
    (hnames : ∀ s ∈ ss, s.name ∈ ns) (hfree : ∀ a ∈ ns, ∀ b ∈ ns, a <+: b → a = b) (hnd : (ns.map fwDir).Nodup) (n : Str) (hn : n ∈ ns) :
    fwFile ns (pre ++ ss.flatMap FwSection.lines) (fwDir n) = some ((ss.filter (fun s => s.name = n)).flatMap FwSection.lines) := by
  obtain ⟨A, B, rfl⟩ := List.append_of_mem hn
  obtain ⟨P, Q, e, hP, hQ⟩ := fwLoop_sections _ hns pre hpre ss hs A B n rfl
  have hBn : fwDir n ∉ B.map fwDir := by
    rw [List.map_append, List.map_cons, List.nodup_append] at hnd
    exact (List.nodup_cons.mp hnd.2.1).1
  have hAn : n ∉ A := by
    rw [List.map_append, List.map_cons, List.nodup_append] at hnd
    intro h
    exact hnd.2.2 _ (List.mem_map_of_mem h) _ (by simp) rfl
  unfold fwFile
  rw [e, List.reverse_append, List.reverse_cons, List.append_assoc, List.find?_append]
  rw [List.find?_eq_none.mpr (by
    intro p hp
    simp only [decide_eq_true_eq]
    intro hpe
    apply hBn
    rw [← hQ, ← hpe]
    exact List.mem_map_of_mem (List.mem_reverse.mp hp)), Option.none_or, List.singleton_append, List.find?_cons_of_pos (by simp)]
  rw [Option.map_some]
  refine congrArg (fun l => some (List.flatMap FwSection.lines l)) ?_
  apply List.filter_congr
  intro s hs'
  have hsn := hnames s hs'
  by_cases h : s.name = n
  · subst h
    have h1 : s.name.isPrefixOf s.name = true := List.isPrefixOf_iff_prefix.mpr (List.prefix_refl _)
    have h2 : A.all (fun a => !a.isPrefixOf s.name) = true := by
      rw [List.all_eq_true]
      intro a ha
      rw [Bool.not_eq_true', Bool.eq_false_iff]
      intro hp
      exact hAn ((hfree a (by simp [ha]) s.name (by simp) (List.isPrefixOf_iff_prefix.mp hp)) ▸ ha)
    rw [h1, h2]
    simp
  · have h1 : n.isPrefixOf s.name = false := by
      rw [Bool.eq_false_iff]
      intro hp
      exact h (hfree n (by simp) s.name hsn (List.isPrefixOf_iff_prefix.mp hp)).symm
    rw [h1]
    simp [h]

/-- Two drivers. -/
def xFwA : FwSection := ⟨"rtl".toList, " - wifi".toList, ["File: a.bin".toList], "--------".toList⟩
def xFwB : FwSection := ⟨"rtlx".toList, [], ["File: b.bin".toList], "--------".toList⟩
def xFwC : FwSection := ⟨"iwl".toList, [], ["File: c.bin".toList], "--------".toList⟩

theorem suffix_check {s : Str} (h : s.tails.all (fun t => !"Driver: ".toList.isPrefixOf t) = true) : ∀ t, t <:+ s → ¬ "Driver: ".toList <+: t := by
  intro t ht hp
  have := List.all_eq_true.mp h t ((List.mem_tails t s).mpr ht)
  rw [List.isPrefixOf_iff_prefix.mpr hp] at this
  cases this

theorem infix_check {s : Str} (h : lineHas "Driver: ".toList s = false) : ¬ "Driver: ".toList <:+: s := by
  intro hp
  rw [(lineHas_iff _ _).mpr hp] at h
  cases h

theorem xFw_good : xFwA.Good ∧ xFwC.Good := by
  refine ⟨⟨by decide, Or.inr ⟨_, rfl⟩, ?_, suffix_check (by decide), by decide, by decide⟩, ⟨by decide, Or.inl rfl, ?_, suffix_check (by decide), by decide, by decide⟩⟩
  · intro x hx
    apply infix_check
    revert x
    decide
  · intro x hx
    apply infix_check
    revert x
    decide

example : fwFile ["iwl".toList, "rtl".toList] ("# firmware".toList :: (xFwA.lines ++ xFwC.lines)) "rtl".toList = some xFwA.lines := by decide

/-- **C186 fails** for a driver whose name begins with that of another: its section goes to the other one, and its own file is empty. -/
theorem C186_prefix_counterexample : fwFile ["rtl".toList, "rtlx".toList] (xFwA.lines ++ xFwB.lines) "rtl".toList = some (xFwA.lines ++ xFwB.lines) ∧
    fwFile ["rtl".toList, "rtlx".toList] (xFwA.lines ++ xFwB.lines) "rtlx".toList = some [] := by decide

/-- **C186 fails** for two drivers whose names differ in capitals only: the section of the first is lost. -/
theorem C186_capitals_counterexample : fwFile ["IWL".toList, "iwl".toList] (({ xFwA with name := "IWL".toList } : FwSection).lines ++ xFwC.lines) "iwl".toList = some xFwC.lines := by decide

end Cards.Props
