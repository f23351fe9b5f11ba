import Verif.Lemmas.Graph
import Verif.Lemmas.Hist
import Verif.Spec.RemoveCmd
import Verif.Props.TransDb
/-!
# C16 orphan purge, C17 cards remove refuses to break a dependency
-/
namespace Cards.Props
open Cards Cards.Spec

/-! ## What the runs do to the database -/

/-- The default constructed record. -/
def blank : Info := { md := [], files := [] }

theorem runRm_ok {locked : Bool} {sc : RmScripts} {n : Str} {st st' : St} (h : runRm locked sc n st = (st', none)) :
    (mget st.disk n).isSome ∧ st'.disk = merase n st.disk ∧ st'.mem = mset n blank (merase n st.mem) ∧
      st'.alias = merase n st.alias := by
  simp only [runRm] at h
  split at h
  · simp at h
  · split at h
    · simp at h
    · split at h
      · simp at h
      · simp only [removeRecord, removeFiles] at h
        have hm : mget (merase n st.mem) n = none := by simp [mget_merase]
        rw [hm] at h
        simp only at h
        cases hd : mget st.disk n with
        | none => rw [hd] at h; simp at h
        | some i =>
          rw [hd] at h
          simp only [Prod.mk.injEq, and_true] at h
          subst h
          exact ⟨rfl, rfl, rfl, rfl⟩

/-- The memory of a `cards remove` process against the disk: removed packages have a blank record, all others agree. -/
structure Synced (st : St) (gone names : List Str) : Prop where
  goneDisk : ∀ n ∈ gone, mget st.disk n = none
  goneMem : ∀ n ∈ gone, mget st.mem n = some blank
  same : ∀ n, n ∉ gone → mget st.mem n = mget st.disk n
  names : ∀ n, (mget st.disk n).isSome → n ∈ names
  memSorted : MSorted st.mem
  diskSorted : MSorted st.disk
  aliases : ∀ n, (mget st.disk n).isSome → st.nameExists n = true

theorem synced_load (s : Sys) (hw : WF s.disk) : Synced (load s false) [] (keys s.disk) where
  goneDisk := by simp
  goneMem := by simp
  same := fun _ _ => rfl
  names := by intro n h; exact mget_isSome_iff.1 h
  memSorted := hw.1
  diskSorted := hw.1
  aliases := fun n h => (nameExists_load s _ _).mpr (Or.inl (mget_isSome_iff.1 h))

theorem synced_run {locked : Bool} {sc : RmScripts} {n : Str} {st st' : St} {gone names : List Str}
    (hs : Synced st gone names) (h : runRm locked sc n st = (st', none)) : Synced st' (n :: gone) names := by
  obtain ⟨hd, h1, h2, h3⟩ := runRm_ok h
  constructor
  · intro m hm
    rw [h1, mget_merase]
    by_cases hmn : n = m
    · simp [hmn]
    · simp only [hmn, if_false]; exact hs.goneDisk m (by simpa [Ne.symm hmn] using hm)
  · intro m hm
    rw [h2, mget_mset, mget_merase]
    by_cases hmn : n = m
    · simp [hmn]
    · simp only [hmn, if_false]; exact hs.goneMem m (by simpa [Ne.symm hmn] using hm)
  · intro m hm
    simp only [List.mem_cons, not_or] at hm
    rw [h1, h2, mget_mset, mget_merase, mget_merase]
    simp only [Ne.symm hm.1, if_false]
    exact hs.same m hm.2
  · intro m hm
    rw [h1, mget_merase] at hm
    split at hm
    · simp at hm
    · exact hs.names m hm
  · rw [h2]; exact msorted_mset (msorted_merase hs.memSorted)
  · rw [h1]; exact msorted_merase hs.diskSorted
  · intro m hm
    rw [h1, mget_merase] at hm
    split at hm
    · simp at hm
    · rename_i hmn
      have := hs.aliases m hm
      simp only [St.nameExists] at this ⊢
      rw [h3, mget_merase]
      simpa [hmn] using this

theorem without_mget (db : Db) (ns : List Str) (n : Str) (hs : MSorted db) :
    mget (without db ns) n = if n ∈ ns then none else mget db n := by
  induction db with
  | nil => simp [without, mget]
  | cons p db ih =>
    have hs' : MSorted db := (List.pairwise_cons.1 hs).2
    have ih := ih hs'
    simp only [without, List.filter_cons] at ih ⊢
    by_cases hp : p.1 ∈ ns
    · simp only [hp, not_true_eq_false, decide_false, Bool.false_eq_true, if_false]
      simp only [mget]
      rw [ih]
      by_cases hpn : p.1 = n
      · subst hpn; simp [hp]
      · simp [hpn]
    · simp only [hp, not_false_eq_true, decide_true, if_true, mget]
      by_cases hpn : p.1 = n
      · subst hpn; simp [hp]
      · simp only [hpn, if_false]; exact ih

theorem msorted_without {db : Db} {ns : List Str} (hs : MSorted db) : MSorted (without db ns) :=
  List.Pairwise.sublist (List.Sublist.map _ List.filter_sublist) hs

/-- The names a removal loop goes through. -/
def namesOf (ps : List (Str × Str)) : List Str := (ps.map (·.1)).filter (fun n => !n.isEmpty)

theorem removeLoop_ok (env : RmEnv) (names : List Str) : ∀ (ps : List (Str × Str)) (st st' : St) (gone gone' : List Str),
    Synced st gone names → removeLoop env ps st gone = ((st', gone'), none) →
    Synced st' gone' names ∧ (∀ n, mget st'.disk n = if n ∈ namesOf ps then none else mget st.disk n) ∧
      (∀ n, n ∈ gone' ↔ n ∈ namesOf ps ∨ n ∈ gone) := by
  intro ps
  induction ps with
  | nil =>
    intro st st' gone gone' hs h
    simp only [removeLoop, Prod.mk.injEq, and_true] at h
    obtain ⟨rfl, rfl⟩ := h
    exact ⟨hs, by simp [namesOf], by simp [namesOf]⟩
  | cons p ps ih =>
    obtain ⟨n, c⟩ := p
    intro st st' gone gone' hs h
    simp only [removeLoop] at h
    split at h
    · rename_i hn
      have : namesOf ((n, c) :: ps) = namesOf ps := by simp [namesOf, hn]
      rw [this]
      exact ih st st' gone gone' hs h
    · rename_i hn
      have hno : namesOf ((n, c) :: ps) = n :: namesOf ps := by simp [namesOf, hn]
      rw [hno]
      split at h
      · simp at h
      · split at h
        · simp at h
        · rename_i st1 hr
          obtain ⟨a1, a2, a3⟩ := ih st1 st' (n :: gone) gone' (synced_run hs hr) h
          refine ⟨a1, ?_, ?_⟩
          · intro m
            rw [a2, (runRm_ok hr).2.1, mget_merase]
            by_cases h1 : n = m
            · simp [h1]
            · simp [h1, Ne.symm h1]
          · intro m
            rw [a3]; simp only [List.mem_cons]; tauto

theorem purgeLoop_ok (env : RmEnv) : ∀ (ns : List Str) (st st' : St), purgeLoop env ns st = (st', none) →
    (∀ n, mget st'.disk n = if n ∈ ns then none else mget st.disk n) := by
  intro ns
  induction ns with
  | nil => intro st st' h; simp only [purgeLoop, Prod.mk.injEq, and_true] at h; subst h; simp
  | cons n ns ih =>
    intro st st' h m
    simp only [purgeLoop] at h
    split at h
    · simp at h
    · rename_i st1 hr
      rw [ih st1 st' h m, (runRm_ok hr).2.1, mget_merase]
      by_cases h1 : n = m
      · simp [h1]
      · simp [h1, Ne.symm h1]

/-! ## The dependency graph -/

theorem mget_map {β} (names : List Str) (f : Str → β) (n : Str) :
    mget (names.map (fun m => (m, f m))) n = if n ∈ names then some (f n) else none := by
  induction names with
  | nil => simp [mget]
  | cons m names ih =>
    simp only [List.map_cons, mget, ih]
    by_cases h : m = n
    · simp [h]
    · simp [h, Ne.symm h]

theorem depName_line (b e : Str) (he : e.length = 10) : depName ('R' :: b ++ e) = b := by
  simp only [depName, List.cons_append, List.length_cons, List.length_append, he]
  rw [if_neg (by omega)]
  simp

theorem line_of_depName (l : Str) (hh : l.head? = some 'R') (hl : 11 ≤ l.length) :
    ∃ e : Str, e.length = 10 ∧ l = 'R' :: depName l ++ e := by
  cases l with
  | nil => simp at hl
  | cons c r =>
    simp only [List.head?_cons, Option.some.injEq] at hh
    subst hh
    simp only [List.length_cons] at hl
    refine ⟨r.drop (r.length - 10), by simp; omega, ?_⟩
    simp only [depName, List.length_cons, List.drop_succ_cons, List.drop_zero]
    rw [if_neg (by omega)]
    have : r.length + 1 - 11 = r.length - 10 := by omega
    rw [this, List.cons_append, List.take_append_drop]

theorem mem_depNames {i : Info} {b : Str} (h : ∀ l ∈ i.md, l.head? = some 'R' → 11 ≤ l.length) :
    b ∈ i.depNames ↔ ListsDep i b := by
  simp only [Info.depNames, List.mem_filterMap, mem_sofList, ListsDep]
  constructor
  · rintro ⟨l, hl, hb⟩
    split at hb
    · rename_i hh
      obtain ⟨e, he, hle⟩ := line_of_depName l hh (h l hl hh)
      simp only [Option.some.injEq] at hb
      exact ⟨e, he, by rw [← hb, ← hle]; exact hl⟩
    · simp at hb
  · rintro ⟨e, he, hm⟩
    exact ⟨_, hm, by rw [if_pos (by simp), depName_line b e he]⟩

theorem edge_iff {names : List Str} {disk : Db} (hs : MSorted disk) (hn : ∀ n, (mget disk n).isSome → n ∈ names)
    (hd : DepLinesOk disk) (a b : Str) : Edge (depGraph names disk) a b ↔ DependsOn disk a b := by
  simp only [Edge, depGraph, mget_map, DependsOn]
  constructor
  · rintro ⟨ds, h1, h2⟩
    split at h1
    · simp only [Option.some.injEq] at h1
      subst h1
      cases hm : mget disk a with
      | none => rw [hm] at h2; simp at h2
      | some i =>
        rw [hm] at h2
        simp only [mem_sofList] at h2
        exact ⟨i, mget_some_mem hm, (mem_depNames (hd _ (mget_some_mem hm))).1 h2⟩
    · simp at h1
  · rintro ⟨i, h1, h2⟩
    have hm := (mget_iff_mem hs).2 h1
    refine ⟨sofList i.depNames, ?_, ?_⟩
    · rw [hm]; simp [hn a (by simp [hm])]
    · rw [mem_sofList]; exact (mem_depNames (hd _ h1)).2 h2

theorem byHand_iff {db : Db} (hs : MSorted db) {n : Str} :
    ByHand db n ↔ ∃ i, mget db n = some i ∧ i.dependency = false := by
  simp only [ByHand, Info.dependency, d1]
  constructor
  · rintro ⟨i, h1, h2⟩
    exact ⟨i, (mget_iff_mem hs).2 h1, by simpa using h2⟩
  · rintro ⟨i, h1, h2⟩
    exact ⟨i, (mget_iff_mem hs).1 h1, by simpa using h2⟩

theorem reach_iff {g : List (Str × List Str)} {R : Str → Str → Prop} (h : ∀ a b, Edge g a b ↔ R a b) (a b : Str) :
    Reach g a b ↔ Relation.ReflTransGen R a b := by
  have : Edge g = R := by funext a b; exact propext (h a b)
  simp [Reach, this]

/-- The manual list: packages installed by hand, and packages removed by this process whose stale record happens to say so. -/
theorem mem_manual {env : RmEnv} {st : St} {gone names : List Str} (hs : Synced st gone names) (n : Str) :
    n ∈ manual env gone st.mem ↔ (n ∈ gone ∧ env.junk n = false) ∨ (n ∉ gone ∧ ByHand st.disk n) := by
  simp only [manual, List.mem_map, List.mem_filter]
  rw [byHand_iff hs.diskSorted]
  constructor
  · rintro ⟨⟨m, i⟩, ⟨h1, h2⟩, rfl⟩
    have hm := (mget_iff_mem hs.memSorted).2 h1
    by_cases hg : m ∈ gone
    · simp only [List.contains_iff_mem, hg, if_true] at h2
      exact Or.inl ⟨hg, by simpa using h2⟩
    · simp only [List.contains_iff_mem, hg, if_false] at h2
      rw [hs.same m hg] at hm
      exact Or.inr ⟨hg, i, hm, by simpa using h2⟩
  · rintro (⟨hg, hj⟩ | ⟨hg, i, h1, h2⟩)
    · exact ⟨(n, blank), ⟨mget_some_mem (hs.goneMem n hg), by simp [hg, hj]⟩, rfl⟩
    · rw [← hs.same n hg] at h1
      exact ⟨(n, i), ⟨mget_some_mem h1, by simp [hg, h2]⟩, rfl⟩

/-- What the purge selects, in a process that has removed `gone`. -/
theorem mem_obsolete {env : RmEnv} {st : St} {gone names : List Str} (hs : Synced st gone names)
    (hj : ∀ n ∈ gone, env.junk n = false) (hd : DepLinesOk st.disk) :
    ∃ vis, needed (depGraph names st.disk) (manual env gone st.mem) = some vis ∧
      ∀ n, n ∈ obsolete st.mem vis ↔ Installed st.disk n ∧ ¬ Needed st.disk n := by
  obtain ⟨vis, h1, h2⟩ := needed_spec (depGraph names st.disk) (manual env gone st.mem)
  refine ⟨vis, h1, fun n => ?_⟩
  have hedge := edge_iff hs.diskSorted hs.names hd
  have hno : ∀ r, r ∈ gone → ∀ x, Reach (depGraph names st.disk) r x → x = r := by
    intro r hr x hx
    rw [reach_iff hedge] at hx
    induction hx with
    | refl => rfl
    | tail _ he ih =>
      obtain ⟨i, hi, _⟩ := he
      rw [ih] at hi
      have := (mget_iff_mem hs.diskSorted).2 hi
      rw [hs.goneDisk r hr] at this
      simp at this
  have hkey : ∀ n, n ∈ keys st.mem ↔ n ∈ gone ∨ Installed st.disk n := by
    intro n
    rw [← mget_isSome_iff, ← mget_isSome_installed]
    by_cases hg : n ∈ gone
    · simp [hg, hs.goneMem n hg]
    · simp [hg, hs.same n hg]
  simp only [obsolete, mem_sofList, List.mem_filter, hkey, Bool.not_eq_true', List.contains_eq_mem, decide_eq_false_iff_not, h2]
  constructor
  · rintro ⟨h3, h4⟩
    have hng : n ∉ gone := fun hg => h4 ⟨n, (mem_manual hs n).2 (Or.inl ⟨hg, hj n hg⟩), .refl⟩
    refine ⟨by simpa [hng] using h3, ?_⟩
    rintro ⟨r, hr, hrn⟩
    have hrg : r ∉ gone := by
      intro hg
      obtain ⟨i, hi, _⟩ := (byHand_iff hs.diskSorted).1 hr
      rw [hs.goneDisk r hg] at hi
      simp at hi
    exact h4 ⟨r, (mem_manual hs r).2 (Or.inr ⟨hrg, hr⟩), (reach_iff hedge _ _).2 hrn⟩
  · rintro ⟨h3, h4⟩
    refine ⟨Or.inr h3, ?_⟩
    rintro ⟨r, hr, hrn⟩
    rcases (mem_manual hs r).1 hr with ⟨hg, _⟩ | ⟨_, hb⟩
    · have := hno r hg n hrn
      subst this
      have := mget_isSome_installed.2 h3
      rw [hs.goneDisk _ hg] at this
      simp at this
    · exact h4 ⟨r, hb, (reach_iff hedge _ _).1 hrn⟩

theorem mem_pinsert {x y : Str × Str} {l : List (Str × Str)} : y ∈ pinsert x l ↔ y = x ∨ y ∈ l := by
  induction l with
  | nil => simp [pinsert]
  | cons z zs ih =>
    simp only [pinsert]
    split
    · rename_i h; subst h; simp
    · split
      · simp
      · simp only [List.mem_cons, ih]; tauto

theorem mem_foldl_exists {e : Str → Bool} (l acc : List Str) (x : Str) :
    x ∈ l.foldl (fun acc n => if e n then sinsert n acc else acc) acc ↔ x ∈ acc ∨ (x ∈ l ∧ e x = true) := by
  induction l generalizing acc with
  | nil => simp
  | cons a l ih =>
    simp only [List.foldl_cons, ih]
    by_cases h : e a = true
    · simp only [h, if_true, mem_sinsert, List.mem_cons]
      constructor
      · rintro ((h | h) | h)
        · subst h; tauto
        · tauto
        · tauto
      · rintro (h | ⟨h | h, h'⟩) <;> tauto
    · simp only [h, Bool.false_eq_true, if_false, List.mem_cons]
      constructor
      · rintro (h | h) <;> tauto
      · rintro (h' | ⟨h' | h', h''⟩)
        · tauto
        · subst h'; exact absurd h'' h
        · tauto

/-- Membership in the final purge list. -/
theorem mem_obsoleteAll {groups : List Str} {e : Str → Bool} {obs : List Str} {x : Str} :
    x ∈ obsoleteAll groups e obs ↔ x ∈ obs ∨
      (e x = true ∧ ∃ g ∈ groups, g ≠ "lib".toList ∧ ∃ n ∈ obs, x = n ++ '.' :: g) := by
  simp only [obsoleteAll, mem_foldl_exists, List.mem_flatMap, List.mem_filter, List.mem_map, decide_eq_true_eq]
  constructor
  · rintro (h | ⟨⟨g, ⟨hg, hl⟩, n, hn, rfl⟩, he⟩)
    · exact Or.inl h
    · exact Or.inr ⟨he, g, hg, hl, n, hn, rfl⟩
  · rintro (h | ⟨he, g, hg, hl, n, hn, rfl⟩)
    · exact Or.inl h
    · exact Or.inr ⟨⟨g, ⟨hg, hl⟩, n, hn, rfl⟩, he⟩

/-- The names `cards remove` removes on request: selected by the arguments, or existing sub-packages of selected ones. -/
def requested (env : RmEnv) (args : List Str) (s : Sys) : List Str :=
  match selectArgs s.disk s.disk args [] (loadAlias s.disk) with
  | .error _ => []
  | .ok (sel, al) => namesOf (addGroups env.groups (fun n => (mget al n).isSome) sel)

theorem depLinesOk_sub {db db' : Db} (hs' : MSorted db')
    (h : ∀ n i, mget db' n = some i → mget db n = some i) (hd : DepLinesOk db) : DepLinesOk db' := by
  rintro ⟨n, i⟩ hp l hl hh
  have := h n i ((mget_iff_mem hs').2 hp)
  exact hd _ (mget_some_mem this) l hl hh

theorem sorted_db_ext {db db' : Db} (hs : MSorted db) (hs' : MSorted db') (h : ∀ n, mget db n = mget db' n) (p : Str × Info) :
    p ∈ db ↔ p ∈ db' := by
  obtain ⟨n, i⟩ := p
  rw [← mget_iff_mem hs, ← mget_iff_mem hs', h]

theorem needed_congr {db db' : Db} (h : ∀ p, p ∈ db ↔ p ∈ db') (n : Str) : Needed db n ↔ Needed db' n := by
  have hb : ∀ r, ByHand db r ↔ ByHand db' r := fun r => by simp [ByHand, h]
  have hr : DependsOn db = DependsOn db' := by funext a b; simp [DependsOn, h]
  simp [Needed, hb, hr]

/-- **C16** (all configurations). When `cards remove` reports success, the packages that remain are exactly those which were installed,
were not requested for removal, are reachable through recorded runtime dependencies from a package installed by hand (among those not
requested), and are not a sub-package `m.g` (`g` a configured group other than lib) of a package `m` that is not reachable.
The uninitialised flag is assumed to read as false (`junk`), see `C16_uninitialised_flag`. -/
theorem C16_purge_exact (env : RmEnv) (args : List Str) (s s' : Sys) (hw : WF s.disk) (hd : DepLinesOk s.disk)
    (hj : ∀ n, env.junk n = false) (h : cardsRemove env args s = some (s', none)) (n : Str) :
    Installed s'.disk n ↔
      let db := without s.disk (requested env args s)
      Installed db n ∧ Needed db n ∧
      ¬ ∃ m g, g ∈ env.groups ∧ g ≠ "lib".toList ∧ n = m ++ '.' :: g ∧ Installed db m ∧ ¬ Needed db m := by
  simp only [cardsRemove] at h
  simp only [requested]
  have hl : (load s false).disk = s.disk ∧ (load s false).mem = s.disk ∧ (load s false).alias = loadAlias s.disk :=
    ⟨rfl, rfl, rfl⟩
  rw [hl.1, hl.2.1, hl.2.2] at h
  cases hsel : selectArgs s.disk s.disk args [] (loadAlias s.disk) with
  | error e => rw [hsel] at h; simp at h
  | ok r =>
    obtain ⟨sel, al⟩ := r
    rw [hsel] at h
    simp only at h ⊢
    -- the alias map only grows during selection
    have halmono : ∀ (as : List Str) (acc al al' : List (Str × Str)) (sel : List (Str × Str)),
        selectArgs s.disk s.disk as acc al = .ok (sel, al') → ∀ k, (mget al k).isSome → (mget al' k).isSome := by
      intro as
      induction as with
      | nil => intro acc al al' sel h k hk; simp only [selectArgs, Except.ok.injEq, Prod.mk.injEq] at h; rw [← h.2]; exact hk
      | cons a as ih =>
        intro acc al al' sel h k hk
        simp only [selectArgs] at h
        cases h1 : selectArg s.disk s.disk acc al a with
        | error e => rw [h1] at h; simp at h
        | ok r =>
          obtain ⟨acc1, al1⟩ := r
          rw [h1] at h
          refine ih acc1 al1 al' sel h k ?_
          simp only [selectArg] at h1
          split at h1
          · simp at h1
          · split at h1
            · simp at h1
            · simp only [Except.ok.injEq, Prod.mk.injEq] at h1
              rw [← h1.2]
              split
              · exact hk
              · rw [mget_mset]; split <;> simp [hk]
    have hsync : Synced { load s false with «alias» := al } [] (keys s.disk) := by
      have h0 := synced_load s hw
      exact ⟨h0.goneDisk, h0.goneMem, h0.same, h0.names, h0.memSorted, h0.diskSorted, fun n hn => by
        have := h0.aliases n hn
        simp only [St.nameExists] at this ⊢
        exact halmono args [] _ al sel hsel n this⟩
    have hne : (fun n => (mget al n).isSome) = St.nameExists { load s false with «alias» := al } := rfl
    rw [hne]
    set st0 : St := { load s false with «alias» := al } with hst0
    cases hloop : removeLoop env (addGroups env.groups st0.nameExists sel) st0 [] with
    | mk r e =>
      obtain ⟨st1, gone⟩ := r
      have hloop' : removeLoop env (addGroups env.groups (St.nameExists { fs := (load s false).fs, disk := s.disk, mem := s.disk, «alias» := al, dep := (load s false).dep }) sel) { fs := (load s false).fs, disk := s.disk, mem := s.disk, «alias» := al, dep := (load s false).dep } [] = ((st1, gone), e) := hloop
      rw [hloop'] at h
      cases e with
      | some e => simp at h
      | none =>
        simp only at h
        obtain ⟨a1, a2, a3⟩ := removeLoop_ok env (keys s.disk) _ st0 st1 [] gone hsync hloop
        set req := namesOf (addGroups env.groups st0.nameExists sel) with hreq
        have hdisk : ∀ m, mget st1.disk m = mget (without s.disk req) m := by
          intro m; rw [a2, without_mget _ _ _ hw.1]; rfl
        have hmem := sorted_db_ext a1.diskSorted (msorted_without (ns := req) hw.1) hdisk
        have hinst : ∀ m, Installed st1.disk m ↔ Installed (without s.disk req) m := fun m => by simp [Installed, hmem]
        have hneed := needed_congr hmem
        have hdl : DepLinesOk st1.disk := by
          refine depLinesOk_sub a1.diskSorted ?_ hd
          intro m i hm
          rw [a2] at hm
          split at hm
          · simp at hm
          · exact hm
        obtain ⟨vis, b1, b2⟩ := mem_obsolete (env := env) a1 (fun m _ => hj m) hdl
        simp only [purge, b1] at h
        cases hp : purgeLoop env (obsoleteAll env.groups st1.nameExists (obsolete st1.mem vis)) st1 with
        | mk st2 e2 =>
          rw [hp] at h
          simp only [Option.some.injEq, Prod.mk.injEq] at h
          obtain ⟨h1, h2⟩ := h
          subst h2
          have hfin := purgeLoop_ok env _ st1 st2 hp n
          have hd2 : s'.disk = st2.disk := by rw [← h1]; rfl
          rw [hd2, ← mget_isSome_installed, hfin]
          by_cases hi : Installed st1.disk n
          · have hex : st1.nameExists n = true := a1.aliases n (mget_isSome_installed.2 hi)
            have hob : n ∈ obsoleteAll env.groups st1.nameExists (obsolete st1.mem vis) ↔
                ¬ Needed st1.disk n ∨ ∃ m g, g ∈ env.groups ∧ g ≠ "lib".toList ∧ n = m ++ '.' :: g ∧
                  Installed st1.disk m ∧ ¬ Needed st1.disk m := by
              rw [mem_obsoleteAll, b2]
              constructor
              · rintro (⟨_, h⟩ | ⟨_, g, hg, hgl, m, hm, rfl⟩)
                · exact Or.inl h
                · exact Or.inr ⟨m, g, hg, hgl, rfl, (b2 m).1 hm⟩
              · rintro (h | ⟨m, g, hg, hgl, rfl, hm⟩)
                · exact Or.inl ⟨hi, h⟩
                · exact Or.inr ⟨hex, g, hg, hgl, m, (b2 m).2 hm, rfl⟩
            have hi' := (hinst n).1 hi
            have hs1 : (mget st1.disk n).isSome := mget_isSome_installed.2 hi
            split
            · rename_i hc
              rw [hob] at hc
              simp only [hinst, hneed] at hc
              simp only [Option.isSome_none, Bool.false_eq_true, false_iff]
              rintro ⟨_, c2, c3⟩
              rcases hc with hc | hc
              · exact hc c2
              · exact c3 hc
            · rename_i hc
              rw [hob] at hc
              simp only [hinst, hneed] at hc
              rw [not_or, not_not] at hc
              simp only [hs1, true_iff]
              exact ⟨hi', hc.1, hc.2⟩
          · have : mget st1.disk n = none := by
              by_contra hne
              exact hi (mget_isSome_installed.1 (Option.isSome_iff_ne_none.2 hne))
            simp only [this, ite_self, Option.isSome_none, Bool.false_eq_true, false_iff]
            rintro ⟨c1, _⟩
            exact hi ((hinst n).2 c1)

/-- **C16** (termination): the search ends on every dependency graph, cyclic or dangling. -/
theorem C16_terminates (env : RmEnv) (args : List Str) (s : Sys) : cardsRemove env args s ≠ none := by
  simp only [cardsRemove]
  split
  · simp
  · split
    · simp
    · split
      · rename_i hp
        simp only [purge] at hp
        split at hp
        · rename_i hv
          obtain ⟨vis, hv', _⟩ := needed_spec _ _
          rw [hv'] at hv
          simp at hv
        · simp at hp
      · simp

/-- **C16** without configured groups (or only lib): exactly the packages not reachable from a package installed by hand go. -/
theorem C16_purge_exact_no_groups (env : RmEnv) (args : List Str) (s s' : Sys) (hw : WF s.disk) (hd : DepLinesOk s.disk)
    (hj : ∀ n, env.junk n = false) (hg : ∀ g ∈ env.groups, g = "lib".toList)
    (h : cardsRemove env args s = some (s', none)) (n : Str) :
    Installed s'.disk n ↔ Installed (without s.disk (requested env args s)) n ∧
      Needed (without s.disk (requested env args s)) n := by
  rw [C16_purge_exact env args s s' hw hd hj h n]
  constructor
  · rintro ⟨h1, h2, _⟩; exact ⟨h1, h2⟩
  · rintro ⟨h1, h2⟩; exact ⟨h1, h2, by rintro ⟨m, g, hgm, hgl, _⟩; exact hgl (hg g hgm)⟩

theorem runRm_none {locked : Bool} {sc : RmScripts} {n : Str} {st : St} (hl : locked = false)
    (hp : ∀ fs, (sc.pre fs).2 = true) (he : st.nameExists n = true) (hd : (mget st.disk n).isSome) :
    (runRm locked sc n st).2 = none := by
  simp only [runRm, hl, Bool.false_eq_true, if_false, he, Bool.not_true, hp, removeRecord, removeFiles]
  cases h : mget st.disk n with
  | none => rw [h] at hd; simp at hd
  | some i => simp

theorem purgeLoop_succeeds (env : RmEnv) (names : List Str) (hl : ∀ n, env.locked n = false)
    (hp : ∀ n fs, ((env.sc n).pre fs).2 = true) : ∀ (ns : List Str) (st : St) (gone : List Str), Synced st gone names →
    ns.Nodup → (∀ n ∈ ns, (mget st.disk n).isSome) → (purgeLoop env ns st).2 = none := by
  intro ns
  induction ns with
  | nil => intro st gone _ _ _; rfl
  | cons n ns ih =>
    intro st gone hs hnd hin
    have hn := hin n (by simp)
    have hok := runRm_none (sc := env.sc n) (hl n) (hp n) (hs.aliases n hn) hn
    simp only [purgeLoop]
    cases hr : runRm (env.locked n) (env.sc n) n st with
    | mk st1 e =>
      rw [hr] at hok
      simp only at hok
      subst hok
      simp only
      obtain ⟨hnn, hnd'⟩ := List.nodup_cons.1 hnd
      refine ih st1 (n :: gone) (synced_run hs hr) hnd' ?_
      intro m hm
      rw [(runRm_ok hr).2.1, mget_merase]
      have : n ≠ m := fun h => hnn (h ▸ hm)
      simp only [this, if_false]
      exact hin m (List.mem_cons_of_mem _ hm)

theorem sorted_nodup {l : List Str} (h : Sorted l) : l.Nodup :=
  List.Pairwise.imp (fun {a b} hab => fun he => by subst he; exact str_lt_irrefl _ hab) h

/-- **C16** (the purge goes through). In a process that has removed `gone`, with no groups configured, no other process holding
the lock and no failing pre-remove script, every selected package is removed: no error. -/
theorem C16_purge_succeeds (env : RmEnv) (st : St) (gone names : List Str) (hs : Synced st gone names)
    (hd : DepLinesOk st.disk) (hj : ∀ n ∈ gone, env.junk n = false) (hg : env.groups = [])
    (hl : ∀ n, env.locked n = false) (hp : ∀ n fs, ((env.sc n).pre fs).2 = true) :
    ∃ st', purge env names gone st = some (st', none) := by
  obtain ⟨vis, h1, h2⟩ := mem_obsolete (env := env) hs hj hd
  simp only [purge, h1]
  have hob : obsoleteAll env.groups st.nameExists (obsolete st.mem vis) = obsolete st.mem vis := by simp [obsoleteAll, hg]
  rw [hob]
  have := purgeLoop_succeeds env names hl hp (obsolete st.mem vis) st gone hs (sorted_nodup (sorted_sofList _))
    (fun n hn => mget_isSome_installed.2 ((h2 n).1 hn).1)
  exact ⟨_, by rw [← this]⟩

/-! ### Concrete cases -/

/-- The environment without surprises. -/
def rEnv (groups : List String) : RmEnv :=
  { groups := groups.map String.toList, force := false, locked := fun _ => false,
    sc := fun _ => { pre := fun fs => (fs, true), post := fun fs => fs }, junk := fun _ => false }

/-- A record with the given META lines and no files. -/
def rPkg (name : String) (md : List String) : Str × Info := (name.toList, { md := md.map String.toList, files := [] })

/-- `app` (by hand) needs `liba`, which needs `libb`, which needs `liba`; `old` (by hand) needs `libc` and `liba`; `libc` needs itself. -/
def rSys : Sys :=
  { fs := [], disk := [rPkg "app" ["Rliba1700000000"], rPkg "liba" ["Rlibb1700000000", "d1"],
      rPkg "libb" ["Rliba1700000000", "d1"], rPkg "libc" ["Rlibc1700000000", "d1"],
      rPkg "old" ["Rliba1700000000", "Rlibc1700000000"]] }

theorem rSys_wf : WF rSys.disk := by
  refine ⟨by decide, ?_⟩
  intro p hp
  simp only [rSys, List.mem_cons, List.not_mem_nil, or_false] at hp
  rcases hp with rfl | rfl | rfl | rfl | rfl <;> decide

/-- The hypotheses of `C16_purge_exact` hold for `cards remove old`: it succeeds, libc goes with it, the cycle liba/libb stays. -/
example : WF rSys.disk ∧ DepLinesOk rSys.disk ∧ (∀ n, (rEnv ["devel"]).junk n = false) ∧
    ∃ s', cardsRemove (rEnv ["devel"]) ["old".toList] rSys = some (s', none) ∧
      keys s'.disk = ["app".toList, "liba".toList, "libb".toList] := by
  refine ⟨rSys_wf, by unfold DepLinesOk; decide, fun _ => rfl, _, rfl, by decide⟩

/-- **C16 fails** with groups: `x.devel` is installed by hand, but goes with the orphan `x`. -/
theorem C16_group_counterexample : ∃ (s : Sys) (s' : Sys), WF s.disk ∧ ByHand s.disk "x.devel".toList ∧
    cardsRemove (rEnv ["devel"]) ["y".toList] s = some (s', none) ∧ ¬ Installed s'.disk "x.devel".toList := by
  refine ⟨{ fs := [], disk := [rPkg "x" ["d1"], rPkg "x.devel" [], rPkg "y" []] }, _, ⟨by decide, ?_⟩, ?_, rfl, ?_⟩
  · intro p hp
    simp only [List.mem_cons, List.not_mem_nil, or_false] at hp
    rcases hp with rfl | rfl | rfl <;> decide
  · exact ⟨{ md := [], files := [] }, by decide, by decide⟩
  · rw [← keys_iff_installed]; decide

/-- **C16 fails** when the record read at the end is uninitialised: /repo/src/pkgdbh.cxx:912 re-creates the record of the removed package
with an indeterminate flag. If it reads as true, the purge tries to remove the package again, reports an error and
leaves the orphan `z` installed. -/
theorem C16_uninitialised_flag : ∃ (s : Sys) (s' : Sys), WF s.disk ∧
    cardsRemove { rEnv [] with junk := fun _ => true } ["y".toList] s = some (s', some (.run .notInstalled)) ∧
    Installed s'.disk "z".toList ∧ ¬ Needed s'.disk "z".toList := by
  refine ⟨{ fs := [], disk := [rPkg "y" ["Rz1700000000"], rPkg "z" ["d1"]] }, _, ⟨by decide, ?_⟩, rfl, ?_, ?_⟩
  · intro p hp
    simp only [List.mem_cons, List.not_mem_nil, or_false] at hp
    rcases hp with rfl | rfl <;> decide
  · rw [← keys_iff_installed]; decide
  · rintro ⟨r, ⟨i, hi, hd⟩, _⟩
    have hi' : (r, i) ∈ [rPkg "z" ["d1"]] := hi
    simp only [List.mem_singleton, rPkg, Prod.mk.injEq] at hi'
    obtain ⟨_, rfl⟩ := hi'
    exact hd (by decide)

/-- A dependency recorded under an alias is not resolved: `z` is needed by `app` through its alias `zz`, and is removed. -/
theorem C16_alias_counterexample : ∃ (s : Sys) (s' : Sys), WF s.disk ∧ DependsOn s.disk "app".toList "zz".toList ∧
    (∃ i, ("z".toList, i) ∈ s.disk ∧ HasAlias i "zz".toList) ∧
    cardsRemove (rEnv []) ["y".toList] s = some (s', none) ∧ Installed s'.disk "app".toList ∧ ¬ Installed s'.disk "z".toList := by
  refine ⟨{ fs := [], disk := [rPkg "app" ["Rzz1700000000"], rPkg "y" [], rPkg "z" ["Azz", "d1"]] }, _, ⟨by decide, ?_⟩, ?_, ?_, rfl, ?_, ?_⟩
  · intro p hp
    simp only [List.mem_cons, List.not_mem_nil, or_false] at hp
    rcases hp with rfl | rfl | rfl <;> decide
  · exact ⟨_, List.mem_cons_self .., "1700000000".toList, by decide, by decide⟩
  · exact ⟨(rPkg "z" ["Azz", "d1"]).2, by decide, by unfold HasAlias; decide⟩
  · rw [← keys_iff_installed]; decide
  · rw [← keys_iff_installed]; decide

/-! ## C17 -/

theorem selectArgs_refused (disk mem : Db) (args : List Str) (acc al : List (Str × Str))
    (h : ∃ a ∈ args, a = "base".toList ∨ ∃ p ∈ mem, a ∈ p.2.depNames) :
    selectArgs disk mem args acc al = .error .inUse := by
  induction args generalizing acc al with
  | nil => simp at h
  | cons i is ih =>
    simp only [selectArgs]
    by_cases hi : i = "base".toList ∨ ∃ p ∈ mem, i ∈ p.2.depNames
    · have : selectArg disk mem acc al i = .error .inUse := by
        simp only [selectArg]
        rcases hi with hi | ⟨p, hp, hi⟩
        · simp [hi]
        · by_cases hb : i = "base".toList
          · simp [hb]
          · rw [if_neg hb, if_pos]
            exact List.any_eq_true.2 ⟨p, hp, by simpa using hi⟩
      rw [this]
    · have h' : ∃ a ∈ is, a = "base".toList ∨ ∃ p ∈ mem, a ∈ p.2.depNames := by
        obtain ⟨a, ha, hr⟩ := h
        rcases List.mem_cons.1 ha with rfl | ha
        · exact absurd hr hi
        · exact ⟨a, ha, hr⟩
      have : ∃ acc' al', selectArg disk mem acc al i = .ok (acc', al') := by
        rw [not_or] at hi
        simp only [selectArg]
        rw [if_neg hi.1, if_neg]
        · exact ⟨_, _, rfl⟩
        · intro h
          obtain ⟨p, hp, hc⟩ := List.any_eq_true.1 h
          exact hi.2 ⟨p, hp, by simpa using hc⟩
      obtain ⟨acc', al', he⟩ := this
      rw [he]
      exact ih acc' al' h'

/-- **C17**: `cards remove` refuses the argument `base`, wherever it stands among the arguments, and changes nothing. -/
theorem C17_base_refused (env : RmEnv) (args : List Str) (s : Sys) (h : "base".toList ∈ args) :
    cardsRemove env args s = some (s, some .inUse) := by
  simp only [cardsRemove]
  rw [selectArgs_refused _ _ args _ _ ⟨_, h, Or.inl rfl⟩]

/-- **C17**: `cards remove` refuses any argument that an installed package lists as runtime dependency, and changes nothing. -/
theorem C17_dependency_refused (env : RmEnv) (args : List Str) (s : Sys) (a p : Str) (ha : a ∈ args)
    (hd : DependsOn s.disk p a) : cardsRemove env args s = some (s, some .inUse) := by
  obtain ⟨i, hi, e, he, hm⟩ := hd
  have : a ∈ i.depNames := by
    simp only [Info.depNames, List.mem_filterMap, mem_sofList]
    exact ⟨_, hm, by rw [if_pos (by simp), depName_line a e he]⟩
  simp only [cardsRemove]
  rw [selectArgs_refused _ (load s false).mem args _ _ ⟨a, ha, Or.inr ⟨(p, i), hi, this⟩⟩]

example : "libc".toList ∈ ["app".toList, "libc".toList] ∧ DependsOn rSys.disk "old".toList "libc".toList :=
  ⟨by decide, (rPkg "old" ["Rliba1700000000", "Rlibc1700000000"]).2, by decide, "1700000000".toList, by decide, by decide⟩

theorem foldl_alias_some (l : List Str) (q : Str) (m : List (Str × Str)) (a p : Str)
    (h : mget (l.foldl (fun m x => mset x q m) m) a = some p) : mget m a = some p ∨ (p = q ∧ a ∈ l) := by
  induction l generalizing m with
  | nil => exact Or.inl h
  | cons x l ih =>
    simp only [List.foldl_cons] at h
    rcases ih _ h with h1 | ⟨h1, h2⟩
    · rw [mget_mset] at h1
      split at h1
      · rename_i hx
        simp only [Option.some.injEq] at h1
        exact Or.inr ⟨h1.symm, by simp [hx]⟩
      · exact Or.inl h1
    · exact Or.inr ⟨h1, List.mem_cons_of_mem _ h2⟩

/-- Where an entry of the alias map comes from. -/
theorem loadAlias_some (db : Db) (a p : Str) (h : mget (loadAlias db) a = some p) :
    ∃ i, (p, i) ∈ db ∧ (a = p ∨ HasAlias i a) := by
  have gen : ∀ (db : Db) (m : List (Str × Str)),
      mget (db.foldl (fun m p => p.2.aliases.foldl (fun m a => mset a p.1 m) (mset p.1 p.1 m)) m) a = some p →
      mget m a = some p ∨ ∃ i, (p, i) ∈ db ∧ (a = p ∨ HasAlias i a) := by
    intro db
    induction db with
    | nil => intro m h; exact Or.inl h
    | cons q db ih =>
      intro m h
      simp only [List.foldl_cons] at h
      rcases ih _ h with h1 | ⟨i, h1, h2⟩
      · rcases foldl_alias_some _ _ _ _ _ h1 with h2 | ⟨h2, h3⟩
        · rw [mget_mset] at h2
          split at h2
          · rename_i hx
            simp only [Option.some.injEq] at h2
            exact Or.inr ⟨q.2, by rw [← h2]; simp, Or.inl (hx ▸ h2)⟩
          · exact Or.inl h2
        · refine Or.inr ⟨q.2, by rw [h2]; simp, Or.inr ?_⟩
          simp only [Info.aliases, List.mem_filterMap] at h3
          obtain ⟨l, hl, h3⟩ := h3
          split at h3
          · simp only [Option.some.injEq] at h3; subst h3; exact hl
          · simp at h3
      · exact Or.inr ⟨i, List.mem_cons_of_mem _ h1, h2⟩
  rcases gen db [] h with h | h
  · simp [mget] at h
  · exact h

theorem fields_inCollection {i : Info} {c : Str} (h : InCollection i c) : i.lastField 'c' = c ∧ i.firstField 'c' = c := by
  have hall : ∀ x ∈ i.fields 'c', x = c := by
    intro x hx
    simp only [Info.fields, List.mem_filterMap, mem_sofList] at hx
    obtain ⟨l, hl, hx⟩ := hx
    split at hx
    · rename_i hh
      simp only [Option.some.injEq] at hx
      rw [← hx, h.2 l hl hh]; rfl
    · simp at hx
  have hne : i.fields 'c' ≠ [] := by
    have : c ∈ i.fields 'c' := by
      simp only [Info.fields, List.mem_filterMap, mem_sofList]
      exact ⟨_, h.1, by simp⟩
    exact List.ne_nil_of_mem this
  constructor
  · simp only [Info.lastField, List.getLast?_eq_some_getLast hne, Option.getD_some]
    exact hall _ (List.getLast_mem hne)
  · simp only [Info.firstField, List.head?_eq_some_head hne, Option.getD_some]
    exact hall _ (List.head_mem hne)

theorem foldl_pinsert_all {P : Str × Str → Prop} {c : (Str × Info) → Bool} {f : (Str × Info) → Str × Str} (db : Db)
    (acc : List (Str × Str)) (hacc : ∀ x ∈ acc, P x) (hf : ∀ q ∈ db, P (f q)) :
    ∀ x ∈ db.foldl (fun acc q => if c q then pinsert (f q) acc else acc) acc, P x := by
  induction db generalizing acc with
  | nil => exact hacc
  | cons q db ih =>
    simp only [List.foldl_cons]
    refine ih _ ?_ (fun q' h' => hf q' (List.mem_cons_of_mem _ h'))
    intro x hx
    split at hx
    · rcases mem_pinsert.1 hx with h | h
      · rw [h]; exact hf q (by simp)
      · exact hacc x h
    · exact hacc x hx

/-- Whatever is selected under the name of package `p` carries the collection `c` of `p`. -/
theorem select_collection {disk : Db} (hs : MSorted disk) {p c : Str} {i : Info} (hi : (p, i) ∈ disk) (hc : InCollection i c)
    (hp : p ≠ []) : ∀ (args : List Str) (acc al sel al' : List (Str × Str)),
    (∀ x ∈ acc, x.1 = p → x.2 = c) → (∀ a ∈ args, mget al a = some p → a = p) →
    selectArgs disk disk args acc al = .ok (sel, al') → ∀ x ∈ sel, x.1 = p → x.2 = c := by
  intro args
  induction args with
  | nil =>
    intro acc al sel al' hacc _ h
    simp only [selectArgs, Except.ok.injEq, Prod.mk.injEq] at h
    rw [← h.1]; exact hacc
  | cons a as ih =>
    intro acc al sel al' hacc hal h
    simp only [selectArgs] at h
    cases h1 : selectArg disk disk acc al a with
    | error e => rw [h1] at h; simp at h
    | ok r =>
      obtain ⟨acc1, al1⟩ := r
      rw [h1] at h
      simp only [selectArg] at h1
      split at h1
      · simp at h1
      · split at h1
        · simp at h1
        · simp only [Except.ok.injEq, Prod.mk.injEq] at h1
          obtain ⟨e1, e2⟩ := h1
          have hq : ∀ q ∈ disk, q.1 = p → q.2.lastField 'c' = c := by
            rintro ⟨q, j⟩ hq rfl
            have := (mget_iff_mem hs).2 hq
            rw [(mget_iff_mem hs).2 hi] at this
            cases this
            exact (fields_inCollection hc).1
          refine ih acc1 al1 sel al' ?_ ?_ h
          · rw [← e1]
            intro x hx
            rcases mem_pinsert.1 hx with hx | hx
            · subst hx
              simp only
              intro hap
              have hsome : mget al a = some p := by
                cases hm : mget al a with
                | none => rw [hm] at hap; simp only [Option.getD_none] at hap; exact absurd hap.symm hp
                | some v => rw [hm] at hap; simp only [Option.getD_some] at hap; rw [hap]
              have := hal a (by simp) hsome
              subst this
              simp only [getCollection, (mget_iff_mem hs).2 hi]
              exact (fields_inCollection hc).2
            · have hfold1 := foldl_pinsert_all (P := fun x => x.1 = p → x.2 = c)
                (c := fun q => decide (q.2.lastField 'c' = a ∨ q.2.lastField 'g' = a))
                (f := fun q => (q.1, q.2.lastField 'c')) disk acc hacc hq
              simp only [decide_eq_true_eq] at hfold1
              split at hx
              · exact foldl_pinsert_all (P := fun x => x.1 = p → x.2 = c) (c := fun q => (q.2.fields 's').contains a)
                  (f := fun q => (q.1, q.2.lastField 'c')) disk _ hfold1 hq x hx
              · exact hfold1 x hx
          · intro b hb hm
            rw [← e2] at hm
            split at hm
            · exact hal b (List.mem_cons_of_mem _ hb) hm
            · rw [mget_mset] at hm
              split at hm
              · simp only [Option.some.injEq] at hm; exact absurd hm.symm hp
              · exact hal b (List.mem_cons_of_mem _ hb) hm

theorem addGroups_mem {groups : List Str} {e : Str → Bool} {sel : List (Str × Str)} {x : Str × Str}
    (h : x ∈ addGroups groups e sel) : x ∈ sel ∨ ∃ m g, g ∈ groups ∧ x.1 = m ++ '.' :: g := by
  have inner : ∀ (g : Str) (l acc : List (Str × Str)),
      x ∈ l.foldl (fun acc p => let n := p.1 ++ '.' :: g; if e n then pinsert (n, p.2) acc else acc) acc →
      x ∈ acc ∨ ∃ m, x.1 = m ++ '.' :: g := by
    intro g l
    induction l with
    | nil => intro acc h; exact Or.inl h
    | cons p l ih =>
      intro acc h
      simp only [List.foldl_cons] at h
      rcases ih _ h with h | h
      · split at h
        · rcases mem_pinsert.1 h with h | h
          · exact Or.inr ⟨p.1, by rw [h]⟩
          · exact Or.inl h
        · exact Or.inl h
      · exact Or.inr h
  have outer : ∀ (gs : List Str) (acc : List (Str × Str)),
      x ∈ gs.foldl (fun acc g => sel.foldl (fun acc p => let n := p.1 ++ '.' :: g; if e n then pinsert (n, p.2) acc else acc) acc) acc →
      x ∈ acc ∨ ∃ m g, g ∈ gs ∧ x.1 = m ++ '.' :: g := by
    intro gs
    induction gs with
    | nil => intro acc h; exact Or.inl h
    | cons g gs ih =>
      intro acc h
      simp only [List.foldl_cons] at h
      rcases ih _ h with h | ⟨m, g', hg, hx⟩
      · rcases inner g sel acc h with h | ⟨m, hm⟩
        · exact Or.inl h
        · exact Or.inr ⟨m, g, by simp, hm⟩
      · exact Or.inr ⟨m, g', List.mem_cons_of_mem _ hg, hx⟩
  rcases outer _ sel h with h | ⟨m, g, hg, hx⟩
  · exact Or.inl h
  · exact Or.inr ⟨m, g, (List.mem_filter.1 hg).1, hx⟩

theorem runRm_other {locked : Bool} {sc : RmScripts} {n p : Str} {st : St} (h : n ≠ p) :
    mget (runRm locked sc n st).1.disk p = mget st.disk p := by
  simp only [runRm]
  split
  · rfl
  · split
    · rfl
    · split
      · rfl
      · simp only [removeRecord, removeFiles]
        split
        · rfl
        · simp [mget_merase, h]

theorem removeLoop_keeps (env : RmEnv) (p : Str) : ∀ (ps : List (Str × Str)) (st : St) (gone : List Str),
    (∀ x ∈ ps, x.1 = p → x.2 = "base".toList) → env.force = false →
    mget (removeLoop env ps st gone).1.1.disk p = mget st.disk p := by
  intro ps
  induction ps with
  | nil => intro st gone _ _; rfl
  | cons x ps ih =>
    obtain ⟨n, c⟩ := x
    intro st gone hx hf
    have hx' : ∀ x ∈ ps, x.1 = p → x.2 = "base".toList := fun x h => hx x (List.mem_cons_of_mem _ h)
    simp only [removeLoop]
    split
    · exact ih st gone hx' hf
    · split
      · rfl
      · rename_i hc
        have hnp : n ≠ p := by
          intro h
          exact hc ⟨hx (n, c) (by simp) h, hf⟩
        have := runRm_other (locked := env.locked n) (sc := env.sc n) (st := st) hnp
        split
        · rename_i st1 e hr; rw [hr] at this; exact this
        · rename_i st1 hr; rw [hr] at this; rw [ih st1 _ hx' hf]; exact this

theorem purgeLoop_keeps (env : RmEnv) (p : Str) : ∀ (ns : List Str) (st : St), p ∉ ns →
    mget (purgeLoop env ns st).1.disk p = mget st.disk p := by
  intro ns
  induction ns with
  | nil => intro st _; rfl
  | cons n ns ih =>
    intro st hp
    simp only [List.mem_cons, not_or] at hp
    have := runRm_other (locked := env.locked n) (sc := env.sc n) (st := st) (Ne.symm hp.1)
    simp only [purgeLoop]
    split
    · rename_i st1 e hr; rw [hr] at this; exact this
    · rename_i st1 hr; rw [hr] at this; rw [ih st1 hp.2]; exact this

theorem synced_select {s : Sys} (hw : WF s.disk) {args : List Str} {sel al : List (Str × Str)}
    (hsel : selectArgs s.disk s.disk args [] (loadAlias s.disk) = .ok (sel, al)) :
    Synced { load s false with «alias» := al } [] (keys s.disk) := by
  have halmono : ∀ (as : List Str) (acc al al' : List (Str × Str)) (sel : List (Str × Str)),
      selectArgs s.disk s.disk as acc al = .ok (sel, al') → ∀ k, (mget al k).isSome → (mget al' k).isSome := by
    intro as
    induction as with
    | nil => intro acc al al' sel h k hk; simp only [selectArgs, Except.ok.injEq, Prod.mk.injEq] at h; rw [← h.2]; exact hk
    | cons a as ih =>
      intro acc al al' sel h k hk
      simp only [selectArgs] at h
      cases h1 : selectArg s.disk s.disk acc al a with
      | error e => rw [h1] at h; simp at h
      | ok r =>
        obtain ⟨acc1, al1⟩ := r
        rw [h1] at h
        refine ih acc1 al1 al' sel h k ?_
        simp only [selectArg] at h1
        split at h1
        · simp at h1
        · split at h1
          · simp at h1
          · simp only [Except.ok.injEq, Prod.mk.injEq] at h1
            rw [← h1.2]
            split
            · exact hk
            · rw [mget_mset]; split <;> simp [hk]
  have h0 := synced_load s hw
  exact ⟨h0.goneDisk, h0.goneMem, h0.same, h0.names, h0.memSorted, h0.diskSorted, fun n hn => by
    have := h0.aliases n hn
    simp only [St.nameExists] at this ⊢
    exact halmono args [] _ al sel hsel n this⟩

/-- **C17** (partial: a package of collection base stays, without --force, whatever the outcome — when it was installed by hand, no argument is
an alias of it, and its name is not of the form `m.g` for a configured group). Without these conditions it fails:
`C17_base_alias_counterexample`, `C17_base_orphan_counterexample`. -/
theorem C17_base_kept_partial (env : RmEnv) (args : List Str) (s s' : Sys) (e : Option RmErr) (p : Str) (i : Info)
    (hw : WF s.disk) (hf : env.force = false)
    (hi : (p, i) ∈ s.disk) (hc : InCollection i "base".toList) (hp : p ≠ [])
    (hand : "d1".toList ∉ i.md) (hal : ∀ a ∈ args, a ≠ p → ¬ HasAlias i a)
    (hg : ¬ ∃ m g, g ∈ env.groups ∧ p = m ++ '.' :: g)
    (h : cardsRemove env args s = some (s', e)) : (p, i) ∈ s'.disk := by
  have hm := (mget_iff_mem hw.1).2 hi
  simp only [cardsRemove] at h
  have hl : (load s false).disk = s.disk ∧ (load s false).mem = s.disk ∧ (load s false).alias = loadAlias s.disk :=
    ⟨rfl, rfl, rfl⟩
  rw [hl.1, hl.2.1, hl.2.2] at h
  cases hsel : selectArgs s.disk s.disk args [] (loadAlias s.disk) with
  | error e => rw [hsel] at h; simp only [Option.some.injEq, Prod.mk.injEq] at h; rw [← h.1]; exact hi
  | ok r =>
    obtain ⟨sel, al⟩ := r
    rw [hsel] at h
    simp only at h
    have hselc := select_collection hw.1 hi hc hp args [] (loadAlias s.disk) sel al (by simp) (by
      intro a ha hma
      by_contra hne
      obtain ⟨j, hj, h'⟩ := loadAlias_some _ _ _ hma
      have := (mget_iff_mem hw.1).2 hj
      rw [hm] at this
      cases this
      rcases h' with h' | h'
      · exact hne h'
      · exact hal a ha hne h') hsel
    have hsync := synced_select hw hsel
    have hst0 : St.disk { load s false with «alias» := al } = s.disk := rfl
    have hpairs : ∀ x ∈ addGroups env.groups (St.nameExists { load s false with «alias» := al }) sel,
        x.1 = p → x.2 = "base".toList := by
      intro x hx hxp
      rcases addGroups_mem hx with hx | ⟨m, g, hg1, hg2⟩
      · exact hselc x hx hxp
      · exact absurd ⟨m, g, hg1, hxp ▸ hg2⟩ hg
    have hkeep := removeLoop_keeps env p _ { load s false with «alias» := al } [] hpairs hf
    have hloop0 : ∀ r, removeLoop env (addGroups env.groups (St.nameExists { load s false with «alias» := al }) sel)
        { load s false with «alias» := al } [] = r → removeLoop env (addGroups env.groups (St.nameExists
        { fs := (load s false).fs, disk := s.disk, mem := s.disk, «alias» := al, dep := (load s false).dep }) sel)
        { fs := (load s false).fs, disk := s.disk, mem := s.disk, «alias» := al, dep := (load s false).dep } [] = r :=
      fun _ h => h
    cases hloop : removeLoop env (addGroups env.groups (St.nameExists { load s false with «alias» := al }) sel)
        { load s false with «alias» := al } [] with
    | mk r er =>
      obtain ⟨st1, gone⟩ := r
      rw [hloop] at hkeep
      simp only at hkeep
      rw [hst0] at hkeep
      rw [hloop0 _ hloop] at h
      cases er with
      | some er =>
        simp only [Option.some.injEq, Prod.mk.injEq] at h
        rw [← h.1]
        exact mget_some_mem (hkeep.trans hm)
      | none =>
        simp only at h
        obtain ⟨a1, a2, a3⟩ := removeLoop_ok env (keys s.disk) _ _ st1 [] gone hsync hloop
        obtain ⟨vis, b1, b2⟩ := needed_spec (depGraph (keys s.disk) st1.disk) (manual env gone st1.mem)
        simp only [purge, b1] at h
        have hm1 : mget st1.disk p = some i := hkeep.trans hm
        have hpg : p ∉ gone := by
          intro hg'
          have := a1.goneDisk p hg'
          rw [hm1] at this
          simp at this
        have hpv : p ∈ vis := (b2 p).2 ⟨p, (mem_manual a1 p).2 (Or.inr ⟨hpg, (byHand_iff a1.diskSorted).2
          ⟨i, hm1, by simpa [Info.dependency, d1] using hand⟩⟩), .refl⟩
        have hpo : p ∉ obsoleteAll env.groups st1.nameExists (obsolete st1.mem vis) := by
          rw [mem_obsoleteAll]
          rintro (h | ⟨_, g, hg1, _, m, _, hx⟩)
          · simp only [obsolete, mem_sofList, List.mem_filter, Bool.not_eq_true', List.contains_eq_mem,
              decide_eq_false_iff_not] at h
            exact h.2 hpv
          · exact hg ⟨m, g, hg1, hx⟩
        have hk2 := purgeLoop_keeps env p _ st1 hpo
        cases hpl : purgeLoop env (obsoleteAll env.groups st1.nameExists (obsolete st1.mem vis)) st1 with
        | mk st2 e2 =>
          rw [hpl] at h hk2
          simp only [Option.some.injEq, Prod.mk.injEq] at h hk2
          rw [← h.1]
          exact mget_some_mem (hk2.trans hm1)

/-- The hypotheses of `C17_base_kept_partial` hold for `cards remove old glibc` on a system where glibc is in base. -/
example : ∃ (s s' : Sys) (e : Option RmErr) (i : Info), WF s.disk ∧ DepLinesOk s.disk ∧ ("glibc".toList, i) ∈ s.disk ∧
    InCollection i "base".toList ∧ "d1".toList ∉ i.md ∧
    cardsRemove (rEnv ["devel"]) ["old".toList, "glibc".toList] s = some (s', e) := by
  refine ⟨{ fs := [], disk := [rPkg "glibc" ["cbase", "Nglibc"], rPkg "old" []] }, _, _, (rPkg "glibc" ["cbase", "Nglibc"]).2,
    ⟨by decide, ?_⟩, by unfold DepLinesOk; decide, by decide, ⟨by decide, by decide⟩, by decide, rfl⟩
  intro p hp
  simp only [List.mem_cons, List.not_mem_nil, or_false] at hp
  rcases hp with rfl | rfl <;> decide

/-- **C17 fails** for an alias: the collection is looked up under the argument, not under the real name, so a package of collection
base goes without --force; and the dependency test does not see it either. -/
theorem C17_base_alias_counterexample : ∃ (s s' : Sys) (i : Info), WF s.disk ∧ ("bash".toList, i) ∈ s.disk ∧
    InCollection i "base".toList ∧ DependsOn s.disk "app".toList "bash".toList ∧
    cardsRemove (rEnv []) ["sh".toList] s = some (s', none) ∧ ¬ Installed s'.disk "bash".toList ∧
    Installed s'.disk "app".toList := by
  refine ⟨{ fs := [], disk := [rPkg "app" ["Rbash1700000000"], rPkg "bash" ["Ash", "cbase"]] }, _,
    (rPkg "bash" ["Ash", "cbase"]).2, ⟨by decide, ?_⟩, by decide, ⟨by decide, by decide⟩, ?_, rfl, ?_, ?_⟩
  · intro p hp
    simp only [List.mem_cons, List.not_mem_nil, or_false] at hp
    rcases hp with rfl | rfl <;> decide
  · exact ⟨_, List.mem_cons_self .., "1700000000".toList, by decide, by decide⟩
  · rw [← keys_iff_installed]; decide
  · rw [← keys_iff_installed]; decide

/-- **C17 fails** for the purge: a package of collection base that is marked automatic and no longer needed goes without --force. -/
theorem C17_base_orphan_counterexample : ∃ (s s' : Sys) (i : Info), WF s.disk ∧ ("glibc".toList, i) ∈ s.disk ∧
    InCollection i "base".toList ∧ cardsRemove (rEnv []) ["old".toList] s = some (s', none) ∧
    ¬ Installed s'.disk "glibc".toList := by
  refine ⟨{ fs := [], disk := [rPkg "glibc" ["cbase", "d1"], rPkg "old" []] }, _,
    (rPkg "glibc" ["cbase", "d1"]).2, ⟨by decide, ?_⟩, by decide, ⟨by decide, by decide⟩, rfl, ?_⟩
  · intro p hp
    simp only [List.mem_cons, List.not_mem_nil, or_false] at hp
    rcases hp with rfl | rfl <;> decide
  · rw [← keys_iff_installed]; decide

/-- A collection argument removes packages that others depend on: only the argument itself is compared with the dependencies. -/
theorem C17_collection_counterexample : ∃ (s s' : Sys), WF s.disk ∧ DependsOn s.disk "app".toList "libx".toList ∧
    cardsRemove (rEnv []) ["extra".toList] s = some (s', none) ∧ Installed s'.disk "app".toList ∧
    ¬ Installed s'.disk "libx".toList := by
  refine ⟨{ fs := [], disk := [rPkg "app" ["Rlibx1700000000"], rPkg "libx" ["cextra"]] }, _, ⟨by decide, ?_⟩, ?_, rfl, ?_, ?_⟩
  · intro p hp
    simp only [List.mem_cons, List.not_mem_nil, or_false] at hp
    rcases hp with rfl | rfl <;> decide
  · exact ⟨_, List.mem_cons_self .., "1700000000".toList, by decide, by decide⟩
  · rw [← keys_iff_installed]; decide
  · rw [← keys_iff_installed]; decide

/-! ## C47: what an argument of cards remove names -/

theorem mem_foldl_pinsert {c : (Str × Info) → Bool} {f : (Str × Info) → Str × Str} (db : Db) (acc : List (Str × Str))
    (x : Str × Str) : x ∈ db.foldl (fun acc q => if c q then pinsert (f q) acc else acc) acc ↔
      x ∈ acc ∨ ∃ q ∈ db, c q = true ∧ x = f q := by
  induction db generalizing acc with
  | nil => simp
  | cons q db ih =>
    have hex : (∃ r ∈ q :: db, c r = true ∧ x = f r) ↔ (c q = true ∧ x = f q) ∨ ∃ r ∈ db, c r = true ∧ x = f r := by
      constructor
      · rintro ⟨r, hr, h⟩
        rcases List.mem_cons.1 hr with rfl | hr
        · exact Or.inl h
        · exact Or.inr ⟨r, hr, h⟩
      · rintro (h | ⟨r, hr, h⟩)
        · exact ⟨q, by simp, h⟩
        · exact ⟨r, List.mem_cons_of_mem _ hr, h⟩
    simp only [List.foldl_cons, ih, hex]
    by_cases h : c q = true
    · simp only [h, if_true, mem_pinsert]; tauto
    · simp only [h, Bool.false_eq_true, if_false]; tauto

theorem field_iff {i : Info} {c : Char} {a : Str} (ha : a ≠ []) (h1 : OneField i c) :
    i.lastField c = a ↔ c :: a ∈ i.md := by
  have hmem : ∀ x, x ∈ i.fields c ↔ c :: x ∈ i.md := by
    intro x
    simp only [Info.fields, List.mem_filterMap, mem_sofList]
    constructor
    · rintro ⟨l, hl, hx⟩
      split at hx
      · rename_i hh
        cases l with
        | nil => simp at hh
        | cons d r => simp at hh hx; subst hh; subst hx; exact hl
      · simp at hx
    · intro h; exact ⟨_, h, by simp⟩
  constructor
  · intro h
    by_cases hne : i.fields c = []
    · simp [Info.lastField, hne] at h; exact absurd h ha
    · simp only [Info.lastField, List.getLast?_eq_some_getLast hne, Option.getD_some] at h
      rw [← hmem, ← h]; exact List.getLast_mem hne
  · intro h
    have hin := (hmem a).2 h
    have hne : i.fields c ≠ [] := List.ne_nil_of_mem hin
    simp only [Info.lastField, List.getLast?_eq_some_getLast hne, Option.getD_some]
    exact h1 _ _ ((hmem _).1 (List.getLast_mem hne)) h

/-- **C47** (one argument). Let each record have at most one collection and one group line. What `cards remove a` selects, when it
does not refuse the argument: the packages of collection or group `a`; if there are none, the packages of set `a`; and the
package `a` is a name or alias of. -/
theorem C47_one_argument_partial (s : Sys) (a : Str) (sel al : List (Str × Str)) (ha : a ≠ [])
    (hc : ∀ p ∈ s.disk, OneField p.2 'c' ∧ OneField p.2 'g')
    (h : selectArgs s.disk s.disk [a] [] (loadAlias s.disk) = .ok (sel, al)) (n : Str) (hn : n ≠ []) :
    (∃ c, (n, c) ∈ sel) ↔
      (∃ i, (n, i) ∈ s.disk ∧ ('c' :: a ∈ i.md ∨ 'g' :: a ∈ i.md)) ∨
      ((¬ ∃ m i, (m, i) ∈ s.disk ∧ ('c' :: a ∈ i.md ∨ 'g' :: a ∈ i.md)) ∧ ∃ i, (n, i) ∈ s.disk ∧ 's' :: a ∈ i.md) ∨
      mget (loadAlias s.disk) a = some n := by
  simp only [selectArgs] at h
  cases h1 : selectArg s.disk s.disk [] (loadAlias s.disk) a with
  | error e => rw [h1] at h; simp at h
  | ok r =>
    obtain ⟨acc1, al1⟩ := r
    rw [h1] at h
    simp only [Except.ok.injEq, Prod.mk.injEq] at h
    obtain ⟨rfl, _⟩ := h
    simp only [selectArg] at h1
    split at h1
    · simp at h1
    · split at h1
      · simp at h1
      · simp only [Except.ok.injEq, Prod.mk.injEq] at h1
        obtain ⟨e1, _⟩ := h1
        have hfold := mem_foldl_pinsert (c := fun q => decide (q.2.lastField 'c' = a ∨ q.2.lastField 'g' = a))
          (f := fun q => (q.1, q.2.lastField 'c')) s.disk []
        have hfold2 := mem_foldl_pinsert (c := fun q => (q.2.fields 's').contains a)
          (f := fun q => (q.1, q.2.lastField 'c')) s.disk []
        simp only [decide_eq_true_eq, List.not_mem_nil, false_or] at hfold hfold2
        have hcg : ∀ q ∈ s.disk, (q.2.lastField 'c' = a ∨ q.2.lastField 'g' = a) ↔ ('c' :: a ∈ q.2.md ∨ 'g' :: a ∈ q.2.md) :=
          fun q hq => by rw [field_iff ha (hc q hq).1, field_iff ha (hc q hq).2]
        have hset : ∀ i : Info, (i.fields 's').contains a = true ↔ 's' :: a ∈ i.md := by
          intro i
          simp only [List.contains_iff_mem, Info.fields, List.mem_filterMap, mem_sofList]
          constructor
          · rintro ⟨l, hl, hx⟩
            split at hx
            · rename_i hh
              cases l with
              | nil => simp at hh
              | cons d r => simp at hh hx; subst hh; subst hx; exact hl
            · simp at hx
          · intro h; exact ⟨_, h, by simp⟩
        have hal : ∀ c, (n, c) = ((mget (loadAlias s.disk) a).getD [], getCollection s.disk a) →
            mget (loadAlias s.disk) a = some n := by
          intro c he
          cases hm : mget (loadAlias s.disk) a with
          | none => rw [hm] at he; simp at he; exact absurd he.1 hn
          | some v => rw [hm] at he; simp at he; rw [he.1]
        set F := s.disk.foldl (fun acc p => if p.2.lastField 'c' = a ∨ p.2.lastField 'g' = a then
          pinsert (p.1, p.2.lastField 'c') acc else acc) [] with hF
        by_cases hempty : F.isEmpty = true
        · have hF0 : F = [] := List.isEmpty_iff.1 hempty
          rw [if_pos hempty, hF0] at e1
          have hnone : ¬ ∃ m i, (m, i) ∈ s.disk ∧ ('c' :: a ∈ i.md ∨ 'g' :: a ∈ i.md) := by
            rintro ⟨m, i, hm, hx⟩
            have := (hfold (m, i.lastField 'c')).2 ⟨(m, i), hm, (hcg _ hm).2 hx, rfl⟩
            rw [hF0] at this
            simp at this
          rw [← e1]
          simp only [mem_pinsert]
          constructor
          · rintro ⟨c, he | he⟩
            · exact Or.inr (Or.inr (hal c he))
            · obtain ⟨q, hq, hs, he⟩ := (hfold2 _).1 he
              rw [hset] at hs
              refine Or.inr (Or.inl ⟨hnone, q.2, ?_, hs⟩)
              simp only [Prod.mk.injEq] at he
              rw [he.1]; exact hq
          · rintro (⟨i, hi, hx⟩ | ⟨_, i, hi, hs⟩ | hm)
            · exact absurd ⟨n, i, hi, hx⟩ hnone
            · exact ⟨_, Or.inr ((hfold2 _).2 ⟨(n, i), hi, (hset _).2 hs, rfl⟩)⟩
            · exact ⟨getCollection s.disk a, Or.inl (by rw [hm]; rfl)⟩
        · rw [if_neg hempty] at e1
          have hsome : ∃ m i, (m, i) ∈ s.disk ∧ ('c' :: a ∈ i.md ∨ 'g' :: a ∈ i.md) := by
            cases hFc : F with
            | nil => rw [hFc] at hempty; simp at hempty
            | cons x xs =>
              have : x ∈ F := by rw [hFc]; simp
              obtain ⟨q, hq, hx, _⟩ := (hfold x).1 this
              exact ⟨q.1, q.2, hq, (hcg q hq).1 hx⟩
          rw [← e1]
          simp only [mem_pinsert]
          constructor
          · rintro ⟨c, he | he⟩
            · exact Or.inr (Or.inr (hal c he))
            · obtain ⟨q, hq, hx, he⟩ := (hfold _).1 he
              simp only [Prod.mk.injEq] at he
              exact Or.inl ⟨q.2, by rw [he.1]; exact hq, (hcg q hq).1 hx⟩
          · rintro (⟨i, hi, hx⟩ | ⟨hno, _⟩ | hm)
            · exact ⟨_, Or.inr ((hfold _).2 ⟨(n, i), hi, (hcg _ hi).2 hx, rfl⟩)⟩
            · exact absurd hsome hno
            · exact ⟨getCollection s.disk a, Or.inl (by rw [hm]; rfl)⟩

example : ∃ sel al, selectArgs rSys.disk rSys.disk ["old".toList] [] (loadAlias rSys.disk) = .ok (sel, al) ∧
    ∀ p ∈ rSys.disk, OneField p.2 'c' ∧ OneField p.2 'g' := by
  refine ⟨_, _, rfl, ?_⟩
  intro p hp
  simp only [rSys, List.mem_cons, List.not_mem_nil, or_false] at hp
  rcases hp with rfl | rfl | rfl | rfl | rfl <;> constructor <;> intro x y hx <;> exact absurd hx (by simp [rPkg])

/-- **C47 fails** for a second set: once anything was selected, later arguments are not looked up among the sets. The command
reports success although no package of the second set was removed. -/
theorem C47_second_set_counterexample : ∃ (s s' : Sys), WF s.disk ∧
    cardsRemove (rEnv []) ["one".toList, "two".toList] s = some (s', none) ∧
    (∃ i, ("q".toList, i) ∈ s'.disk ∧ 's' :: "two".toList ∈ i.md) ∧ ¬ Installed s'.disk "p".toList := by
  refine ⟨{ fs := [], disk := [rPkg "p" ["sone"], rPkg "q" ["stwo"]] }, _, ⟨by decide, ?_⟩, rfl, ?_, ?_⟩
  · intro p hp
    simp only [List.mem_cons, List.not_mem_nil, or_false] at hp
    rcases hp with rfl | rfl <;> decide
  · exact ⟨(rPkg "q" ["stwo"]).2, by decide, by decide⟩
  · rw [← keys_iff_installed]; decide

/-- **C47 fails** for the empty argument: it equals the (missing) group of ordinary packages, so `cards remove ""` removes all of them. -/
theorem C47_empty_argument_counterexample : ∃ (s s' : Sys), WF s.disk ∧ Installed s.disk "p".toList ∧ Installed s.disk "q".toList ∧
    cardsRemove (rEnv []) [[]] s = some (s', none) ∧ s'.disk = [] := by
  refine ⟨{ fs := [], disk := [rPkg "p" ["cextra"], rPkg "q" ["cextra"]] }, _, ⟨by decide, ?_⟩, ?_, ?_, rfl, by decide⟩
  · intro p hp
    simp only [List.mem_cons, List.not_mem_nil, or_false] at hp
    rcases hp with rfl | rfl <;> decide
  · rw [← keys_iff_installed]; decide
  · rw [← keys_iff_installed]; decide

end Cards.Props
