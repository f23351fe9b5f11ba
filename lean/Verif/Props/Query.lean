import Verif.Model.Query
import Verif.Props.Alias
import Verif.Props.Repo
/-!
# C54: what the query commands tell about the installed packages
-/
namespace Cards.Props
open Cards Cards.Spec

theorem mem_fields {i : Info} {c : Char} {x : Str} : x ∈ i.fields c ↔ c :: x ∈ i.md := by
  simp only [Info.fields, List.mem_filterMap, mem_sofList]
  constructor
  · rintro ⟨l, hl, hx⟩
    split at hx
    · rename_i hh
      cases l with
      | nil => simp at hh
      | cons d r => simp at hh hx; subst hh; subst hx; exact hl
    · simp at hx
  · intro h; exact ⟨_, h, by simp⟩

theorem fields_last {i : Info} {c : Char} {v : Str} (h1 : OneField i c) (h : c :: v ∈ i.md) : (i.fields c).getLast? = some v := by
  have hin := mem_fields.mpr h
  have hne : i.fields c ≠ [] := List.ne_nil_of_mem hin
  rw [List.getLast?_eq_some_getLast hne, Option.some.injEq]
  exact h1 _ _ (mem_fields.mp (List.getLast_mem hne)) h

theorem lastField_eq {i : Info} {c : Char} {v : Str} (h1 : OneField i c) (h : c :: v ∈ i.md) : i.lastField c = v := by
  rw [Info.lastField, fields_last h1 h]; rfl

theorem atoi_dec (n : Nat) : atoi (dec n) = (n : Int) := by
  unfold atoi; rw [numText10_dec]; rfl

/-- The line of the lists for package `n` of collection `c`, version `v`, release `r`. -/
def plainLine (c n v : Str) (r : Nat) : Str :=
  "(".toList ++ c ++ ") ".toList ++ n ++ " ".toList ++ v ++ "-".toList ++ dec r

/-- The line of `pkginfo -i`: the same after the mark, automatic or by hand. -/
def listLine (auto : Bool) (c n v : Str) (r : Nat) : Str := (if auto then "AUTO: " else " MAN: ").toList ++ plainLine c n v r

theorem shortLine_eq (junk : Nat × Nat) (p : Str × Info) (h1 : OneField p.2 'V' ∧ OneField p.2 'r' ∧ OneField p.2 'c') (c v : Str) (r : Nat) (hr : r < 65536)
    (hc : 'c' :: c ∈ p.2.md) (hv : 'V' :: v ∈ p.2.md) (hrel : 'r' :: dec r ∈ p.2.md) :
    shortLine (p.1, p.2.inst junk) = plainLine c p.1 v r := by
  obtain ⟨a1, a2, a3⟩ := h1
  have e1 : (p.2.inst junk).version = v := lastField_eq a1 hv
  have e2 : (p.2.inst junk).collection = c := lastField_eq a3 hc
  have e3 : (p.2.inst junk).release = r := by
    show (match (p.2.fields 'r').getLast? with | some s => (atoi s % 65536).toNat | none => 1) = r
    rw [fields_last a2 hrel]
    simp only [atoi_dec]
    omega
  unfold shortLine plainLine
  simp only [e1, e2, e3]
  simp

theorem inst_dependency (junk : Nat × Nat) (i : Info) : (i.inst junk).dependency = decide ("d1".toList ∈ i.md) := by
  show i.md.contains d1 = _
  rw [List.contains_eq_mem]; rfl

/-- **C54.** `pkginfo -i` prints one line for each installed package, in the order of names, with the collection, version and release its record states and
the mark of automatically installed packages. -/
theorem C54_installed (junk : Nat × Nat) (db : Db) (h1 : ∀ p ∈ db, OneField p.2 'V' ∧ OneField p.2 'r' ∧ OneField p.2 'c') :
    List.Forall₂ (fun p line => ∀ c v r, r < 65536 → 'c' :: c ∈ p.2.md → 'V' :: v ∈ p.2.md → 'r' :: dec r ∈ p.2.md →
      line = listLine (decide ("d1".toList ∈ p.2.md)) c p.1 v r) db (pkginfoInstalled junk db) := by
  unfold pkginfoInstalled instDb
  induction db with
  | nil => exact List.Forall₂.nil
  | cons p db ih =>
    refine List.Forall₂.cons ?_ (ih (fun q hq => h1 q (List.mem_cons_of_mem _ hq)))
    intro c v r hr hc hv hrel
    unfold installedLine listLine
    simp only [inst_dependency, shortLine_eq junk p (h1 p (by simp)) c v r hr hc hv hrel]
    cases decide ("d1".toList ∈ p.2.md) <;> simp

/-- **C54.** `cards list` prints one line, without a mark, for each package that was installed by hand, in the order of names, and nothing for the others. -/
theorem C54_by_hand (junk : Nat × Nat) (db : Db) (h1 : ∀ p ∈ db, OneField p.2 'V' ∧ OneField p.2 'r' ∧ OneField p.2 'c') :
    List.Forall₂ (fun p line => ∀ c v r, r < 65536 → 'c' :: c ∈ p.2.md → 'V' :: v ∈ p.2.md → 'r' :: dec r ∈ p.2.md →
      line = plainLine c p.1 v r) (db.filter (fun p => decide ("d1".toList ∉ p.2.md))) (cardsList junk db) := by
  unfold cardsList instDb
  induction db with
  | nil => exact List.Forall₂.nil
  | cons p db ih =>
    have h2 := ih (fun q hq => h1 q (List.mem_cons_of_mem _ hq))
    by_cases hd : "d1".toList ∈ p.2.md
    · rw [List.filter_cons_of_neg (by rw [decide_eq_true_eq]; exact fun h => h hd), List.map_cons, List.filter_cons_of_neg (by simp only [inst_dependency, decide_eq_true hd]; decide)]
      exact h2
    · rw [List.filter_cons_of_pos (by rw [decide_eq_true_eq]; exact hd), List.map_cons, List.filter_cons_of_pos (by simp only [inst_dependency, decide_eq_false hd]; decide), List.map_cons]
      exact List.Forall₂.cons (fun c v r hr hc hv hrel => shortLine_eq junk p (h1 p (by simp)) c v r hr hc hv hrel) h2

/-- **C54.** `pkginfo -n` prints the number of the lines of `pkginfo -i`. -/
theorem C54_number (junk : Nat × Nat) (db : Db) : pkginfoNumber db = dec (pkginfoInstalled junk db).length := by
  unfold pkginfoNumber pkginfoInstalled instDb
  rw [List.length_map, List.length_map]

theorem mget_loadAlias (db : Db) (hw : WF db) (n p : Str) :
    mget (loadAlias db) n = some p ↔ Called db p n ∧ ∀ q, Called db q n → q ≤ p :=
  C42_resolves ⟨[], db⟩ false hw n p

theorem mget_loadAlias_none (db : Db) (n : Str) : mget (loadAlias db) n = none ↔ ∀ p, ¬ Called db p n := by
  have := C42_reported ⟨[], db⟩ false n
  unfold St.nameExists at this
  have h2 : (load ⟨[], db⟩ false).alias = loadAlias db := rfl
  rw [h2] at this
  rw [← Option.not_isSome_iff_eq_none, this]
  simp

/-- **C54.** `cards files NAME` (`pkginfo -l`) prints the file list of the package NAME resolves to (as name or alias; the last package in the order of names),
and refuses exactly the names no package has. -/
theorem C54_files (db : Db) (hw : WF db) (arg : Str) :
    (∀ fs, pkginfoList db arg = some fs ↔ ∃ p i, (p, i) ∈ db ∧ fs = i.files ∧ Called db p arg ∧ ∀ q, Called db q arg → q ≤ p) ∧
    (pkginfoList db arg = none ↔ ∀ p, ¬ Called db p arg) := by
  have hm := wf_msorted hw
  constructor
  · intro fs
    unfold pkginfoList
    constructor
    · intro h
      split at h
      · simp at h
      · rename_i p hp
        have hc := (mget_loadAlias db hw arg p).mp hp
        obtain ⟨i, hi, _⟩ := hc.1
        rw [(mget_iff_mem hm).mpr hi] at h
        simp only [Option.some.injEq] at h
        exact ⟨p, i, hi, h.symm, hc⟩
    · rintro ⟨p, i, hi, rfl, hc⟩
      rw [(mget_loadAlias db hw arg p).mpr hc]
      simp only
      rw [(mget_iff_mem hm).mpr hi]
  · rw [← mget_loadAlias_none]
    unfold pkginfoList
    cases h : mget (loadAlias db) arg with
    | none => simp
    | some p =>
      simp only [reduceCtorEq, iff_false]
      cases mget db p <;> simp

/-- **C54** (for the name of an installed package that is no other package's alias): exactly the recorded file list. -/
theorem C54_files_partial (db : Db) (hw : WF db) (n : Str) (i : Info) (hi : (n, i) ∈ db) (ha : ∀ q j, (q, j) ∈ db → q ≠ n → ¬ HasAlias j n) :
    pkginfoList db n = some i.files := by
  rw [(C54_files db hw n).1]
  refine ⟨n, i, hi, rfl, ⟨i, hi, Or.inl rfl⟩, ?_⟩
  rintro q ⟨j, hj, rfl | hal⟩
  · exact List.le_refl _
  · by_cases hq : q = n
    · rw [hq]; exact List.le_refl _
    · exact absurd hal (ha q j hj hq)

/-- **C54.** A pattern that is no regular expression is refused: no list, not an empty one. -/
theorem C54_bad_pattern (rx : Str → Option (Str → Bool)) (db : Db) (pat : Str) (h : rx pat = none) : pkginfoOwner rx db pat = none := by
  unfold pkginfoOwner
  rw [h]

/-- **C54.** `cards query PATTERN` (`pkginfo -o`): a row for each installed package and each file it lists whose path matches, none else and none twice, in the
order of packages and files; for any regular expression engine. -/
theorem C54_owner (rx : Str → Option (Str → Bool)) (db : Db) (hw : WF db) (pat : Str) (m : Str → Bool) (hm : rx pat = some m) :
    ∃ rows, pkginfoOwner rx db pat = some rows ∧
      (∀ n f, (∃ c, (⟨c, n, f⟩ : OwnerRow) ∈ rows) ↔ Owns db n f ∧ m ("/".toList ++ f) = true) ∧
      (∀ r ∈ rows, ∀ i c, (r.name, i) ∈ db → OneField i 'c' → 'c' :: c ∈ i.md → r.collection = c) ∧
      rows.Pairwise (fun a b => a.name < b.name ∨ (a.name = b.name ∧ a.file < b.file)) := by
  refine ⟨db.flatMap (ownerRows m), by unfold pkginfoOwner; rw [hm], ?_, ?_, ?_⟩
  · intro n f
    unfold Owns
    simp only [List.mem_flatMap, ownerRows, List.mem_map, List.mem_filter, OwnerRow.mk.injEq]
    constructor
    · rintro ⟨c, ⟨n', i⟩, hp, f', ⟨hf, hmm⟩, -, rfl, rfl⟩
      exact ⟨⟨i, hp, hf⟩, hmm⟩
    · rintro ⟨⟨i, hp, hf⟩, hmm⟩
      exact ⟨_, (n, i), hp, f, ⟨hf, hmm⟩, rfl, rfl, rfl⟩
  · intro r hr i c hi h1 hc
    simp only [List.mem_flatMap, ownerRows, List.mem_map, List.mem_filter] at hr
    obtain ⟨⟨n', j⟩, hp, f', -, rfl⟩ := hr
    have e1 := (mget_iff_mem (wf_msorted hw)).mpr hi
    have e2 := (mget_iff_mem (wf_msorted hw)).mpr hp
    simp only at e1
    rw [e2] at e1
    simp only [Option.some.injEq] at e1
    subst e1
    exact lastField_eq h1 hc
  · have hsorted : db.Pairwise (fun a b => a.1 < b.1) := by
      have := wf_msorted hw
      unfold MSorted Sorted keys at this
      exact List.pairwise_map.mp this
    have hfiles := hw.2
    clear hm hw
    induction db with
    | nil => exact List.Pairwise.nil
    | cons p db ih =>
      rw [List.flatMap_cons, List.pairwise_append]
      refine ⟨?_, ih (List.pairwise_cons.mp hsorted).2 (fun q hq => hfiles q (List.mem_cons_of_mem _ hq)), ?_⟩
      · unfold ownerRows
        rw [List.pairwise_map]
        have hs : p.2.files.Pairwise (· < ·) := hfiles p (by simp)
        refine (hs.filter _).imp ?_
        intro a b hab
        exact Or.inr ⟨rfl, hab⟩
      · intro a ha b hb
        simp only [List.mem_flatMap, ownerRows, List.mem_map, List.mem_filter] at ha hb
        obtain ⟨fa, -, rfl⟩ := ha
        obtain ⟨q, hq, fb, -, rfl⟩ := hb
        exact Or.inl ((List.pairwise_cons.mp hsorted).1 q hq)

/-- **C54** (for the name of an installed package): `pkginfo -b` prints its build date. -/
theorem C54_build_partial (junk : Nat × Nat) (db : Db) (hw : WF db) (n : Str) (i : Info) (hi : (n, i) ∈ db) (t : Nat) (h0 : 0 < t) (ht : t < 2 ^ 63)
    (h1 : OneField i 'B') (hb : 'B' :: dec t ∈ i.md) : pkginfoBuild junk db n = dec t := by
  unfold pkginfoBuild
  cases h : mget (loadAlias db) n with
  | none => exact absurd ⟨i, hi, Or.inl rfl⟩ ((mget_loadAlias_none db n).mp h n)
  | some p =>
    simp only
    rw [(mget_iff_mem (wf_msorted hw)).mpr hi]
    simp only
    have : (i.inst junk).build = t := by
      show (match (i.fields 'B').getLast? with | some s => strtoul0 s | none => junk.1) = t
      rw [fields_last h1 hb]
      exact strtoul0_dec t h0 (by omega)
    rw [this, showTime, if_pos ht]

/-- **C54.** It prints 0 for names no package has. -/
theorem C54_build_unknown (junk : Nat × Nat) (db : Db) (n : Str) (h : ∀ p, ¬ Called db p n) : pkginfoBuild junk db n = "0".toList := by
  unfold pkginfoBuild
  rw [(mget_loadAlias_none db n).mpr h]

/-- The names of the dependencies, in the order of the set. -/
theorem mem_depPairs {i : Info} {d : Str × Nat} : d ∈ i.depPairs ↔ ∃ l ∈ i.md, l.head? = some 'R' ∧ parseDep l = some d := by
  unfold Info.depPairs
  have : ∀ (ls : List Str) (acc : List (Str × Nat)),
      d ∈ ls.foldl depStep acc ↔ d ∈ acc ∨ ∃ l ∈ ls, parseDep l = some d := by
    intro ls
    induction ls with
    | nil => simp
    | cons l ls ih =>
      intro acc
      rw [List.foldl_cons, ih, depStep]
      cases h : parseDep l with
      | none => simp [h]
      | some e =>
        simp only [mem_dinsert, List.mem_cons, exists_eq_or_imp, h, Option.some.injEq]
        constructor
        · rintro ((rfl | h) | h)
          · exact Or.inr (Or.inl rfl)
          · exact Or.inl h
          · exact Or.inr (Or.inr h)
        · rintro (h | rfl | h)
          · exact Or.inl (Or.inr h)
          · exact Or.inl (Or.inl rfl)
          · exact Or.inr h
  rw [this]
  simp [and_assoc]

/-- **C54** (for the name of an installed package that is no other package's alias): `cards info` tells its version, release and collection, whether it was
installed by hand, and exactly its dependencies. -/
theorem C54_details_partial (junkDep : Bool) (junk : Nat × Nat) (db : Db) (hw : WF db) (n : Str) (i : Info) (hi : (n, i) ∈ db)
    (ha : ∀ q j, (q, j) ∈ db → q ≠ n → ¬ HasAlias j n) :
    ∃ d, pkginfoDetails junkDep junk db n = some d ∧ d.name = n ∧ (d.byHand = true ↔ ByHand db n) ∧
      (∀ v, OneField i 'V' → 'V' :: v ∈ i.md → d.version = v) ∧ (∀ v, OneField i 'c' → 'c' :: v ∈ i.md → d.collection = v) ∧
      (∀ r, r < 65536 → OneField i 'r' → 'r' :: dec r ∈ i.md → d.release = r) ∧
      (∀ m, m ∈ d.deps ↔ ∃ l ∈ i.md, l.head? = some 'R' ∧ ∃ t, parseDep l = some (m, t)) := by
  have hm := wf_msorted hw
  have hg := (mget_iff_mem hm).mpr hi
  have hal : mget (loadAlias db) n = some n := by
    rw [mget_loadAlias db hw]
    refine ⟨⟨i, hi, Or.inl rfl⟩, ?_⟩
    rintro q ⟨j, hj, rfl | hal⟩
    · exact List.le_refl _
    · by_cases hq : q = n
      · rw [hq]; exact List.le_refl _
      · exact absurd hal (ha q j hj hq)
  have he : pkginfoDetails junkDep junk db n = some (Details.mk n (i.inst junk).version (i.inst junk).release
      (i.inst junk).collection (!i.dependency) (if i.depPairs = [] then [] else i.depPairs.map (·.1))) := by
    unfold pkginfoDetails; simp only [hal, hg]
  refine ⟨_, he, rfl, ?_, ?_, ?_, ?_, ?_⟩
  · simp only [Bool.not_eq_true', ByHand]
    rw [show i.dependency = decide (d1 ∈ i.md) from List.contains_eq_mem _ _, decide_eq_false_iff_not]
    constructor
    · intro h; exact ⟨i, hi, h⟩
    · rintro ⟨j, hj, h⟩
      rw [(mget_iff_mem hm).mpr hj] at hg
      simp only [Option.some.injEq] at hg
      subst hg; exact h
  · intro v h1 hv; exact lastField_eq h1 hv
  · intro v h1 hv; exact lastField_eq h1 hv
  · intro r hr h1 hv
    show (match (i.fields 'r').getLast? with | some s => (atoi s % 65536).toNat | none => 1) = r
    rw [fields_last h1 hv]
    simp only [atoi_dec]
    omega
  · intro m
    simp only
    have : (if i.depPairs = [] then [] else i.depPairs.map (·.1)) = i.depPairs.map (·.1) := by
      split
      · rename_i h; rw [h]; rfl
      · rfl
    rw [this, List.mem_map]
    constructor
    · rintro ⟨⟨m', t⟩, hd, rfl⟩
      obtain ⟨l, hl, h1, h2⟩ := mem_depPairs.mp hd
      exact ⟨l, hl, h1, t, h2⟩
    · rintro ⟨l, hl, h1, t, h2⟩
      exact ⟨(m, t), mem_depPairs.mpr ⟨l, hl, h1, h2⟩, rfl⟩

/-- A database in which the package `vim` also answers to `edit`, and `zed` to `vim`. -/
def qDb : Db :=
  [("vim".toList, { md := ["Aedit".toList, "B1700000000".toList, "V9".toList, "cbase".toList, "d1".toList, "r2".toList], files := ["usr/bin/vim".toList] }),
   ("zed".toList, { md := ["Avim".toList, "B1700000001".toList, "Rvim1700000000".toList, "V1".toList, "ccli".toList, "r1".toList], files := ["usr/bin/zed".toList] })]

theorem qDb_wf : WF qDb := by
  refine ⟨by decide, ?_⟩
  intro p hp
  simp only [qDb, List.mem_cons, List.not_mem_nil, or_false] at hp
  rcases hp with rfl | rfl <;> decide

/-- Both packages, their lines, and who owns something in `/usr/bin`. -/
example : pkginfoInstalled (0, 0) qDb = ["AUTO: (base) vim 9-2".toList, " MAN: (cli) zed 1-1".toList] ∧
    cardsList (0, 0) qDb = ["(cli) zed 1-1".toList] ∧
    pkginfoList qDb "zed".toList = some ["usr/bin/zed".toList] ∧
    pkginfoOwner (fun p => some (fun s => p.isPrefixOf s)) qDb "/usr/bin/z".toList = some [⟨"cli".toList, "zed".toList, "usr/bin/zed".toList⟩] ∧
    pkginfoBuild (0, 0) qDb "zed".toList = "1700000001".toList ∧
    (pkginfoDetails true (0, 0) qDb "zed".toList).map (fun d => (d.byHand, d.deps)) = some (true, ["vim".toList]) := by decide +kernel

/-- **C54 fails** for names that are aliases. Package `vim` is installed, but `cards files vim` lists the files of `zed`, which has the alias `vim`. -/
theorem C54_alias_hides_counterexample : WF qDb ∧ Owns qDb "vim".toList "usr/bin/vim".toList ∧
    pkginfoList qDb "vim".toList = some ["usr/bin/zed".toList] := by
  exact ⟨qDb_wf, ⟨_, List.mem_cons_self .., by decide⟩, by decide +kernel⟩

/-- **C54 fails** for names that are aliases. `pkginfo -b edit` prints whatever number the memory of the new record holds, and `cards info edit` tells any mark and
no dependencies. -/
theorem C54_alias_junk_counterexample (junk : Nat × Nat) (junkDep : Bool) (h : junk.1 < 2 ^ 63) :
    pkginfoBuild junk qDb "edit".toList = dec junk.1 ∧ (pkginfoDetails junkDep junk qDb "edit".toList).map (·.byHand) = some (!junkDep) := by
  have e1 : mget (loadAlias qDb) "edit".toList = some "vim".toList := by decide +kernel
  have e2 : mget qDb "edit".toList = none := by decide +kernel
  constructor
  · unfold pkginfoBuild
    simp only [e1, e2, showTime, if_pos h]
  · unfold pkginfoDetails
    simp only [e1, e2]
    rfl

end Cards.Props
