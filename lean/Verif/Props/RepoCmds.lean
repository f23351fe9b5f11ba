import Verif.Model.RepoCmds
import Verif.Props.Query
import Verif.Props.RepoQuery
import Verif.Props.Strings
/-!
# C55, C56, C57: queries on the repositories
-/
namespace Cards.Props
open Cards Cards.Spec

theorem has_iff {s pat : Str} : Str.has s pat = true ↔ pat <:+: s := by
  unfold Str.has
  have := cutFirst_none (pat := pat) (s := s)
  cases h : cutFirst pat s with
  | none => simp [this.mp h]
  | some x =>
    rw [h] at this
    simp only [reduceCtorEq, false_iff, not_not] at this
    simp [this]

/-! ## C55: the file lists of the repositories -/

/-- The package file is one of package `n`: its name is `n.cards-…`. -/
def FRec.Of (r : FRec) (n : Str) : Prop := ∃ rest, r.file = n ++ ".cards-".toList ++ rest

/-- A package file as pkgmk and `cards repo` make it: the file name has no `@`, the names inside are not empty and do not begin with `@`. -/
structure FRecOk (r : FRec) : Prop where
  noAt : '@' ∉ r.file
  files : ∀ f ∈ r.files, f ≠ [] ∧ f.head? ≠ some '@'

theorem head_has {r : FRec} (hr : FRecOk r) (n : Str) : Str.has ('@' :: r.file) ('@' :: n ++ ".cards-".toList) = true ↔ FRec.Of r n := by
  rw [has_iff]
  constructor
  · rintro ⟨a, b, h⟩
    cases a with
    | nil =>
      simp only [List.nil_append, List.cons_append, List.cons.injEq, true_and] at h
      exact ⟨b, h.symm⟩
    | cons x a =>
      simp only [List.cons_append, List.cons.injEq] at h
      exact absurd (h.2 ▸ by simp) hr.noAt
  · rintro ⟨rest, h⟩
    exact ⟨[], rest, by rw [h]; simp⟩

theorem scan_files (pat : Str) (fs ls : List Str) (h : ∀ f ∈ fs, f ≠ [] ∧ f.head? ≠ some '@') :
    filesScan pat true (fs ++ [] :: ls) = (fs, true) := by
  induction fs with
  | nil => simp [filesScan]
  | cons f fs ih =>
    have h1 := h f (by simp)
    have h2 := ih (fun g hg => h g (List.mem_cons_of_mem _ hg))
    simp only [List.cons_append]
    rw [filesScan.eq_def]
    simp [h1.1, h1.2, h2]

theorem scan_skip (pat : Str) (fs ls : List Str) (h : ∀ f ∈ fs, f.head? ≠ some '@') :
    filesScan pat false (fs ++ ls) = filesScan pat false ls := by
  induction fs with
  | nil => rfl
  | cons f fs ih =>
    have h1 := h f (by simp)
    have h2 := ih (fun g hg => h g (List.mem_cons_of_mem _ hg))
    simp only [List.cons_append]
    rw [filesScan.eq_def]
    simp [h1, h2]

theorem scan_yes {r : FRec} (hr : FRecOk r) {n : Str} (h : FRec.Of r n) (ls : List Str) :
    filesScan ('@' :: n ++ ".cards-".toList) false (r.lines ++ ls) = (r.files, true) := by
  unfold FRec.lines
  simp only [List.cons_append, List.append_assoc, List.nil_append]
  rw [filesScan.eq_def]
  simp only [List.head?_cons, true_and]
  rw [if_pos (show Str.has ('@' :: r.file) ('@' :: (n ++ ".cards-".toList)) = true from (head_has hr n).mpr h)]
  exact scan_files _ _ _ hr.files

theorem scan_no {r : FRec} (hr : FRecOk r) {n : Str} (h : ¬ FRec.Of r n) (ls : List Str) :
    filesScan ('@' :: n ++ ".cards-".toList) false (r.lines ++ ls) = filesScan ('@' :: n ++ ".cards-".toList) false ls := by
  unfold FRec.lines
  simp only [List.cons_append, List.append_assoc, List.nil_append]
  rw [filesScan.eq_def]
  simp only [List.head?_cons, true_and]
  rw [if_neg (show ¬ Str.has ('@' :: r.file) ('@' :: (n ++ ".cards-".toList)) = true from fun hc => h ((head_has hr n).mp hc))]
  simp only [Bool.false_eq_true, if_false]
  have := scan_skip ('@' :: n ++ ".cards-".toList) (r.files ++ [[]]) ls (by
    intro f hf
    rcases List.mem_append.mp hf with h | h
    · exact (hr.files f h).2
    · rw [List.mem_singleton] at h; subst h; simp)
  simpa using this

theorem scan_coll (n : Str) (rs : List FRec) (hr : ∀ r ∈ rs, FRecOk r) :
    (∀ pre r post, rs = pre ++ r :: post → FRec.Of r n → (∀ q ∈ pre, ¬ FRec.Of q n) →
      filesScan ('@' :: n ++ ".cards-".toList) false (writeFiles rs) = (r.files, true)) ∧
    ((∀ r ∈ rs, ¬ FRec.Of r n) → filesScan ('@' :: n ++ ".cards-".toList) false (writeFiles rs) = ([], false)) := by
  induction rs with
  | nil => exact ⟨by simp, fun _ => by simp [writeFiles, filesScan]⟩
  | cons x rs ih =>
    have ih' := ih (fun r h => hr r (List.mem_cons_of_mem _ h))
    have hw : writeFiles (x :: rs) = x.lines ++ writeFiles rs := by simp [writeFiles]
    constructor
    · intro pre r post he hof hpre
      cases pre with
      | nil =>
        simp only [List.nil_append, List.cons.injEq] at he
        obtain ⟨rfl, rfl⟩ := he
        rw [hw, scan_yes (hr x (by simp)) hof]
      | cons y pre =>
        simp only [List.cons_append, List.cons.injEq] at he
        obtain ⟨rfl, rfl⟩ := he
        rw [hw, scan_no (hr x (by simp)) (hpre x (by simp))]
        exact ih'.1 pre r post rfl hof (fun q hq => hpre q (List.mem_cons_of_mem _ hq))
    · intro h
      rw [hw, scan_no (hr x (by simp)) (h x (by simp))]
      exact ih'.2 (fun r h' => h r (List.mem_cons_of_mem _ h'))

/-- **C55.** `cards files --binaries NAME` prints exactly the file list of the first package file of NAME in the collections, in their configured order, and
nothing when there is none. -/
theorem C55_files (n : Str) (css : List (List FRec)) (hr : ∀ rs ∈ css, ∀ r ∈ rs, FRecOk r) :
    (∀ pre r post, css.flatten = pre ++ r :: post → FRec.Of r n → (∀ q ∈ pre, ¬ FRec.Of q n) → filesCmd n (css.map writeFiles) = r.files) ∧
    ((∀ r ∈ css.flatten, ¬ FRec.Of r n) → filesCmd n (css.map writeFiles) = []) := by
  induction css with
  | nil => exact ⟨by simp, fun _ => rfl⟩
  | cons rs css ih =>
    have ih' := ih (fun x hx => hr x (List.mem_cons_of_mem _ hx))
    have hs := scan_coll n rs (hr rs (by simp))
    rw [List.flatten_cons]
    by_cases hex : ∃ r ∈ rs, FRec.Of r n
    · -- the first one is in this collection
      have hfirst : ∀ l : List FRec, (∃ r ∈ l, FRec.Of r n) → ∃ pre r post, l = pre ++ r :: post ∧ FRec.Of r n ∧ ∀ q ∈ pre, ¬ FRec.Of q n := by
        intro l
        induction l with
        | nil => simp
        | cons y l ihl =>
          rintro ⟨r, hrl, hof⟩
          by_cases hy : FRec.Of y n
          · exact ⟨[], y, l, rfl, hy, by simp⟩
          · rcases List.mem_cons.mp hrl with rfl | h
            · exact absurd hof hy
            · obtain ⟨pre, r', post, e, h1, h2⟩ := ihl ⟨r, h, hof⟩
              refine ⟨y :: pre, r', post, by rw [e]; rfl, h1, ?_⟩
              intro q hq
              rcases List.mem_cons.mp hq with rfl | h
              · exact hy
              · exact h2 q h
      obtain ⟨pre0, r0, post0, e0, h0, hp0⟩ := hfirst rs hex
      have hcmd : filesCmd n ((rs :: css).map writeFiles) = r0.files := by
        simp only [List.map_cons, filesCmd]
        rw [hs.1 pre0 r0 post0 e0 h0 hp0]
        rfl
      constructor
      · intro pre r post he hof hpre
        rw [hcmd]
        -- the first occurrence is unique
        have huniq : ∀ (a b : List FRec) (x y : FRec) (c d : List FRec), a ++ x :: c = b ++ y :: d → FRec.Of x n → FRec.Of y n →
            (∀ q ∈ a, ¬ FRec.Of q n) → (∀ q ∈ b, ¬ FRec.Of q n) → x = y := by
          intro a
          induction a with
          | nil =>
            intro b x y c d he hx hy _ hb
            cases b with
            | nil => simp only [List.nil_append, List.cons.injEq] at he; exact he.1
            | cons z b =>
              simp only [List.nil_append, List.cons_append, List.cons.injEq] at he
              exact absurd (he.1 ▸ hx) (hb z (by simp))
          | cons z a iha =>
            intro b x y c d he hx hy ha hb
            cases b with
            | nil =>
              simp only [List.nil_append, List.cons_append, List.cons.injEq] at he
              exact absurd (he.1.symm ▸ hy) (ha z (by simp))
            | cons w b =>
              simp only [List.cons_append, List.cons.injEq] at he
              exact iha b x y c d he.2 hx hy (fun q hq => ha q (List.mem_cons_of_mem _ hq)) (fun q hq => hb q (List.mem_cons_of_mem _ hq))
        rw [e0, List.append_assoc, List.cons_append] at he
        rw [huniq pre0 pre r0 r _ post he h0 hof hp0 hpre]
      · intro h
        obtain ⟨r, hrl, hof⟩ := hex
        exact absurd hof (h r (List.mem_append_left _ hrl))
    · have hno : ∀ r ∈ rs, ¬ FRec.Of r n := fun r h1 h2 => hex ⟨r, h1, h2⟩
      have hcmd : filesCmd n ((rs :: css).map writeFiles) = filesCmd n (css.map writeFiles) := by
        simp only [List.map_cons, filesCmd]
        rw [hs.2 hno]
        rfl
      rw [hcmd]
      constructor
      · intro pre r post he hof hpre
        rcases List.append_eq_append_iff.mp he with ⟨t, h1, h2⟩ | ⟨t, h1, h2⟩
        · exact ih'.1 t r post h2 hof (fun q hq => hpre q (by rw [h1]; exact List.mem_append_right _ hq))
        · cases t with
          | nil =>
            simp only [List.nil_append] at h2
            exact ih'.1 [] r post h2.symm hof (by simp)
          | cons y t =>
            simp only [List.cons_append, List.cons.injEq] at h2
            refine absurd hof (hno r ?_)
            rw [h1, h2.1]; simp
      · intro h
        exact ih'.2 (fun r h' => h r (List.mem_append_right _ h'))

theorem query_lines (m : Str → Bool) (coll nm : Str) (fs ls : List Str) (h : ∀ f ∈ fs, f.head? ≠ some '@') :
    queryScan m coll nm (fs ++ ls) = (fs.filter (fun f => m ('/' :: f))).map (fun f => ⟨coll, nm, '/' :: f⟩) ++ queryScan m coll nm ls := by
  induction fs with
  | nil => rfl
  | cons f fs ih =>
    have h1 := h f (by simp)
    have h2 := ih (fun g hg => h g (List.mem_cons_of_mem _ hg))
    simp only [List.cons_append]
    rw [queryScan.eq_def]
    simp only [h1, if_false, List.filter_cons]
    split
    · rw [h2]; simp
    · rw [h2]

theorem query_rec (m : Str → Bool) (hm : m ['/'] = false) (coll nm : Str) {r : FRec} (hr : FRecOk r) (ls : List Str) :
    queryScan m coll nm (r.lines ++ ls) =
      (r.files.filter (fun f => m ('/' :: f))).map (fun f => ⟨coll, r.file, '/' :: f⟩) ++ queryScan m coll r.file ls := by
  unfold FRec.lines
  simp only [List.cons_append, List.append_assoc, List.nil_append]
  rw [queryScan.eq_def]
  simp only [List.head?_cons, if_true, List.drop_succ_cons, List.drop_zero]
  rw [query_lines m coll r.file r.files ([] :: ls) (fun f hf => (hr.files f hf).2)]
  congr 1
  rw [queryScan.eq_def]
  simp [hm]

theorem query_coll (m : Str → Bool) (hm : m ['/'] = false) (coll nm : Str) (rs : List FRec) (hr : ∀ r ∈ rs, FRecOk r) :
    queryScan m coll nm (writeFiles rs) = rs.flatMap (fun r => (r.files.filter (fun f => m ('/' :: f))).map (fun f => ⟨coll, r.file, '/' :: f⟩)) := by
  induction rs generalizing nm with
  | nil => rfl
  | cons x rs ih =>
    have hw : writeFiles (x :: rs) = x.lines ++ writeFiles rs := by simp [writeFiles]
    rw [hw, query_rec m hm coll nm (hr x (by simp)), ih _ (fun r h => hr r (List.mem_cons_of_mem _ h)), List.flatMap_cons]

/-- **C55** (for patterns that do not match the path `/` alone): `cards query --binaries PATTERN` prints exactly the collections, package files and paths
in them that match. -/
theorem C55_query_partial (m : Str → Bool) (hm : m "/".toList = false) (cs : List (Str × List FRec)) (hr : ∀ c ∈ cs, ∀ r ∈ c.2, FRecOk r) (row : OwnerRow) :
    row ∈ queryCmd m (cs.map (fun c => (c.1, writeFiles c.2))) ↔
      ∃ c ∈ cs, ∃ r ∈ c.2, ∃ f ∈ r.files, m ("/".toList ++ f) = true ∧ row = ⟨c.1, r.file, "/".toList ++ f⟩ := by
  unfold queryCmd
  simp only [List.mem_flatMap, List.mem_map, exists_exists_and_eq_and]
  constructor
  · rintro ⟨c, hc, h⟩
    rw [query_coll m hm c.1 [] c.2 (hr c hc)] at h
    simp only [List.mem_flatMap, List.mem_map, List.mem_filter] at h
    obtain ⟨r, hrr, f, ⟨hf, hmm⟩, rfl⟩ := h
    exact ⟨c, hc, r, hrr, f, hf, hmm, rfl⟩
  · rintro ⟨c, hc, r, hrr, f, hf, hmm, rfl⟩
    refine ⟨c, hc, ?_⟩
    rw [query_coll m hm c.1 [] c.2 (hr c hc)]
    simp only [List.mem_flatMap, List.mem_map, List.mem_filter]
    exact ⟨r, hrr, f, ⟨hf, hmm⟩, rfl⟩

/-- `zlib` as two collections have it. -/
def fZlib (v : String) (f : String) : FRec := { file := ("zlib.cards-1700000000-x86_64-" ++ v).toList, files := [f.toList] }

theorem fZlib_ok1 : FRecOk (fZlib "1.3-2" "usr/lib/libz.so") := ⟨by decide, by decide⟩
theorem fZlib_ok2 : FRecOk (fZlib "1.4-1" "usr/lib/libz.so.1.4") := ⟨by decide, by decide⟩

example : FRec.Of (fZlib "1.3-2" "usr/lib/libz.so") "zlib".toList ∧
    filesCmd "zlib".toList ([[fZlib "1.3-2" "usr/lib/libz.so"]].map writeFiles) = ["usr/lib/libz.so".toList] ∧
    queryCmd (fun s => Str.has s "libz".toList) [("base".toList, writeFiles [fZlib "1.3-2" "usr/lib/libz.so"])] =
      [⟨"base".toList, "zlib.cards-1700000000-x86_64-1.3-2".toList, "/usr/lib/libz.so".toList⟩] := by
  refine ⟨⟨"1700000000-x86_64-1.3-2".toList, by decide⟩, by decide, by decide⟩

/-- **C55 fails** when two collections have the package: `cards files --binaries zlib` lists the files of the first, while the repository entry that `cards
install zlib` uses is that of the last (C26). -/
theorem C55_first_collection_counterexample :
    filesCmd "zlib".toList ([[fZlib "1.3-2" "usr/lib/libz.so"], [fZlib "1.4-1" "usr/lib/libz.so.1.4"]].map writeFiles) = ["usr/lib/libz.so".toList] ∧
    (parseRepo defaultPkg [
        { dir := "/d".toList, name := "base".toList, origin := [], repo := some ["@zlib.cards-1700000000-x86_64-1.3-2".toList, "Nzlib".toList, "V1.3".toList, []] },
        { dir := "/d".toList, name := "extra".toList, origin := [], repo := some ["@zlib.cards-1700000000-x86_64-1.4-1".toList, "Nzlib".toList, "V1.4".toList, []] }]).bind
      (fun m => (mget m "zlib".toList).map (·.fileName)) = some "zlib.cards-1700000000-x86_64-1.4-1".toList := by
  constructor <;> decide +kernel

/-- **C55 fails** for patterns that match `/`: the empty line behind each package is taken for a file, a row with the path `/` is printed although no package
contains it. -/
theorem C55_blank_line_counterexample : "".toList ∉ (fZlib "1.3-2" "usr/lib/libz.so").files ∧
    (⟨"base".toList, "zlib.cards-1700000000-x86_64-1.3-2".toList, "/".toList⟩ : OwnerRow) ∈
      queryCmd (fun s => s.getLast? = some '/') [("base".toList, writeFiles [fZlib "1.3-2" "usr/lib/libz.so"])] := by
  constructor <;> decide

/-! ### The file sets of the repository -/

theorem cutFirst_some {pat s b a : Str} (h : cutFirst pat s = some (b, a)) : s = b ++ pat ++ a ∧ ∀ b' a', s = b' ++ pat ++ a' → b.length ≤ b'.length := by
  induction s generalizing b a with
  | nil =>
    simp only [cutFirst] at h
    split at h
    · rename_i hp
      simp only [Option.some.injEq, Prod.mk.injEq] at h
      obtain ⟨rfl, rfl⟩ := h
      exact ⟨by simp [hp], by simp⟩
    · simp at h
  | cons c cs ih =>
    simp only [cutFirst] at h
    split at h
    · rename_i hp
      simp only [Option.some.injEq, Prod.mk.injEq] at h
      obtain ⟨rfl, rfl⟩ := h
      refine ⟨?_, by simp⟩
      rw [List.isPrefixOf_iff_prefix] at hp
      obtain ⟨t, ht⟩ := hp
      rw [← ht]; simp
    · rename_i hp
      cases hc : cutFirst pat cs with
      | none => rw [hc] at h; simp at h
      | some x =>
        obtain ⟨b0, a0⟩ := x
        rw [hc] at h
        simp only [Option.some.injEq, Prod.mk.injEq] at h
        obtain ⟨rfl, rfl⟩ := h
        obtain ⟨e, hmin⟩ := ih hc
        refine ⟨by rw [e]; simp, ?_⟩
        intro b' a' he
        cases b' with
        | nil =>
          exfalso; apply hp
          rw [List.isPrefixOf_iff_prefix, he]
          exact ⟨a', by simp⟩
        | cons x b' =>
          simp only [List.cons_append, List.cons.injEq] at he
          have := hmin b' a' he.2
          simpa using this

/-- `.cards-` does not overlap itself. -/
theorem cards_no_border {n r b a : Str} (h : n ++ ".cards-".toList ++ r = b ++ ".cards-".toList ++ a) (hb : b.length < n.length) : ".cards-".toList <:+: n := by
  obtain ⟨t, rfl⟩ : ∃ t, n = b ++ t := by
    rw [List.append_assoc, List.append_assoc] at h
    rcases List.append_eq_append_iff.mp h with ⟨t, h1, h2⟩ | ⟨t, h1, h2⟩
    · rw [h1] at hb; simp at hb
    · exact ⟨t, h1⟩
  simp only [List.append_assoc] at h
  have h := List.append_cancel_left h
  have ht : t ≠ [] := by rintro rfl; simp at hb
  by_cases hl : 7 ≤ t.length
  · have : ".cards-".toList <+: t := by
      have hp : ".cards-".toList <+: t ++ (".cards-".toList ++ r) := ⟨a, h.symm⟩
      exact List.prefix_of_prefix_length_le hp (List.prefix_append _ _) (by simpa using hl)
    exact (this.isInfix).trans (List.infix_append' b t [] |>.trans (by simp))
  · exfalso
    have hk : 0 < t.length := List.length_pos_of_ne_nil ht
    have e1 : (t ++ (".cards-".toList ++ r))[t.length]? = some '.' := by
      rw [List.getElem?_append_right (le_refl _)]; simp
    rw [h, List.getElem?_append_left (by simp; omega)] at e1
    have : t.length = 1 ∨ t.length = 2 ∨ t.length = 3 ∨ t.length = 4 ∨ t.length = 5 ∨ t.length = 6 := by omega
    rcases this with h | h | h | h | h | h <;> rw [h] at e1 <;> exact absurd e1 (by decide)

theorem cut_header (n rest : Str) (h : ¬ ".cards-".toList <:+: n) : cutFirst ".cards-".toList ('@' :: (n ++ ".cards-".toList ++ rest)) = some ('@' :: n, rest) := by
  cases hc : cutFirst ".cards-".toList ('@' :: (n ++ ".cards-".toList ++ rest)) with
  | none =>
    rw [cutFirst_none] at hc
    exact absurd ⟨'@' :: n, rest, by simp⟩ hc
  | some x =>
    obtain ⟨b, a⟩ := x
    obtain ⟨e, hmin⟩ := cutFirst_some hc
    have hlen := hmin ('@' :: n) rest (by simp)
    cases b with
    | nil => simp at e
    | cons y b =>
      simp only [List.cons_append, List.cons.injEq] at e
      obtain ⟨rfl, e⟩ := e
      have : b.length = n.length := by
        by_contra hne
        exact h (cards_no_border e (by simp at hlen; omega))
      have e' : n ++ (".cards-".toList ++ rest) = b ++ (".cards-".toList ++ a) := by simpa using e
      obtain ⟨e1, e2⟩ := List.append_inj e' this.symm
      have e3 := List.append_cancel_left e2
      rw [e1, e3]

theorem pf_files (s : PFiles) (hs : s.found = true) (fs : List Str) (h : ∀ f ∈ fs, f ≠ [] ∧ f.head? ≠ some '@') :
    (fs.foldl PFiles.line s).found = true ∧ (fs.foldl PFiles.line s).name = s.name ∧
    ∀ n f, f ∈ (mget (fs.foldl PFiles.line s).map n).getD [] ↔ f ∈ (mget s.map n).getD [] ∨ (n = s.name ∧ f ∈ fs) := by
  induction fs generalizing s with
  | nil => simp [hs]
  | cons g fs ih =>
    have h1 := h g (by simp)
    have hl : PFiles.line s g = { s with map := mset s.name (sinsert g ((mget s.map s.name).getD [])) s.map } := by
      unfold PFiles.line
      simp [h1.1, h1.2, hs]
    rw [List.foldl_cons, hl]
    obtain ⟨i1, i2, i3⟩ := ih { s with map := mset s.name (sinsert g ((mget s.map s.name).getD [])) s.map } hs (fun f hf => h f (List.mem_cons_of_mem _ hf))
    refine ⟨i1, i2, ?_⟩
    intro n f
    rw [i3, mget_mset]
    by_cases hn : s.name = n
    · subst hn
      simp only [if_true, Option.getD_some, mem_sinsert, List.mem_cons, true_and]
      tauto
    · have : n ≠ s.name := fun e => hn e.symm
      simp [hn, this]

theorem pf_rec (s : PFiles) {r : FRec} (hr : FRecOk r) {n : Str} {rest : Str} (hn : r.file = n ++ ".cards-".toList ++ rest) (hc : ¬ ".cards-".toList <:+: n) :
    ∀ m f, f ∈ (mget (r.lines.foldl PFiles.line s).map m).getD [] ↔ f ∈ (mget s.map m).getD [] ∨ (m = n ∧ f ∈ r.files) := by
  have h0 : PFiles.line s ('@' :: r.file) = { s with name := n, found := true } := by
    unfold PFiles.line
    rw [hn]
    simp only [List.head?_cons, if_true, cut_header n rest hc, List.drop_succ_cons, List.drop_zero]
  intro m f
  unfold FRec.lines
  rw [List.cons_append, List.foldl_cons, h0, List.foldl_append]
  obtain ⟨i1, i2, i3⟩ := pf_files { s with name := n, found := true } rfl r.files hr.files
  have hend : ∀ t : PFiles, ([[]].foldl PFiles.line t).map = t.map := by
    intro t
    simp only [List.foldl_cons, List.foldl_nil, PFiles.line]
    cases t.found <;> simp
  rw [hend, i3]

/-- **C55.** The file sets of the repository packages, which `cards create` searches for libraries: exactly the files of the package files of that name, all
collections together. -/
theorem C55_file_sets (css : List (List FRec)) (hr : ∀ rs ∈ css, ∀ r ∈ rs, FRecOk r ∧ ∃ n, FRec.Of r n ∧ ¬ ".cards-".toList <:+: n) (n f : Str)
    (hn : ¬ ".cards-".toList <:+: n) :
    f ∈ (mget (parseFilesCmd (css.map writeFiles)) n).getD [] ↔ ∃ rs ∈ css, ∃ r ∈ rs, FRec.Of r n ∧ f ∈ r.files := by
  have hrec : ∀ (rs : List FRec) (s : PFiles), (∀ r ∈ rs, FRecOk r ∧ ∃ n, FRec.Of r n ∧ ¬ ".cards-".toList <:+: n) →
      (f ∈ (mget ((writeFiles rs).foldl PFiles.line s).map n).getD [] ↔ f ∈ (mget s.map n).getD [] ∨ ∃ r ∈ rs, FRec.Of r n ∧ f ∈ r.files) := by
    intro rs
    induction rs with
    | nil => intro s _; simp [writeFiles]
    | cons x rs ih =>
      intro s h
      have hw : writeFiles (x :: rs) = x.lines ++ writeFiles rs := by simp [writeFiles]
      obtain ⟨hx, nx, ⟨rest, hnx⟩, hcx⟩ := h x (by simp)
      rw [hw, List.foldl_append, ih _ (fun r hr => h r (List.mem_cons_of_mem _ hr)), pf_rec s hx hnx hcx]
      have heq : n = nx ↔ FRec.Of x n := by
        constructor
        · rintro rfl; exact ⟨rest, hnx⟩
        · rintro ⟨rest', h'⟩
          have e := hnx.symm.trans h'
          have e1 := cut_header nx rest hcx
          rw [e, cut_header n rest' hn] at e1
          simp only [Option.some.injEq, Prod.mk.injEq, List.cons.injEq, true_and] at e1
          exact e1.1
      rw [heq]
      simp only [List.mem_cons, exists_eq_or_imp]
      tauto
  have hcoll : ∀ (css : List (List FRec)) (s : PFiles), (∀ rs ∈ css, ∀ r ∈ rs, FRecOk r ∧ ∃ n, FRec.Of r n ∧ ¬ ".cards-".toList <:+: n) →
      (f ∈ (mget ((css.map writeFiles).foldl PFiles.coll s).map n).getD [] ↔ f ∈ (mget s.map n).getD [] ∨ ∃ rs ∈ css, ∃ r ∈ rs, FRec.Of r n ∧ f ∈ r.files) := by
    intro css
    induction css with
    | nil => intro s _; simp
    | cons rs css ih =>
      intro s h
      rw [List.map_cons, List.foldl_cons, ih _ (fun x hx => h x (List.mem_cons_of_mem _ hx)), PFiles.coll, hrec rs s (h rs (by simp))]
      simp only [List.mem_cons, exists_eq_or_imp]
      exact or_assoc
  rw [parseFilesCmd, hcoll css _ hr]
  simp [mget]

end Cards.Props
