import Verif.Model.Meta
import Verif.Props.RemoveFile
import Verif.Props.LineFile
import Verif.Lemmas.Names
import Mathlib.Tactic.Common
import Mathlib.Data.List.Nodup
/-!
# C60, C61: the meta files of a package
-/
namespace Cards.Props
open Cards

/-- The names of the meta files an archive can hold. -/
def archiveMeta : List Str := [nMeta, nMtree, nPre, nPost, nPrer, nPostr]

/-- The names that appear in the root directory only on the way. -/
def topNames : List Str := ".INFO".toList :: ".README".toList :: archiveMeta

/-- None of the names is taken by a directory of the root. -/
def Reg (fs : Fs) : Prop := ∀ n ∈ topNames, ∀ m, fs.get [n] ≠ some (.dir m)

/-- The root path. -/
def slash : Str := "/".toList

theorem topName_plain : ∀ n ∈ topNames, n ≠ [] ∧ '/' ∉ n := by decide

theorem comps_top {n : Str} (h : n ∈ topNames) : comps (slash ++ n) = [n] := by
  have := comps_single (topName_plain n h)
  show comps ('/' :: n) = [n]
  rw [← this]
  simp [comps, splitSlash]

theorem comps_top2 {n : Str} (h : n ∈ topNames) : comps (slash ++ '/' :: n) = [n] := by
  have := comps_top h
  show comps ('/' :: '/' :: n) = [n]
  rw [← this]
  simp [comps, splitSlash, slash]

theorem comps_top1 {n : Str} (h : n ∈ topNames) : comps ('/' :: n) = [n] := comps_top h

theorem noSlash_top {n : Str} (h : n ∈ topNames) : endsSlash (slash ++ n) = false := by
  have : ∀ n ∈ topNames, endsSlash (slash ++ n) = false := by decide
  exact this n h

theorem noSlash_top2 {n : Str} (h : n ∈ topNames) : endsSlash (slash ++ '/' :: n) = false := by
  have : ∀ n ∈ topNames, endsSlash (slash ++ '/' :: n) = false := by decide
  exact this n h

theorem lstat_top {fs : Fs} {n : Str} (h : n ∈ topNames) : fs.lstat (slash ++ n) = fs.get [n] := by
  unfold Fs.lstat
  rw [comps_top h, noSlash_top h]
  rcases fs.get [n] with _ | ⟨c, m⟩ | m <;> simp

theorem lstat_top2 {fs : Fs} {n : Str} (h : n ∈ topNames) : fs.lstat (slash ++ '/' :: n) = fs.get [n] := by
  unfold Fs.lstat
  rw [comps_top2 h, noSlash_top2 h]
  rcases fs.get [n] with _ | ⟨c, m⟩ | m <;> simp

theorem exist_top {fs : Fs} {n : Str} (h : n ∈ topNames) : fs.exist (slash ++ n) = (fs.get [n]).isSome := by
  unfold Fs.exist; rw [lstat_top h]

theorem exist_top2 {fs : Fs} {n : Str} (h : n ∈ topNames) : fs.exist (slash ++ '/' :: n) = (fs.get [n]).isSome := by
  unfold Fs.exist; rw [lstat_top2 h]

theorem del_absent {fs : Fs} {k : List Str} (h : fs.get k = none) : fs.del k = fs := by
  unfold Fs.del
  apply List.filter_eq_self.2
  intro a ha
  simp only [decide_not, Bool.not_eq_true', decide_eq_false_iff_not]
  intro e
  have := Fs.get_isSome_of_mem (fs := fs) (k := a.1) (w := a.2) ha
  rw [e, h] at this
  simp at this

/-- `remove` of a meta file. -/
theorem remove_top {fs : Fs} (hr : Reg fs) {n : Str} (h : n ∈ topNames) : (fs.remove (slash ++ n)).1 = fs.del [n] := by
  unfold Fs.remove
  rw [lstat_top h]
  cases hg : fs.get [n] with
  | none => simp [del_absent hg]
  | some v =>
    cases v with
    | file c m => simp [comps_top h]
    | dir m => exact absurd hg (hr n h m)

theorem removeFile_top {fs : Fs} (hr : Reg fs) {n : Str} (h : n ∈ topNames) : removeFile slash fs ('/' :: n) = fs.del [n] := by
  have hp := topName_plain n h
  have h1 := removeFile_step fs [] n (by simp) (by rw [comps_single hp]; simp)
  simp only [List.nil_append] at h1
  have hb : baseText [] = slash := rfl
  rw [hb, comps_top1 h] at h1
  rcases h1 with ⟨h1, h2⟩ | ⟨h1, h2, h3⟩ | ⟨h1, m', h2, h3, ⟨c, h4⟩, h5⟩
  · rw [h2, del_absent]
    unfold Fs.remove at h1
    have : fs.lstat ('/' :: n) = fs.get [n] := lstat_top h
    rw [this] at h1
    cases hg : fs.get [n] with
    | none => rfl
    | some v =>
      cases v with
      | file c m => simp [hg] at h1
      | dir m => exact absurd hg (hr n h m)
  · exact h3
  · rw [comps_single hp] at h4
    have := congrArg List.length h4
    simp at this
    exact absurd this h2

theorem reg_del {fs : Fs} (hr : Reg fs) (k : List Str) : Reg (fs.del k) := by
  intro n hn m
  rw [Fs.get_del]
  split
  · simp
  · exact hr n hn m

theorem cleanup_mem {n : Str} (h : n ∈ cleanupNames) : n ∈ topNames := by
  have : ∀ n ∈ cleanupNames, n ∈ topNames := by decide
  exact this n h

theorem cleanupOne_top {fs : Fs} (hr : Reg fs) {n : Str} (h : n ∈ topNames) : cleanupOne slash fs n = fs.del [n] := by
  unfold cleanupOne
  rw [exist_top2 h]
  cases hg : fs.get [n] with
  | none => simp [del_absent hg]
  | some v => simp [removeFile_top hr h]

theorem cleanupFold (ns : List Str) (hn : ∀ n ∈ ns, n ∈ topNames) (fs : Fs) (hr : Reg fs) :
    Reg (ns.foldl (cleanupOne slash) fs) ∧
      ∀ k, (ns.foldl (cleanupOne slash) fs).get k = if ∃ n ∈ ns, k = [n] then none else fs.get k := by
  induction ns generalizing fs with
  | nil => simp [hr]
  | cons n ns ih =>
    rw [List.foldl_cons, cleanupOne_top hr (hn n (by simp))]
    obtain ⟨h1, h2⟩ := ih (fun x hx => hn x (by simp [hx])) (fs.del [n]) (reg_del hr _)
    refine ⟨h1, fun k => ?_⟩
    rw [h2, Fs.get_del]
    by_cases h3 : ∃ x ∈ ns, k = [x]
    · rw [if_pos h3, if_pos (by obtain ⟨x, hx, e⟩ := h3; exact ⟨x, by simp [hx], e⟩)]
    · rw [if_neg h3]
      by_cases h4 : [n] = k
      · rw [if_pos h4, if_pos ⟨n, by simp, h4.symm⟩]
      · rw [if_neg h4, if_neg]
        rintro ⟨x, hx, e⟩
        rcases List.mem_cons.1 hx with rfl | hx
        · exact h4 e.symm
        · exact h3 ⟨x, hx, e⟩

/-- The clean-up removes exactly the six names from the root directory. -/
theorem cleanup_get {fs : Fs} (hr : Reg fs) (k : List Str) :
    (cleanupMeta slash fs).get k = if ∃ n ∈ cleanupNames, k = [n] then none else fs.get k :=
  (cleanupFold _ (fun _ => cleanup_mem) fs hr).2 k

theorem cleanup_reg {fs : Fs} (hr : Reg fs) : Reg (cleanupMeta slash fs) := (cleanupFold _ (fun _ => cleanup_mem) fs hr).1

theorem cleanup_id {fs : Fs} (hr : Reg fs) (h : ∀ n ∈ cleanupNames, fs.get [n] = none) : cleanupMeta slash fs = fs := by
  unfold cleanupMeta
  have : ∀ ns : List Str, (∀ n ∈ ns, n ∈ cleanupNames) → ns.foldl (cleanupOne slash) fs = fs := by
    intro ns
    induction ns with
    | nil => simp
    | cons n ns ih =>
      intro hn
      rw [List.foldl_cons, cleanupOne_top hr (cleanup_mem (hn n (by simp))), del_absent (h n (hn n (by simp)))]
      exact ih (fun x hx => hn x (by simp [hx]))
  exact this _ (fun _ h => h)

theorem cleanup_idem {fs : Fs} (hr : Reg fs) : cleanupMeta slash (cleanupMeta slash fs) = cleanupMeta slash fs :=
  cleanup_id (cleanup_reg hr) (fun n hn => by rw [cleanup_get hr, if_pos ⟨n, hn, rfl⟩])

theorem extractMeta_top {fs : Fs} (hr : Reg fs) {n : Str} (h : n ∈ topNames) (c : Str) :
    Reg (extractMeta slash fs (n, c)) ∧
      ∀ k, (extractMeta slash fs (n, c)).get k = if k = [n] then some (.file c 0o644) else fs.get k := by
  have he : extractMeta slash fs (n, c) = fs.set [n] (.file c 0o644) := by
    unfold extractMeta
    simp only
    rw [comps_top h]
    have : fs.extract [n] (.file c 0o644) = some ((fs.mkParents [n]).set [n] (.file c 0o644)) := by
      unfold Fs.extract
      cases hg : fs.get [n] with
      | none => rfl
      | some v =>
        cases v with
        | file c m => rfl
        | dir m => exact absurd hg (hr n h m)
    rw [this]
    rfl
  have hg : ∀ k, (extractMeta slash fs (n, c)).get k = if k = [n] then some (.file c 0o644) else fs.get k := by
    intro k
    rw [he, Fs.get_set]
    by_cases hk : k = [n]
    · rw [if_pos hk, if_pos hk.symm]
    · rw [if_neg hk, if_neg (fun e => hk e.symm)]
  refine ⟨?_, hg⟩
  intro x hx m
  rw [hg]
  split
  · simp
  · exact hr x hx m

/-- The archive holds the meta files `es`: names that are meta files, each once, `.META` among them. -/
structure MetaOf (es : List (Str × Str)) : Prop where
  names : ∀ e ∈ es, e.1 ∈ archiveMeta
  nodup : (es.map (·.1)).Nodup
  hasMeta : ∃ c, (nMeta, c) ∈ es

theorem archive_top {n : Str} (h : n ∈ archiveMeta) : n ∈ topNames := by simp [topNames, h]

theorem mget_cons_meta (n c x : Str) (es : List (Str × Str)) : mget ((n, c) :: es) x = if n = x then some c else mget es x := by
  simp [mget]

theorem extractFold (es : List (Str × Str)) (hn : ∀ e ∈ es, e.1 ∈ topNames) (hd : (es.map (·.1)).Nodup) (fs : Fs) (hr : Reg fs) :
    Reg (es.foldl (extractMeta slash) fs) ∧
      (∀ n, (es.foldl (extractMeta slash) fs).get [n] = match mget es n with | some c => some (.file c 0o644) | none => fs.get [n]) ∧
      ∀ k, k.length ≠ 1 → (es.foldl (extractMeta slash) fs).get k = fs.get k := by
  induction es generalizing fs with
  | nil => exact ⟨hr, fun _ => rfl, fun _ _ => rfl⟩
  | cons e es ih =>
    obtain ⟨n, c⟩ := e
    rw [List.foldl_cons]
    obtain ⟨h1, h2⟩ := extractMeta_top hr (hn _ (List.mem_cons_self ..)) c
    obtain ⟨h3, h4, h5⟩ := ih (fun e he => hn e (by simp [he])) (by simpa using (List.nodup_cons.1 hd).2) _ h1
    refine ⟨h3, fun x => ?_, fun k hk => ?_⟩
    · rw [h4, mget_cons_meta]
      by_cases hx : n = x
      · subst hx
        have : mget es n = none := by
          apply mget_none_iff.2
          intro hm
          exact (List.nodup_cons.1 hd).1 (by simpa [keys] using hm)
        rw [this, if_pos rfl, h2, if_pos rfl]
      · rw [if_neg hx]
        cases hm : mget es x with
        | some _ => rfl
        | none => simp only; rw [h2, if_neg (by intro e; simp at e; exact hx e.symm)]
    · rw [h5 k hk, h2, if_neg]
      rintro rfl
      simp at hk

/-- The directory of the package in the database of the root `/`, as a list of components. -/
def dbKey (name : Str) : List Str := ["var".toList, "lib".toList, "pkg".toList, "DB".toList, name]

theorem comps_dbDir {name : Str} (h : name ≠ [] ∧ '/' ∉ name) : comps (dbDir slash name) = dbKey name := by
  have h1 := comps_single h
  have h2 : comps (dbDir slash name) = ["var".toList, "lib".toList, "pkg".toList, "DB".toList] ++ comps name := by
    simp [dbDir, slash, comps, splitSlash]
  rw [h2, h1]; rfl

theorem comps_dbFile {name : Str} (h : name ≠ [] ∧ '/' ∉ name) {f : Str} (hf : f ≠ [] ∧ '/' ∉ f) :
    comps (dbDir slash name ++ '/' :: f) = dbKey name ++ [f] := by
  have h1 := comps_single hf
  have h3 := comps_append h f
  have h2 : comps (dbDir slash name ++ '/' :: f) = ["var".toList, "lib".toList, "pkg".toList, "DB".toList] ++ comps (name ++ '/' :: f) := by
    simp [dbDir, slash, comps, splitSlash]
  rw [h2, h3, h1]; rfl

theorem mem_top : nMeta ∈ topNames ∧ nMtree ∈ topNames ∧ nPre ∈ topNames ∧ nPost ∈ topNames ∧ nPrer ∈ topNames ∧ nPostr ∈ topNames := by
  decide

theorem text_top {fs : Fs} (hr : Reg fs) {n : Str} (h : n ∈ topNames) :
    (fs.text (slash ++ n) = none ↔ fs.get [n] = none) ∧ ∀ c m, fs.get [n] = some (.file c m) → fs.text (slash ++ n) = some c := by
  unfold Fs.text
  rw [lstat_top h]
  constructor
  · cases hg : fs.get [n] with
    | none => simp
    | some v =>
      cases v with
      | file c m => simp
      | dir m => exact absurd hg (hr n h m)
  · intro c m hg; rw [hg]

/-- What one `rename` of the move does. -/
theorem moveOne_top {name : Str} (hp : name ≠ [] ∧ '/' ∉ name) {s : MetaSt} (hf : s.failed = false) {n : Str} (hn : n ∈ topNames)
    (hd : n.drop 1 ≠ [] ∧ '/' ∉ n.drop 1) :
    moveOne slash name s n = match s.fs.get [n] with
      | none => { s with failed := true }
      | some v => { s with fs := (s.fs.del [n]).set (dbKey name ++ [n.drop 1]) v } := by
  unfold moveOne Fs.rename
  rw [hf, lstat_top hn, comps_top hn, comps_dbFile hp hd]
  cases s.fs.get [n] <;> rfl

/-- The database directory is made; nothing else of interest changes. -/
theorem mkDb_get (fs : Fs) (name : Str) (k : List Str) (h : ¬ k <+: dbKey name) :
    (fs.mkParents (dbKey name ++ [[]])).get k = fs.get k := by
  apply Fs.mkParents_ne
  intro hk
  obtain ⟨h1, h2, h3⟩ := mem_parents.1 hk
  apply h
  rcases List.prefix_concat_iff.1 h2 with h4 | h4
  · exact absurd h4 h3
  · exact h4

/-- The three kinds of files the database directory gets. -/
theorem dropped_names : nMeta.drop 1 = "META".toList ∧ nPrer.drop 1 = "PRER".toList ∧ nPostr.drop 1 = "POSTR".toList := by decide

theorem ne_dbFile {name n f : Str} : [n] ≠ dbKey name ++ [f] := by simp [dbKey]

theorem top_not_db {name n : Str} (h : n ∈ topNames) : ¬ [n] <+: dbKey name := by
  intro hp
  simp only [dbKey, List.cons_prefix_cons] at hp
  obtain ⟨rfl, -⟩ := hp
  revert h; decide

theorem dbFile_not_db {name f : Str} : ¬ (dbKey name ++ [f]) <+: dbKey name := by
  intro h
  have := h.length_le
  simp [dbKey] at this

theorem moveFold {name : Str} (hp : name ≠ [] ∧ '/' ∉ name) (ns : List Str) (hn : ∀ n ∈ ns, n ∈ topNames ∧ n.drop 1 ≠ [] ∧ '/' ∉ n.drop 1)
    (hd : (ns.map (List.drop 1)).Nodup) (s : MetaSt) (hf : s.failed = false) (he : ∀ n ∈ ns, s.fs.get [n] ≠ none) :
    let r := ns.foldl (moveOne slash name) s
    (r.failed = false ∧ r.ran = s.ran ∧ r.dep = s.dep ∧ r.lines = s.lines) ∧
    (∀ n ∈ ns, r.fs.get (dbKey name ++ [n.drop 1]) = s.fs.get [n] ∧ r.fs.get [n] = none) ∧
    ∀ k, (∀ n ∈ ns, k ≠ [n] ∧ k ≠ dbKey name ++ [n.drop 1]) → r.fs.get k = s.fs.get k := by
  induction ns generalizing s with
  | nil => exact ⟨⟨hf, rfl, rfl, rfl⟩, by simp, fun _ _ => rfl⟩
  | cons n ns ih =>
    obtain ⟨v, hv⟩ := Option.ne_none_iff_exists'.1 (he n (by simp))
    obtain ⟨h1, h2⟩ := hn n (by simp)
    have hd1 : ∀ x ∈ ns, x.drop 1 ≠ n.drop 1 := by
      intro x hx e
      exact (List.nodup_cons.1 hd).1 (by rw [← e]; exact List.mem_map_of_mem hx)
    have hx1 : ∀ x ∈ ns, x ≠ n := fun x hx e => hd1 x hx (by rw [e])
    intro r
    have hr : r = ns.foldl (moveOne slash name) (moveOne slash name s n) := rfl
    rw [moveOne_top hp hf h1 h2, hv] at hr
    simp only at hr
    obtain ⟨⟨a1, a2, a3, a4⟩, a5, a6⟩ := ih (fun x hx => hn x (by simp [hx])) (List.nodup_cons.1 hd).2
      { s with fs := (s.fs.del [n]).set (dbKey name ++ [n.drop 1]) v } hf (by
        intro x hx
        simp only [Fs.get_set, Fs.get_del]
        rw [if_neg ne_dbFile.symm, if_neg (by simpa using Ne.symm (hx1 x hx))]
        exact he x (by simp [hx]))
    rw [← hr] at a1 a2 a3 a4 a5 a6
    refine ⟨⟨a1, a2, a3, a4⟩, ?_, ?_⟩
    · intro x hx
      rcases List.mem_cons.1 hx with rfl | hx
      · constructor
        · rw [a6 _ (fun y hy => ⟨ne_dbFile.symm, by simpa using Ne.symm (hd1 y hy)⟩)]
          simp only [Fs.get_set, if_true, hv]
        · rw [a6 _ (fun y hy => ⟨by simpa using Ne.symm (hx1 y hy), ne_dbFile⟩)]
          simp only [Fs.get_set, Fs.get_del]
          rw [if_neg ne_dbFile.symm]; simp
      · refine ⟨?_, (a5 x hx).2⟩
        rw [(a5 x hx).1]
        simp only [Fs.get_set, Fs.get_del]
        rw [if_neg ne_dbFile.symm, if_neg (by simpa using Ne.symm (hx1 x hx))]
    · intro k hk
      rw [a6 k (fun x hx => hk x (by simp [hx]))]
      simp only [Fs.get_set, Fs.get_del]
      rw [if_neg (Ne.symm (hk n (by simp)).2), if_neg (Ne.symm (hk n (by simp)).1)]

theorem movedNames_mem (fs : Fs) (n : Str) :
    n ∈ movedNames slash fs ↔ n = nMeta ∨ (n = nPrer ∧ fs.get [nPrer] ≠ none) ∨ (n = nPostr ∧ fs.get [nPostr] ≠ none) := by
  obtain ⟨t1, t2, t3, t4, t5, t6⟩ := mem_top
  unfold movedNames
  rw [exist_top t6, exist_top t5]
  cases fs.get [nPrer] <;> cases fs.get [nPostr] <;> simp [or_comm]

/-- The move: `.META` and the scripts found go to the database. -/
theorem stepMove_spec {name : Str} (hp : name ≠ [] ∧ '/' ∉ name) {s : MetaSt} (hf : s.failed = false) (hm : s.fs.get [nMeta] ≠ none) :
    let s' := stepMove slash name s
    (s'.failed = false ∧ s'.ran = s.ran) ∧
    s'.fs.get (dbKey name ++ ["META".toList]) =
      (if s.dep then some (.file (textOf (sinsert "d1".toList s.lines)) 0o644) else s.fs.get [nMeta]) ∧
    (∀ n ∈ [nPrer, nPostr], s'.fs.get (dbKey name ++ [n.drop 1]) =
      (if s.fs.get [n] ≠ none then s.fs.get [n] else s.fs.get (dbKey name ++ [n.drop 1]))) ∧
    (∀ n ∈ [nMeta, nPrer, nPostr], s'.fs.get [n] = none) ∧
    ∀ k, (∀ n ∈ [nMeta, nPrer, nPostr], k ≠ [n] ∧ k ≠ dbKey name ++ [n.drop 1]) → ¬ k <+: dbKey name → s'.fs.get k = s.fs.get k := by
  intro s'
  obtain ⟨t1, t2, t3, t4, t5, t6⟩ := mem_top
  have hdrop : ∀ n ∈ [nMeta, nPrer, nPostr], n.drop 1 ≠ [] ∧ '/' ∉ n.drop 1 := by decide
  generalize hg : s.fs.mkParents (dbKey name ++ [[]]) = fs1
  have hget : ∀ k, ¬ k <+: dbKey name → fs1.get k = s.fs.get k := fun k hk => by rw [← hg]; exact mkDb_get _ _ _ hk
  have g1 := hget [nMeta] (top_not_db t1)
  have g2 := hget [nPrer] (top_not_db t5)
  have g3 := hget [nPostr] (top_not_db t6)
  have hmem : ∀ n ∈ movedNames slash fs1, n ∈ [nMeta, nPrer, nPostr] := by
    intro n hn
    rcases (movedNames_mem _ _).1 hn with h | h | h <;> simp [h]
  have hsub : ∀ n ∈ [nMeta, nPrer, nPostr], n ∈ topNames := by decide
  have hnd : ((movedNames slash fs1).map (List.drop 1)).Nodup := by
    unfold movedNames
    split <;> split <;> decide
  obtain ⟨⟨a1, a2, a3, a4⟩, a5, a6⟩ := moveFold hp (movedNames slash fs1) (fun n hn => ⟨hsub n (hmem n hn), hdrop n (hmem n hn)⟩) hnd
    { s with fs := fs1 } hf (by
      intro n hn
      rcases (movedNames_mem _ _).1 hn with h | h | h
      · rw [h]; simp only; rw [g1]; exact hm
      · rw [h.1]; exact h.2
      · rw [h.1]; exact h.2)
  have hs' : s' = stepMove slash name s := rfl
  unfold stepMove at hs'
  rw [comps_dbDir hp, hg] at hs'
  simp only at hs' a1 a2 a3 a4 a5 a6
  generalize hr : List.foldl (moveOne slash name) { s with fs := fs1 } (movedNames slash fs1) = r at hs' a1 a2 a3 a4 a5 a6
  rw [a1, a3, a4] at hs'
  simp only [Bool.false_eq_true, if_false] at hs'
  have hk : ∀ k, k ≠ dbKey name ++ ["META".toList] → s'.fs.get k = r.fs.get k := by
    intro k hk
    rw [hs']
    split
    · simp only [Fs.get_set]; rw [if_neg (Ne.symm hk)]
    · rfl
  have hne : ∀ n ∈ [nPrer, nPostr], n.drop 1 ≠ "META".toList := by decide
  refine ⟨?_, ?_, ?_, ?_, ?_⟩
  · rw [hs']; split
    · exact ⟨rfl, a2⟩
    · exact ⟨a1, a2⟩
  · rw [hs']
    split
    · simp only [Fs.get_set, if_true]
    · have := (a5 nMeta ((movedNames_mem _ _).2 (.inl rfl))).1
      rw [dropped_names.1] at this
      rw [this, g1]
  · intro n hn
    rw [hk _ (by simpa using hne n hn)]
    by_cases h : s.fs.get [n] ≠ none
    · rw [if_pos h]
      have hm' : n ∈ movedNames slash fs1 := by
        rcases List.mem_cons.1 hn with rfl | hn
        · exact (movedNames_mem _ _).2 (.inr (.inl ⟨rfl, by rw [g2]; exact h⟩))
        · rcases List.mem_cons.1 hn with rfl | hn
          · exact (movedNames_mem _ _).2 (.inr (.inr ⟨rfl, by rw [g3]; exact h⟩))
          · simp at hn
      rw [(a5 n hm').1]
      exact hget _ (top_not_db (hsub n (List.mem_cons_of_mem _ hn)))
    · rw [if_neg h, a6, hget _ dbFile_not_db]
      intro x hx
      refine ⟨ne_dbFile.symm, ?_⟩
      intro e
      have hinj : ∀ a ∈ [nMeta, nPrer, nPostr], ∀ b ∈ [nMeta, nPrer, nPostr], a.drop 1 = b.drop 1 → a = b := by decide
      have := hinj n (List.mem_cons_of_mem _ hn) x (hmem x hx) (by simpa using e)
      subst this
      rcases (movedNames_mem _ _).1 hx with h' | h' | h'
      · subst h'; exact h hm
      · rw [h'.1] at h; rw [g2] at h'; exact h h'.2
      · rw [h'.1] at h; rw [g3] at h'; exact h h'.2
  · intro n hn
    rw [hk _ ne_dbFile]
    by_cases h : n ∈ movedNames slash fs1
    · exact (a5 n h).2
    · rw [a6 _ (fun x hx => ⟨fun e => h (by simp at e; rw [e]; exact hx), ne_dbFile⟩), hget _ (top_not_db (hsub n hn))]
      by_contra hc
      apply h
      simp only [List.mem_cons, List.not_mem_nil, or_false] at hn
      rcases hn with rfl | rfl | rfl
      · exact (movedNames_mem _ _).2 (.inl rfl)
      · exact (movedNames_mem _ _).2 (.inr (.inl ⟨rfl, by rw [g2]; exact hc⟩))
      · exact (movedNames_mem _ _).2 (.inr (.inr ⟨rfl, by rw [g3]; exact hc⟩))
  · intro k h1 h2
    rw [hk k (by have := (h1 nMeta (by simp)).2; rw [dropped_names.1] at this; exact this), a6 k (fun n hn => h1 n (hmem n hn)), hget k h2]

/-! ### The steps under a schedule -/

/-- Whether another command starts between two steps. -/
def cleanIf (b : Bool) (s : MetaSt) : MetaSt := if b then { s with fs := cleanupMeta slash s.fs } else s

theorem cleanIf_fields (b : Bool) (s : MetaSt) : (cleanIf b s).ran = s.ran ∧ (cleanIf b s).failed = s.failed ∧ (cleanIf b s).dep = s.dep ∧
    (cleanIf b s).lines = s.lines := by cases b <;> exact ⟨rfl, rfl, rfl, rfl⟩

theorem cleanIf_reg (b : Bool) {s : MetaSt} (h : Reg s.fs) : Reg (cleanIf b s).fs := by
  cases b
  · exact h
  · exact cleanup_reg h

theorem cleanIf_get (b : Bool) {s : MetaSt} (h : Reg s.fs) (k : List Str) :
    (cleanIf b s).fs.get k = if b = true ∧ ∃ n ∈ cleanupNames, k = [n] then none else s.fs.get k := by
  cases b
  · simp [cleanIf]
  · simp only [cleanIf, if_true, true_and]; exact cleanup_get h k

/-- Between packages nothing of the meta files is left in the root directory, except what is not cleaned up. -/
structure Quiet (fs0 : Fs) (s : MetaSt) : Prop where
  reg : Reg s.fs
  live : s.failed = false
  clean : ∀ n ∈ cleanupNames, s.fs.get [n] = none
  rest : ∀ k, (∀ n ∈ cleanupNames, k ≠ [n]) → s.fs.get k = fs0.get k

theorem quiet_clean {fs0 : Fs} {s : MetaSt} (h : Quiet fs0 s) (b : Bool) : cleanIf b s = s := by
  cases b
  · rfl
  · simp only [cleanIf, if_true]
    rw [cleanup_id h.reg h.clean]

theorem quiet_start (fs0 : Fs) (hr : Reg fs0) (dep : Bool) : Quiet fs0 (metaStart slash fs0 dep) := by
  refine ⟨cleanup_reg hr, rfl, fun n hn => ?_, fun k hk => ?_⟩
  · show (cleanupMeta slash fs0).get [n] = none
    rw [cleanup_get hr, if_pos ⟨n, hn, rfl⟩]
  · show (cleanupMeta slash fs0).get k = _
    rw [cleanup_get hr, if_neg]
    rintro ⟨n, hn, e⟩
    exact hk n hn e

theorem pre_cleanup : nPre ∈ cleanupNames ∧ nPost ∈ cleanupNames ∧ nMeta ∈ cleanupNames ∧ nMtree ∈ cleanupNames := by decide

/-- The pre-install script under a schedule: it runs unless another command comes between its extraction and its run. -/
theorem pre_phase {fs0 : Fs} {s : MetaSt} (h : Quiet fs0 s) (es : List (Str × Str)) (pre : Str → Bool)
    (hp : ∀ c, mget es nPre = some c → pre c = true) (b : Bool) :
    let s' := liveStep (cleanIf b (liveStep s (stepPreExtract slash es))) (stepPreRun slash pre)
    Quiet fs0 s' ∧ s'.dep = s.dep ∧ s'.ran = s.ran ++ (if b then [] else (mget es nPre).toList) := by
  obtain ⟨t1, t2, t3, t4, t5, t6⟩ := mem_top
  intro s'
  have hs' : s' = liveStep (cleanIf b (liveStep s (stepPreExtract slash es))) (stepPreRun slash pre) := rfl
  unfold liveStep at hs'
  rw [h.live] at hs'
  simp only [Bool.false_eq_true, if_false] at hs'
  have quietNone : ∀ {x : MetaSt}, Quiet fs0 x → stepPreRun slash pre x = x := by
    intro x hx
    unfold stepPreRun
    rw [(text_top hx.reg t3).1.2 (hx.clean _ pre_cleanup.1)]
  unfold stepPreExtract at hs'
  cases hm : mget es nPre with
  | none =>
    simp only [hm, quiet_clean h, h.live, Bool.false_eq_true, if_false, quietNone h] at hs'
    rw [hs']
    refine ⟨h, rfl, ?_⟩
    cases b <;> simp
  | some c =>
    simp only [hm] at hs'
    obtain ⟨e1, e2⟩ := extractMeta_top h.reg t3 c
    have hq : Quiet fs0 { s with fs := (extractMeta slash s.fs (nPre, c)).del [nPre] } := by
      refine ⟨reg_del e1 _, h.live, ?_, ?_⟩
      · intro n hn
        simp only [Fs.get_del]
        split
        · rfl
        · rename_i hne
          rw [e2, if_neg (Ne.symm hne)]
          exact h.clean n hn
      · intro k hk
        simp only [Fs.get_del]
        rw [if_neg (Ne.symm (hk _ pre_cleanup.1)), e2, if_neg (hk _ pre_cleanup.1)]
        exact h.rest k hk
    cases b with
    | true =>
      have hqc : Quiet fs0 (cleanIf true { s with fs := extractMeta slash s.fs (nPre, c) }) := by
        have hreg : Reg (MetaSt.fs { s with fs := extractMeta slash s.fs (nPre, c) }) := e1
        refine ⟨cleanIf_reg true hreg, by rw [(cleanIf_fields _ _).2.1]; exact h.live, ?_, ?_⟩
        · intro n hn
          rw [cleanIf_get true hreg, if_pos ⟨rfl, n, hn, rfl⟩]
        · intro k hk
          rw [cleanIf_get true hreg, if_neg (by rintro ⟨-, n, hn, e⟩; exact hk n hn e)]
          simp only
          rw [e2, if_neg (hk _ pre_cleanup.1)]
          exact h.rest k hk
      rw [hqc.live] at hs'
      simp only [Bool.false_eq_true, if_false] at hs'
      rw [hs', quietNone hqc]
      refine ⟨hqc, (cleanIf_fields _ _).2.2.1, ?_⟩
      rw [(cleanIf_fields _ _).1]; simp
    | false =>
      simp only [cleanIf, Bool.false_eq_true, if_false, h.live] at hs'
      unfold stepPreRun at hs'
      have htxt : (extractMeta slash s.fs (nPre, c)).text (slash ++ nPre) = some c :=
        (text_top e1 t3).2 c 0o644 (by rw [e2, if_pos rfl])
      simp only [htxt, hp c hm, if_true, remove_top e1 t3] at hs'
      rw [hs']
      refine ⟨⟨hq.reg, rfl, hq.clean, hq.rest⟩, rfl, ?_⟩
      simp

/-- The text a meta file of the archive has. -/
def fileOf (es : List (Str × Str)) (n : Str) : Option Node := (mget es n).map (fun c => Node.file c 0o644)

/-- After the extraction and the start of other commands (or not). -/
theorem extract_phase {fs0 : Fs} {s : MetaSt} (h : Quiet fs0 s) {es : List (Str × Str)} (he : MetaOf es) (b : Bool) :
    let s' := cleanIf b (liveStep s (stepExtract slash es))
    Reg s'.fs ∧ s'.failed = false ∧ s'.dep = s.dep ∧ s'.ran = s.ran ∧
    (∀ n ∈ cleanupNames, s'.fs.get [n] = if b then none else fileOf es n) ∧
    (∀ n ∉ cleanupNames, s'.fs.get [n] = match fileOf es n with | some v => some v | none => fs0.get [n]) ∧
    ∀ k, k.length ≠ 1 → s'.fs.get k = fs0.get k := by
  intro s'
  have hs' : s' = cleanIf b { s with fs := es.foldl (extractMeta slash) s.fs } := by
    show cleanIf b (liveStep s (stepExtract slash es)) = _
    unfold liveStep
    rw [if_neg (by simp [h.live])]
    rfl
  obtain ⟨e1, e2, e3⟩ := extractFold es (fun e hx => archive_top (he.names e hx)) he.nodup s.fs h.reg
  have hreg : Reg (MetaSt.fs { s with fs := es.foldl (extractMeta slash) s.fs }) := e1
  rw [hs']
  refine ⟨cleanIf_reg b hreg, by rw [(cleanIf_fields _ _).2.1]; exact h.live, (cleanIf_fields _ _).2.2.1, (cleanIf_fields _ _).1, ?_, ?_, ?_⟩
  · intro n hn
    rw [cleanIf_get b hreg]
    cases b with
    | true => rw [if_pos ⟨rfl, n, hn, rfl⟩]; rfl
    | false =>
      rw [if_neg (by simp)]
      simp only [Bool.false_eq_true, if_false]
      rw [e2]
      unfold fileOf
      cases mget es n with
      | some c => rfl
      | none => exact h.clean n hn
  · intro n hn
    rw [cleanIf_get b hreg, if_neg (by rintro ⟨-, x, hx, e⟩; simp at e; exact hn (e ▸ hx))]
    simp only
    rw [e2]
    unfold fileOf
    cases mget es n with
    | some c => rfl
    | none => exact h.rest _ (fun x hx e => hn (by simp at e; exact e ▸ hx))
  · intro k hk
    rw [cleanIf_get b hreg, if_neg (by rintro ⟨-, x, hx, e⟩; rw [e] at hk; simp at hk)]
    simp only
    rw [e3 k hk]
    exact h.rest k (fun x hx e => by rw [e] at hk; simp at hk)

/-- Reading `.META`. -/
theorem read_phase {s : MetaSt} (hr : Reg s.fs) (hf : s.failed = false) :
    let s' := liveStep s (stepRead slash)
    Reg s'.fs ∧ s'.dep = s.dep ∧ s'.ran = s.ran ∧ (∀ k, s'.fs.get k = if k = [nMtree] then none else s.fs.get k) ∧
    (s.fs.get [nMeta] = none → s'.failed = true) ∧
    ∀ c m, s.fs.get [nMeta] = some (.file c m) → s'.failed = false ∧ s'.lines = (parseFileSet c).getD [] := by
  obtain ⟨t1, t2, t3, t4, t5, t6⟩ := mem_top
  have hget : ∀ k, (s.fs.del [nMtree]).get k = if k = [nMtree] then none else s.fs.get k := by
    intro k
    rw [Fs.get_del]
    by_cases h : k = [nMtree]
    · rw [if_pos h, if_pos h.symm]
    · rw [if_neg h, if_neg (Ne.symm h)]
  have hne : [nMeta] ≠ [nMtree] := by decide
  have hreg := reg_del hr [nMtree]
  intro s'
  have hs' : s' = stepRead slash s := by
    show liveStep s (stepRead slash) = _
    unfold liveStep
    rw [if_neg (by simp [hf])]
  unfold stepRead at hs'
  rw [removeFile_top hr t2] at hs'
  simp only at hs'
  cases ht : (s.fs.del [nMtree]).text (slash ++ nMeta) with
  | none =>
    have hn := (text_top hreg t1).1.1 ht
    rw [hget, if_neg hne] at hn
    rw [ht] at hs'
    rw [hs']
    exact ⟨hreg, rfl, rfl, hget, fun _ => rfl, fun c m h => by rw [hn] at h; exact absurd h (by simp)⟩
  | some c =>
    rw [ht] at hs'
    rw [hs']
    refine ⟨hreg, rfl, rfl, hget, ?_, ?_⟩
    · intro h
      have := (text_top hreg t1).1.2 (by rw [hget, if_neg hne]; exact h)
      rw [ht] at this
      exact absurd this (by simp)
    · intro c' m h
      have := (text_top hreg t1).2 c' m (by rw [hget, if_neg hne]; exact h)
      rw [ht] at this
      have e : c = c' := by simpa using this
      exact ⟨hf, by simp only [e]⟩

/-- The move when `.META` has disappeared. -/
theorem stepMove_gone {name : Str} (hp : name ≠ [] ∧ '/' ∉ name) {s : MetaSt} (hf : s.failed = false) (hm : s.fs.get [nMeta] = none) :
    let s' := stepMove slash name s
    s'.failed = true ∧ s'.ran = s.ran ∧ ∀ k, ¬ k <+: dbKey name → s'.fs.get k = s.fs.get k := by
  obtain ⟨t1, t2, t3, t4, t5, t6⟩ := mem_top
  intro s'
  have hs' : s' = stepMove slash name s := rfl
  unfold stepMove at hs'
  rw [comps_dbDir hp] at hs'
  simp only at hs'
  generalize hg : s.fs.mkParents (dbKey name ++ [[]]) = fs1 at hs'
  have hget : ∀ k, ¬ k <+: dbKey name → fs1.get k = s.fs.get k := fun k hk => by rw [← hg]; exact mkDb_get _ _ _ hk
  have stays : ∀ (ns : List Str) (x : MetaSt), x.failed = true → ns.foldl (moveOne slash name) x = x := by
    intro ns
    induction ns with
    | nil => intro _ _; rfl
    | cons n ns ih =>
      intro x hx
      rw [List.foldl_cons]
      have : moveOne slash name x n = x := by unfold moveOne; rw [if_pos hx]
      rw [this]; exact ih x hx
  unfold movedNames at hs'
  rw [List.foldl_cons, moveOne_top hp (by exact hf) t1 (by decide)] at hs'
  simp only at hs'
  rw [hget _ (top_not_db t1), hm] at hs'
  simp only at hs'
  rw [stays _ _ rfl] at hs'
  simp only [if_true] at hs'
  rw [hs']
  exact ⟨rfl, rfl, hget⟩

/-- `postRun`. -/
theorem post_phase {s : MetaSt} (hr : Reg s.fs) (hf : s.failed = false) (scripts : Bool) :
    let s' := liveStep s (stepPost slash scripts)
    s'.failed = false ∧ (∀ k, s'.fs.get k = if k = [nPre] ∨ k = [nPost] then none else s.fs.get k) ∧
    (s.fs.get [nPost] = none → s'.ran = s.ran) ∧
    ∀ c m, s.fs.get [nPost] = some (.file c m) → s'.ran = s.ran ++ (if scripts then [c] else []) := by
  obtain ⟨t1, t2, t3, t4, t5, t6⟩ := mem_top
  intro s'
  have hs' : s' = stepPost slash scripts s := by
    show liveStep s (stepPost slash scripts) = _
    unfold liveStep
    rw [if_neg (by simp [hf])]
  unfold stepPost at hs'
  have h1 : (if s.fs.exist (slash ++ nPre) then { s with fs := (s.fs.remove (slash ++ nPre)).1 } else s) = { s with fs := s.fs.del [nPre] } := by
    rw [exist_top t3, remove_top hr t3]
    cases hg : s.fs.get [nPre] with
    | none => simp [del_absent hg]
    | some v => simp
  rw [h1] at hs'
  simp only at hs'
  have hne : [nPre] ≠ [nPost] := by decide
  have hpost : (s.fs.del [nPre]).get [nPost] = s.fs.get [nPost] := by rw [Fs.get_del, if_neg hne]
  have hreg := reg_del hr [nPre]
  cases ht : (s.fs.del [nPre]).text (slash ++ nPost) with
  | none =>
    have hn := (text_top hreg t4).1.1 ht
    rw [ht] at hs'
    rw [hs']
    refine ⟨hf, ?_, fun _ => rfl, ?_⟩
    · intro k
      simp only [Fs.get_del]
      by_cases h2 : k = [nPre]
      · rw [if_pos h2.symm, if_pos (.inl h2)]
      · rw [if_neg (Ne.symm h2)]
        by_cases h3 : k = [nPost]
        · rw [if_pos (.inr h3), h3, ← hpost, hn]
        · rw [if_neg (fun h => h.elim h2 h3)]
    · intro c m h
      rw [hpost, h] at hn
      exact absurd hn (by simp)
  | some c =>
    rw [ht] at hs'
    simp only at hs'
    rw [remove_top hreg t4] at hs'
    rw [hs']
    refine ⟨hf, ?_, ?_, ?_⟩
    · intro k
      simp only [Fs.get_del]
      by_cases h2 : k = [nPost]
      · rw [if_pos h2.symm, if_pos (.inr h2)]
      · rw [if_neg (Ne.symm h2)]
        by_cases h3 : k = [nPre]
        · rw [if_pos h3.symm, if_pos (.inl h3)]
        · rw [if_neg (Ne.symm h3), if_neg (fun h => h.elim h3 h2)]
    · intro h
      have := (text_top hreg t4).1.2 (by rw [hpost]; exact h)
      rw [ht] at this; exact absurd this (by simp)
    · intro c' m h
      have := (text_top hreg t4).2 c' m (by rw [hpost]; exact h)
      rw [ht] at this
      have e : c = c' := by simpa using this
      subst e
      cases scripts <;> simp

/-- The second half of the installation under a schedule: `b3`, `b4`, `b5` tell whether another command starts after the extraction, after the
reading of `.META` and after the move. -/
def secondHalf (name : Str) (es : List (Str × Str)) (scripts : Bool) (b3 b4 b5 : Bool) (s : MetaSt) : MetaSt :=
  liveStep (cleanIf b5 (liveStep (cleanIf b4 (liveStep (cleanIf b3 (liveStep s (stepExtract slash es))) (stepRead slash))) (stepMove slash name)))
    (stepPost slash scripts)

theorem liveStep_failed {s : MetaSt} (h : s.failed = true) (f : MetaSt → MetaSt) : liveStep s f = s := by unfold liveStep; rw [if_pos h]

theorem dbFile_long {name f : Str} : (dbKey name ++ [f]).length ≠ 1 := by simp [dbKey]

theorem not_cleanup : nPrer ∉ cleanupNames ∧ nPostr ∉ cleanupNames := by decide

theorem fileOf_meta {es : List (Str × Str)} (he : MetaOf es) : ∃ c, fileOf es nMeta = some (.file c 0o644) ∧ mget es nMeta = some c := by
  obtain ⟨c, hc⟩ := he.hasMeta
  cases hm : mget es nMeta with
  | none => exact absurd (List.mem_map_of_mem (f := (·.1)) hc) (mget_none_iff.1 hm)
  | some c' => exact ⟨c', by simp [fileOf, hm], rfl⟩

theorem second_fail {fs0 : Fs} {s : MetaSt} (h : Quiet fs0 s) {es : List (Str × Str)} (he : MetaOf es) {name : Str}
    (hp : name ≠ [] ∧ '/' ∉ name) (scripts b3 b4 b5 : Bool) (hb : b3 = true ∨ b4 = true) :
    let s' := secondHalf name es scripts b3 b4 b5 s
    s'.failed = true ∧ s'.ran = s.ran ∧ ∀ f, s'.fs.get (dbKey name ++ [f]) = fs0.get (dbKey name ++ [f]) := by
  obtain ⟨x1, x2, x3, x4, x5, x6, x7⟩ := extract_phase h he b3
  intro s'
  have hs' : s' = secondHalf name es scripts b3 b4 b5 s := rfl
  unfold secondHalf at hs'
  generalize cleanIf b3 (liveStep s (stepExtract slash es)) = s3 at *
  obtain ⟨y1, y2, y3, y4, y5, y6⟩ := read_phase x1 x2
  generalize liveStep s3 (stepRead slash) = r4 at *
  have hdb : ∀ f, r4.fs.get (dbKey name ++ [f]) = fs0.get (dbKey name ++ [f]) := by
    intro f
    rw [y4, if_neg ne_dbFile.symm, x7 _ dbFile_long]
  have hcdb : ∀ b (x : MetaSt), Reg x.fs → ∀ f, (cleanIf b x).fs.get (dbKey name ++ [f]) = x.fs.get (dbKey name ++ [f]) := by
    intro b x hx f
    rw [cleanIf_get b hx, if_neg (by rintro ⟨-, n, -, e⟩; exact ne_dbFile e.symm)]
  have stay : ∀ b (x : MetaSt), x.failed = true → (cleanIf b x).failed = true := fun b x hx => by rw [(cleanIf_fields b x).2.1]; exact hx
  cases hb3 : b3 with
  | true =>
    have hf := y5 (by rw [x5 _ pre_cleanup.2.2.1, hb3]; rfl)
    rw [liveStep_failed (stay b4 r4 hf), liveStep_failed (stay b5 _ (stay b4 r4 hf))] at hs'
    rw [hs']
    refine ⟨stay b5 _ (stay b4 r4 hf), ?_, fun f => ?_⟩
    · rw [(cleanIf_fields _ _).1, (cleanIf_fields _ _).1, y3, x4]
    · rw [hcdb _ _ (cleanIf_reg _ y1), hcdb _ _ y1, hdb]
  | false =>
    have hb4 : b4 = true := by rcases hb with h | h; (rw [hb3] at h; cases h); exact h
    obtain ⟨c, hc1, hc2⟩ := fileOf_meta he
    have hf := (y6 c 0o644 (by rw [x5 _ pre_cleanup.2.2.1, hb3]; exact hc1)).1
    have hg : (cleanIf b4 r4).fs.get [nMeta] = none := by
      rw [cleanIf_get b4 y1, if_pos ⟨hb4, nMeta, pre_cleanup.2.2.1, rfl⟩]
    have hf4 : (cleanIf b4 r4).failed = false := by rw [(cleanIf_fields _ _).2.1]; exact hf
    obtain ⟨z1, z2, z3⟩ := stepMove_gone hp hf4 hg
    have hm : liveStep (cleanIf b4 r4) (stepMove slash name) = stepMove slash name (cleanIf b4 r4) := by
      unfold liveStep; rw [if_neg (by simp [hf4])]
    rw [hm, liveStep_failed (stay b5 _ z1)] at hs'
    have hreg5 : Reg (stepMove slash name (cleanIf b4 r4)).fs := by
      intro n hn m
      rw [z3 _ (top_not_db hn)]
      exact cleanIf_reg b4 y1 n hn m
    rw [hs']
    refine ⟨stay b5 _ z1, ?_, fun f => ?_⟩
    · rw [(cleanIf_fields _ _).1, z2, (cleanIf_fields _ _).1, y3, x4]
    · rw [hcdb _ _ hreg5, z3 _ dbFile_not_db, hcdb _ _ y1, hdb]

/-- What the installation records: `.META` of the archive, with the mark of a dependency or not. -/
def recordedMeta (c : Str) (dep : Bool) : Str := if dep then textOf (sinsert "d1".toList ((parseFileSet c).getD [])) else c

theorem second_ok {fs0 : Fs} {s : MetaSt} (h : Quiet fs0 s) {es : List (Str × Str)} (he : MetaOf es) {name : Str}
    (hp : name ≠ [] ∧ '/' ∉ name) (scripts b5 : Bool) :
    let s' := secondHalf name es scripts false false b5 s
    s'.failed = false ∧ s'.ran = s.ran ++ (if scripts && !b5 then (mget es nPost).toList else []) ∧
    (∃ c, (nMeta, c) ∈ es ∧ s'.fs.get (dbKey name ++ ["META".toList]) = some (.file (recordedMeta c s.dep) 0o644)) ∧
    (∀ n ∈ [nPrer, nPostr], s'.fs.get (dbKey name ++ [n.drop 1]) =
      match fileOf es n with
      | some v => some v
      | none => if fs0.get [n] ≠ none then fs0.get [n] else fs0.get (dbKey name ++ [n.drop 1])) ∧
    (∀ n ∈ topNames, s'.fs.get [n] = none) ∧
    ∀ k, (∀ n ∈ topNames, k ≠ [n]) → (∀ n ∈ [nMeta, nPrer, nPostr], k ≠ dbKey name ++ [n.drop 1]) → ¬ k <+: dbKey name →
      s'.fs.get k = fs0.get k := by
  obtain ⟨x1, x2, x3, x4, x5, x6, x7⟩ := extract_phase h he false
  intro s'
  have hs' : s' = secondHalf name es scripts false false b5 s := rfl
  unfold secondHalf at hs'
  have hss : ∀ k, (∀ n ∈ topNames, k ≠ [n]) → (cleanIf false (liveStep s (stepExtract slash es))).fs.get k = fs0.get k := by
    intro k hk
    have hq : (cleanIf false (liveStep s (stepExtract slash es))).fs = es.foldl (extractMeta slash) s.fs := by
      simp only [cleanIf, Bool.false_eq_true, if_false]
      unfold liveStep
      rw [if_neg (by simp [h.live])]
      rfl
    rw [hq]
    have h0 : s.fs.get k = fs0.get k := h.rest k (fun n hn => hk n (cleanup_mem hn))
    rw [← h0]
    obtain ⟨e1, e2, e3⟩ := extractFold es (fun e hx => archive_top (he.names e hx)) he.nodup s.fs h.reg
    by_cases hl : k.length = 1
    · obtain ⟨a, rfl⟩ := List.length_eq_one_iff.1 hl
      rw [e2]
      have : mget es a = none := by
        apply mget_none_iff.2
        intro hm
        obtain ⟨e, he', rfl⟩ := List.mem_map.1 hm
        exact hk e.1 (archive_top (he.names e he')) rfl
      rw [this]
    · exact e3 k hl
  generalize cleanIf false (liveStep s (stepExtract slash es)) = s3 at *
  simp only [Bool.false_eq_true, if_false] at x1 x2 x3 x4 x5 x6 x7
  obtain ⟨y1, y2, y3, y4, y5, y6⟩ := read_phase x1 x2
  generalize liveStep s3 (stepRead slash) = r4 at *
  obtain ⟨c, hc1, hc2⟩ := fileOf_meta he
  have hmeta3 : s3.fs.get [nMeta] = some (.file c 0o644) := by rw [x5 _ pre_cleanup.2.2.1]; exact hc1
  obtain ⟨hf, hlines⟩ := y6 c 0o644 hmeta3
  have hne : [nMeta] ≠ [nMtree] := by decide
  have hmeta4 : r4.fs.get [nMeta] = some (.file c 0o644) := by rw [y4, if_neg hne, hmeta3]
  have hm : liveStep (cleanIf false r4) (stepMove slash name) = stepMove slash name r4 := by
    simp only [cleanIf, Bool.false_eq_true, if_false]
    unfold liveStep; rw [if_neg (by simp [hf])]
  rw [hm] at hs'
  obtain ⟨⟨z1, z2⟩, z3, z4, z5, z6⟩ := stepMove_spec hp hf (by rw [hmeta4]; simp)
  generalize stepMove slash name r4 = s5 at *
  have hreg5 : Reg s5.fs := by
    intro n hn m
    by_cases hn' : n ∈ [nMeta, nPrer, nPostr]
    · rw [z5 n hn']; simp
    · rw [z6 [n] (fun x hx => ⟨fun e => hn' (by simp at e; rw [e]; exact hx), ne_dbFile⟩) (top_not_db hn)]
      exact y1 n hn m
  have hf5 : (cleanIf b5 s5).failed = false := by rw [(cleanIf_fields _ _).2.1]; exact z1
  obtain ⟨w1, w2, w3, w4⟩ := post_phase (cleanIf_reg b5 hreg5) hf5 scripts
  rw [← hs'] at w1 w2 w3 w4
  have hdb6 : ∀ f, s'.fs.get (dbKey name ++ [f]) = s5.fs.get (dbKey name ++ [f]) := by
    intro f
    rw [w2, if_neg (by rintro (e | e) <;> exact ne_dbFile e.symm), cleanIf_get b5 hreg5,
      if_neg (by rintro ⟨-, n, -, e⟩; exact ne_dbFile e.symm)]
  have hpost5 : s5.fs.get [nPost] = fileOf es nPost := by
    rw [z6 [nPost] (fun x hx => ⟨?_, ne_dbFile⟩) (top_not_db mem_top.2.2.2.1), y4, if_neg (by decide), x5 _ pre_cleanup.2.1]
    intro e
    have : ∀ x ∈ [nMeta, nPrer, nPostr], [nPost] ≠ [x] := by decide
    exact this x hx e
  have hsame : ∀ n ∈ [nPrer, nPostr], r4.fs.get [n] = match fileOf es n with | some v => some v | none => fs0.get [n] := by
    intro n hn
    have h1 : ∀ n ∈ [nPrer, nPostr], n ∉ cleanupNames ∧ [n] ≠ [nMtree] := by decide
    rw [y4, if_neg (h1 n hn).2, x6 n (h1 n hn).1]
  refine ⟨w1, ?_, ?_, ?_, ?_, ?_⟩
  · have hran : (cleanIf b5 s5).ran = s.ran := by rw [(cleanIf_fields _ _).1, z2, y3, x4]
    cases hb : b5 with
    | true =>
      rw [w3 (by rw [cleanIf_get b5 hreg5, if_pos ⟨hb, nPost, pre_cleanup.2.1, rfl⟩]), hran]
      simp
    | false =>
      have hg : (cleanIf b5 s5).fs.get [nPost] = fileOf es nPost := by
        rw [cleanIf_get b5 hreg5, if_neg (by rw [hb]; simp), hpost5]
      cases hpo : mget es nPost with
      | none =>
        rw [w3 (by rw [hg]; simp [fileOf, hpo]), hran]
        cases scripts <;> simp
      | some c' =>
        rw [w4 c' 0o644 (by rw [hg]; simp [fileOf, hpo]), hran]
        cases scripts <;> simp
  · refine ⟨c, mget_some_mem hc2, ?_⟩
    rw [hdb6, z3, y2, x3, hlines, hmeta4]
    unfold recordedMeta
    cases s.dep <;> rfl
  · intro n hn
    rw [hdb6, z4 n hn, hsame n hn, y4, if_neg ne_dbFile.symm, x7 _ dbFile_long]
    cases fileOf es n with
    | some v => simp
    | none => rfl
  · intro n hn
    rw [w2]
    split
    · rfl
    · rename_i hnp
      rw [cleanIf_get b5 hreg5]
      split
      · rfl
      · by_cases hn' : n ∈ [nMeta, nPrer, nPostr]
        · exact z5 n hn'
        · rw [z6 [n] (fun x hx => ⟨fun e => hn' (by simp at e; rw [e]; exact hx), ne_dbFile⟩) (top_not_db hn), y4]
          split
          · rfl
          · rename_i hnm
            have hrest : ∀ n ∈ topNames, n ∉ [nMeta, nPrer, nPostr] → [n] ≠ [nMtree] → ¬ ([n] = [nPre] ∨ [n] = [nPost]) →
              n ∈ cleanupNames ∧ n ∉ archiveMeta := by decide
            obtain ⟨q1, q2⟩ := hrest n hn hn' hnm hnp
            rw [x5 n q1]
            have : mget es n = none := by
              apply mget_none_iff.2
              intro hm
              obtain ⟨e, he', rfl⟩ := List.mem_map.1 hm
              exact q2 (he.names e he')
            simp [fileOf, this]
  · intro k h1 h2 h3
    rw [w2, if_neg (by rintro (e | e) <;> [exact h1 _ mem_top.2.2.1 e; exact h1 _ mem_top.2.2.2.1 e]), cleanIf_get b5 hreg5,
      if_neg (by rintro ⟨-, n, hn, e⟩; exact h1 n (cleanup_mem hn) e), z6 k (fun n hn => ⟨?_, h2 n hn⟩) h3, y4, if_neg (h1 _ mem_top.2.1), hss k h1]
    have hsub : ∀ n ∈ [nMeta, nPrer, nPostr], n ∈ topNames := by decide
    exact h1 n (hsub n hn)

/-! ### Schedules -/

/-- Another command starts when the installing process has done at least `i` and less than `j` of its steps. -/
def Disturbed (evs : List MetaEv) (i j : Nat) : Prop :=
  ∃ a b, evs = a ++ MetaEv.other :: b ∧ i ≤ a.count .step ∧ a.count .step < j

/-- Another command starts right after the `i`th step. -/
def hit : List MetaEv → Nat → Bool
  | [], _ => false
  | .other :: _, 0 => true
  | .other :: evs, i + 1 => hit evs (i + 1)
  | .step :: _, 0 => false
  | .step :: evs, i + 1 => hit evs i

theorem hit_iff (evs : List MetaEv) (i : Nat) : hit evs i = true ↔ ∃ a b, evs = a ++ MetaEv.other :: b ∧ a.count .step = i := by
  induction evs generalizing i with
  | nil => simp [hit]
  | cons e evs ih =>
    cases e with
    | other =>
      cases i with
      | zero => simp only [hit, true_iff]; exact ⟨[], evs, rfl, rfl⟩
      | succ i =>
        rw [hit, ih]
        constructor
        · rintro ⟨a, b, rfl, h⟩
          exact ⟨.other :: a, b, rfl, by simpa using h⟩
        · rintro ⟨a, b, h1, h2⟩
          cases a with
          | nil => simp at h2
          | cons x a =>
            simp only [List.cons_append, List.cons.injEq] at h1
            obtain ⟨rfl, rfl⟩ := h1
            exact ⟨a, b, rfl, by simpa using h2⟩
    | step =>
      cases i with
      | zero =>
        simp only [hit, Bool.false_eq_true, false_iff]
        rintro ⟨a, b, h1, h2⟩
        cases a with
        | nil => simp at h1
        | cons x a =>
          simp only [List.cons_append, List.cons.injEq] at h1
          obtain ⟨rfl, rfl⟩ := h1
          simp at h2
      | succ i =>
        rw [hit, ih]
        constructor
        · rintro ⟨a, b, rfl, h⟩
          exact ⟨.step :: a, b, rfl, by simpa using h⟩
        · rintro ⟨a, b, h1, h2⟩
          cases a with
          | nil => simp at h1
          | cons x a =>
            simp only [List.cons_append, List.cons.injEq] at h1
            obtain ⟨rfl, rfl⟩ := h1
            exact ⟨a, b, rfl, by simpa using h2⟩

theorem disturbed_iff (evs : List MetaEv) (i j : Nat) : Disturbed evs i j ↔ ∃ k, i ≤ k ∧ k < j ∧ hit evs k = true := by
  constructor
  · rintro ⟨a, b, h, h1, h2⟩
    exact ⟨_, h1, h2, (hit_iff _ _).2 ⟨a, b, h, rfl⟩⟩
  · rintro ⟨k, h1, h2, h⟩
    obtain ⟨a, b, e, rfl⟩ := (hit_iff _ _).1 h
    exact ⟨a, b, e, h1, h2⟩

theorem cleanIf_twice {s : MetaSt} (hr : Reg s.fs) (b : Bool) : cleanIf b (cleanIf true s) = cleanIf true s := by
  cases b
  · rfl
  · simp only [cleanIf, if_true]
    rw [cleanup_idem hr]

theorem metaRun_next (evs : List MetaEv) (h : 1 ≤ evs.count .step) (f : MetaSt → MetaSt) (fs : List (MetaSt → MetaSt)) (s : MetaSt)
    (hr : Reg s.fs) : ∃ evs', evs.count .step = evs'.count .step + 1 ∧ (∀ i, hit evs (i + 1) = hit evs' i) ∧
      metaRun slash evs (f :: fs) s = metaRun slash evs' fs (liveStep (cleanIf (hit evs 0) s) f) := by
  induction evs generalizing s with
  | nil => simp at h
  | cons e evs ih =>
    cases e with
    | step => exact ⟨evs, by simp, fun _ => rfl, rfl⟩
    | other =>
      obtain ⟨evs', h1, h2, h3⟩ := ih (by simpa using h) (cleanIf true s) (cleanIf_reg _ hr)
      refine ⟨evs', by simpa using h1, fun i => by rw [← h2]; rfl, ?_⟩
      show metaRun slash evs (f :: fs) (cleanIf true s) = _
      rw [h3, cleanIf_twice hr]
      rfl

theorem metaRun_end (evs : List MetaEv) (s : MetaSt) (hr : Reg s.fs) : ∃ b, metaRun slash evs [] s = cleanIf b s := by
  induction evs generalizing s with
  | nil => exact ⟨false, rfl⟩
  | cons e evs ih =>
    cases e with
    | step => exact ih s hr
    | other =>
      obtain ⟨b, hb⟩ := ih (cleanIf true s) (cleanIf_reg _ hr)
      refine ⟨true, ?_⟩
      show metaRun slash evs [] (cleanIf true s) = _
      rw [hb, cleanIf_twice hr]

theorem reg_move {name : Str} (hp : name ≠ [] ∧ '/' ∉ name) {s : MetaSt} (hr : Reg s.fs) : Reg (liveStep s (stepMove slash name)).fs := by
  unfold liveStep
  split
  · exact hr
  · rename_i hf
    have hf : s.failed = false := by simpa using hf
    by_cases hm : s.fs.get [nMeta] = none
    · obtain ⟨-, -, z3⟩ := stepMove_gone hp hf hm
      intro n hn m
      rw [z3 _ (top_not_db hn)]
      exact hr n hn m
    · obtain ⟨-, -, -, z5, z6⟩ := stepMove_spec hp hf hm
      intro n hn m
      by_cases hn' : n ∈ [nMeta, nPrer, nPostr]
      · rw [z5 n hn']; simp
      · rw [z6 [n] (fun x hx => ⟨fun e => hn' (by simp at e; rw [e]; exact hx), ne_dbFile⟩) (top_not_db hn)]
        exact hr n hn m

theorem reg_read {s : MetaSt} (hr : Reg s.fs) : Reg (liveStep s (stepRead slash)).fs := by
  cases hf : s.failed with
  | true => rw [liveStep_failed hf]; exact hr
  | false => exact (read_phase hr hf).1

theorem reg_post {s : MetaSt} (hr : Reg s.fs) (b : Bool) : Reg (liveStep s (stepPost slash b)).fs := by
  cases hf : s.failed with
  | true => rw [liveStep_failed hf]; exact hr
  | false =>
    intro n hn m
    rw [(post_phase hr hf b).2.1]
    split
    · simp
    · exact hr n hn m

/-- The whole run under a schedule. -/
theorem run_shape (evs : List MetaEv) (h : 6 ≤ evs.count .step) {es : List (Str × Str)} (he : MetaOf es) {name : Str}
    (hp : name ≠ [] ∧ '/' ∉ name) (pre : Str → Bool) (hpre : ∀ c, mget es nPre = some c → pre c = true) (scripts dep : Bool) (fs0 : Fs)
    (hr : Reg fs0) : ∃ s2 b6, Quiet fs0 s2 ∧ s2.dep = dep ∧
      s2.ran = (if scripts && !hit evs 1 then (mget es nPre).toList else []) ∧
      metaRun slash evs (metaSteps slash name es pre scripts) (metaStart slash fs0 dep) =
        cleanIf b6 (secondHalf name es scripts (hit evs 3) (hit evs 4) (hit evs 5) s2) ∧
      Reg (secondHalf name es scripts (hit evs 3) (hit evs 4) (hit evs 5) s2).fs := by
  have q0 := quiet_start fs0 hr dep
  unfold metaSteps
  obtain ⟨ev1, c1, k1, r1⟩ := metaRun_next evs (by omega) _ _ (metaStart slash fs0 dep) q0.reg
  rw [r1, quiet_clean q0]
  have hreg1 : Reg (liveStep (metaStart slash fs0 dep) (if scripts = true then stepPreExtract slash es else id)).fs := by
    unfold liveStep
    rw [if_neg (by simp [q0.live])]
    cases scripts with
    | false => exact q0.reg
    | true =>
      simp only [if_true]
      unfold stepPreExtract
      cases mget es nPre with
      | none => exact q0.reg
      | some c => exact (extractMeta_top q0.reg mem_top.2.2.1 c).1
  obtain ⟨ev2, c2, k2, r2⟩ := metaRun_next ev1 (by omega) (if scripts = true then stepPreRun slash pre else id) _ _ hreg1
  rw [r2]
  generalize hs2 : liveStep (cleanIf (hit ev1 0) (liveStep (metaStart slash fs0 dep) (if scripts = true then stepPreExtract slash es else id)))
    (if scripts = true then stepPreRun slash pre else id) = s2
  have h2 : Quiet fs0 s2 ∧ s2.dep = dep ∧ s2.ran = (if scripts && !hit evs 1 then (mget es nPre).toList else []) := by
    cases scripts with
    | false =>
      have hid : ∀ x : MetaSt, liveStep x id = x := by intro x; unfold liveStep; split <;> rfl
      simp only [Bool.false_eq_true, if_false, hid, quiet_clean q0] at hs2
      rw [← hs2]
      exact ⟨q0, rfl, rfl⟩
    | true =>
      simp only [if_true] at hs2
      obtain ⟨a1, a2, a3⟩ := pre_phase q0 es pre hpre (hit ev1 0)
      rw [← hs2]
      refine ⟨a1, a2, ?_⟩
      rw [a3, k1]
      cases hit ev1 0 <;> simp [metaStart]
  obtain ⟨q2, d2, n2⟩ := h2
  obtain ⟨ev3, c3, k3, r3⟩ := metaRun_next ev2 (by omega) (stepExtract slash es) _ s2 q2.reg
  rw [r3, quiet_clean q2]
  have hreg3 : Reg (liveStep s2 (stepExtract slash es)).fs := (extract_phase q2 he false).1
  obtain ⟨ev4, c4, k4, r4⟩ := metaRun_next ev3 (by omega) (stepRead slash) _ _ hreg3
  rw [r4]
  have hreg4 := reg_read (cleanIf_reg (hit ev3 0) hreg3)
  obtain ⟨ev5, c5, k5, r5⟩ := metaRun_next ev4 (by omega) (stepMove slash name) _ _ hreg4
  rw [r5]
  have hreg5 := reg_move hp (cleanIf_reg (hit ev4 0) hreg4)
  obtain ⟨ev6, c6, k6, r6⟩ := metaRun_next ev5 (by omega) (stepPost slash scripts) _ _ hreg5
  rw [r6]
  have hreg6 := reg_post (cleanIf_reg (hit ev5 0) hreg5) scripts
  obtain ⟨b6, hb⟩ := metaRun_end ev6 _ hreg6
  have e3 : hit evs 3 = hit ev3 0 := by rw [k1, k2, k3]
  have e4 : hit evs 4 = hit ev4 0 := by rw [k1, k2, k3, k4]
  have e5 : hit evs 5 = hit ev5 0 := by rw [k1, k2, k3, k4, k5]
  refine ⟨s2, b6, q2, d2, n2, ?_, ?_⟩
  · rw [hb, e3, e4, e5]; rfl
  · rw [e3, e4, e5]; exact hreg6

/-- **C61.** Whatever other commands start while a package is installed, and whenever: the installation ends with an error exactly when one of them
starts between the extraction of the package and the end of the move of its meta files, and then the package is extracted but nothing is recorded;
otherwise its metadata is recorded. The pre-install script is run unless one starts between its extraction and its run, the post-install script
unless one starts between the extraction of the package and `postRun`: a script left out is not an error. -/
theorem C61_schedule_partial (evs : List MetaEv) (h : 6 ≤ evs.count .step) (es : List (Str × Str)) (he : MetaOf es) (name : Str)
    (hp : name ≠ [] ∧ '/' ∉ name) (pre : Str → Bool) (hpre : ∀ c, mget es nPre = some c → pre c = true) (scripts dep : Bool) (fs0 : Fs)
    (hr : Reg fs0) :
    let s' := metaRun slash evs (metaSteps slash name es pre scripts) (metaStart slash fs0 dep)
    (s'.failed = true ↔ Disturbed evs 3 5) ∧
    (Disturbed evs 3 5 → ∀ f, s'.fs.get (dbKey name ++ [f]) = fs0.get (dbKey name ++ [f])) ∧
    (¬ Disturbed evs 3 5 →
      ∃ c, (nMeta, c) ∈ es ∧ s'.fs.get (dbKey name ++ ["META".toList]) = some (.file (recordedMeta c dep) 0o644)) ∧
    ∃ p q, s'.ran = p ++ q ∧
      (scripts = true ∧ ¬ Disturbed evs 1 2 → p = (mget es nPre).toList) ∧ (scripts = false ∨ Disturbed evs 1 2 → p = []) ∧
      (scripts = true ∧ ¬ Disturbed evs 3 6 → q = (mget es nPost).toList) ∧ (scripts = false ∨ Disturbed evs 3 6 → q = []) := by
  obtain ⟨s2, b6, q2, d2, n2, hrun, hreg⟩ := run_shape evs h he hp pre hpre scripts dep fs0 hr
  intro s'
  have hs' : s' = _ := hrun
  have h35 : Disturbed evs 3 5 ↔ hit evs 3 = true ∨ hit evs 4 = true := by
    rw [disturbed_iff]
    constructor
    · rintro ⟨k, a, b, e⟩
      have : k = 3 ∨ k = 4 := by omega
      rcases this with rfl | rfl
      · exact .inl e
      · exact .inr e
    · rintro (e | e)
      · exact ⟨3, by omega, by omega, e⟩
      · exact ⟨4, by omega, by omega, e⟩
  have h12 : Disturbed evs 1 2 ↔ hit evs 1 = true := by
    rw [disturbed_iff]
    constructor
    · rintro ⟨k, a, b, e⟩
      have : k = 1 := by omega
      rw [← this]; exact e
    · intro e; exact ⟨1, by omega, by omega, e⟩
  have h36 : Disturbed evs 3 6 ↔ hit evs 3 = true ∨ hit evs 4 = true ∨ hit evs 5 = true := by
    rw [disturbed_iff]
    constructor
    · rintro ⟨k, a, b, e⟩
      have : k = 3 ∨ k = 4 ∨ k = 5 := by omega
      rcases this with rfl | rfl | rfl
      · exact .inl e
      · exact .inr (.inl e)
      · exact .inr (.inr e)
    · rintro (e | e | e)
      · exact ⟨3, by omega, by omega, e⟩
      · exact ⟨4, by omega, by omega, e⟩
      · exact ⟨5, by omega, by omega, e⟩
  have hpp : (scripts = true ∧ ¬ Disturbed evs 1 2 → s2.ran = (mget es nPre).toList) ∧ (scripts = false ∨ Disturbed evs 1 2 → s2.ran = []) := by
    rw [h12, n2]
    cases scripts <;> cases hit evs 1 <;> simp
  have hdb : ∀ f, s'.fs.get (dbKey name ++ [f]) =
      (secondHalf name es scripts (hit evs 3) (hit evs 4) (hit evs 5) s2).fs.get (dbKey name ++ [f]) := by
    intro f
    rw [hs', cleanIf_get b6 hreg, if_neg (by rintro ⟨-, n, -, e⟩; exact ne_dbFile e.symm)]
  have hfl : s'.failed = (secondHalf name es scripts (hit evs 3) (hit evs 4) (hit evs 5) s2).failed := by rw [hs', (cleanIf_fields _ _).2.1]
  have hrn : s'.ran = (secondHalf name es scripts (hit evs 3) (hit evs 4) (hit evs 5) s2).ran := by rw [hs', (cleanIf_fields _ _).1]
  by_cases hb : hit evs 3 = true ∨ hit evs 4 = true
  · obtain ⟨a1, a2, a3⟩ := second_fail q2 he hp scripts (hit evs 3) (hit evs 4) (hit evs 5) hb
    refine ⟨⟨fun _ => h35.2 hb, fun _ => by rw [hfl, a1]⟩, fun _ f => by rw [hdb, a3], fun hn => absurd (h35.2 hb) hn, s2.ran, [], ?_, hpp.1, hpp.2,
      ?_, fun _ => rfl⟩
    · rw [hrn, a2, List.append_nil]
    · rintro ⟨-, hn⟩
      exact absurd (h36.2 (by rcases hb with hb | hb; exacts [.inl hb, .inr (.inl hb)])) hn
  · have e3 : hit evs 3 = false := by cases hh : hit evs 3 with | false => rfl | true => exact absurd (.inl hh) hb
    have e4 : hit evs 4 = false := by cases hh : hit evs 4 with | false => rfl | true => exact absurd (.inr hh) hb
    rw [e3, e4] at hfl hdb hrn
    obtain ⟨a1, a2, a3, -⟩ := second_ok q2 he hp scripts (hit evs 5)
    refine ⟨⟨fun hf => ?_, fun hd => absurd (h35.1 hd) hb⟩, fun hd => absurd (h35.1 hd) hb, fun _ => ?_, s2.ran, _, by rw [hrn, a2], hpp.1, hpp.2, ?_, ?_⟩
    · rw [hfl, a1] at hf; cases hf
    · rw [hdb, ← d2]; exact a3
    · rintro ⟨rfl, hn⟩
      rw [h36] at hn
      cases hh : hit evs 5 with
      | false => rfl
      | true => exact absurd (.inr (.inr hh)) hn
    · rw [h36]
      rintro (rfl | hd)
      · rfl
      · rw [e3, e4] at hd
        rcases hd with hd | hd | hd
        · cases hd
        · cases hd
        · rw [hd]; simp

theorem metaRun_alone (fs : List (MetaSt → MetaSt)) (s : MetaSt) : metaRun slash (List.replicate fs.length .step) fs s = fs.foldl liveStep s := by
  induction fs generalizing s with
  | nil => rfl
  | cons f fs ih => exact ih _

/-- **C60.** An installation to `/` that nothing disturbs, in a root directory without a leftover `.PRER` or `.POSTR`: the database gets `.META` of the
archive (with the mark of a dependency if asked) and exactly the removal scripts of the archive; the scripts `.PRE` and `.POST` of the archive are run,
once each and in this order; no meta file is left in the root directory and nothing else changes. -/
theorem C60_recorded_partial (es : List (Str × Str)) (he : MetaOf es) (name : Str) (hp : name ≠ [] ∧ '/' ∉ name) (pre : Str → Bool)
    (hpre : ∀ c, mget es nPre = some c → pre c = true) (scripts dep : Bool) (fs0 : Fs) (hr : Reg fs0)
    (hl : fs0.get [nPrer] = none ∧ fs0.get [nPostr] = none)
    (hd : fs0.get (dbKey name ++ ["PRER".toList]) = none ∧ fs0.get (dbKey name ++ ["POSTR".toList]) = none) :
    let s' := metaInstall slash name es pre scripts dep fs0
    s'.failed = false ∧
    s'.ran = (if scripts then (mget es nPre).toList ++ (mget es nPost).toList else []) ∧
    (∃ c, (nMeta, c) ∈ es ∧ s'.fs.get (dbKey name ++ ["META".toList]) = some (.file (recordedMeta c dep) 0o644)) ∧
    (∀ c, s'.fs.get (dbKey name ++ ["PRER".toList]) = some (.file c 0o644) ↔ (".PRER".toList, c) ∈ es) ∧
    (∀ c, s'.fs.get (dbKey name ++ ["POSTR".toList]) = some (.file c 0o644) ↔ (".POSTR".toList, c) ∈ es) ∧
    (∀ n ∈ topNames, s'.fs.get [n] = none) ∧
    ∀ k, (∀ n ∈ topNames, k ≠ [n]) → (∀ n ∈ ["META".toList, "PRER".toList, "POSTR".toList], k ≠ dbKey name ++ [n]) → ¬ k <+: dbKey name →
      s'.fs.get k = fs0.get k := by
  obtain ⟨s2, b6, q2, d2, n2, hrun, hreg⟩ :=
    run_shape (List.replicate 6 .step) (by decide) he hp pre hpre scripts dep fs0 hr
  have hh : ∀ i, hit (List.replicate 6 .step) i = false := by
    intro i
    have : ∀ n i, hit (List.replicate n .step) i = false := by
      intro n
      induction n with
      | zero => intro i; rfl
      | succ n ih => intro i; cases i with
        | zero => rfl
        | succ i => exact ih i
    exact this 6 i
  rw [hh, hh, hh] at hrun hreg
  rw [hh] at n2
  intro s'
  have hs' : s' = cleanIf b6 (secondHalf name es scripts false false false s2) := by
    rw [← hrun]
    exact (metaRun_alone (metaSteps slash name es pre scripts) _).symm
  obtain ⟨a1, a2, a3, a4, a5, a6⟩ := second_ok q2 he hp scripts false
  generalize secondHalf name es scripts false false false s2 = r at *
  have hget : ∀ k, (∀ n ∈ topNames, k ≠ [n]) → s'.fs.get k = r.fs.get k := by
    intro k hk
    rw [hs', cleanIf_get b6 hreg, if_neg (by rintro ⟨-, n, hn, e⟩; exact hk n (cleanup_mem hn) e)]
  have hgdb : ∀ f, s'.fs.get (dbKey name ++ [f]) = r.fs.get (dbKey name ++ [f]) := fun f => hget _ (fun n _ => ne_dbFile.symm)
  have hscript : ∀ n ∈ [nPrer, nPostr], fs0.get [n] = none → fs0.get (dbKey name ++ [n.drop 1]) = none → ∀ c,
      s'.fs.get (dbKey name ++ [n.drop 1]) = some (.file c 0o644) ↔ (n, c) ∈ es := by
    intro n hn h1 h2 c
    rw [hgdb, a4 n hn, h1, h2]
    have hmem : mget es n = some c ↔ (n, c) ∈ es := by
      constructor
      · exact mget_some_mem
      · intro hm
        cases hg : mget es n with
        | none => exact absurd (List.mem_map_of_mem (f := (·.1)) hm) (mget_none_iff.1 hg)
        | some c' =>
          have hm' := mget_some_mem hg
          have := List.inj_on_of_nodup_map he.nodup hm hm' rfl
          simp at this
          rw [this]
    rw [← hmem]
    unfold fileOf
    cases mget es n with
    | none => simp
    | some c' => simp
  refine ⟨by rw [hs', (cleanIf_fields _ _).2.1]; exact a1, ?_, ?_, ?_, ?_, ?_, ?_⟩
  · rw [hs', (cleanIf_fields _ _).1, a2, n2]
    cases scripts <;> simp
  · rw [hgdb, ← d2]; exact a3
  · have := hscript nPrer (by simp) hl.1 (by rw [dropped_names.2.1]; exact hd.1)
    rw [dropped_names.2.1] at this
    exact this
  · have := hscript nPostr (by simp) hl.2 (by rw [dropped_names.2.2]; exact hd.2)
    rw [dropped_names.2.2] at this
    exact this
  · intro n hn
    rw [hs', cleanIf_get b6 hreg]
    split
    · rfl
    · exact a5 n hn
  · intro k h1 h2 h3
    rw [hget k h1]
    apply a6 k h1 _ h3
    intro n hn
    have : n.drop 1 ∈ ["META".toList, "PRER".toList, "POSTR".toList] := by
      have : ∀ n ∈ [nMeta, nPrer, nPostr], n.drop 1 ∈ ["META".toList, "PRER".toList, "POSTR".toList] := by decide
      exact this n hn
    exact h2 _ this

/-- Two packages: the first has a script for its removal. -/
def exMetaA : List (Str × Str) := [(".MTREE".toList, "usr/bin/a\n".toList), (".META".toList, "Na\nV1\n".toList), (".POST".toList, "ldconfig".toList),
  (".PRER".toList, "rm -r /srv/a".toList)]
def exMetaB : List (Str × Str) := [(".MTREE".toList, "usr/bin/b\n".toList), (".META".toList, "Nb\nV1\n".toList)]

/-- The hypotheses of C60 and C61 hold for the installation of the first package in an empty system; its scripts are recorded and run. -/
example : MetaOf exMetaA ∧ Reg ([] : Fs) ∧ MetaOf exMetaB :=
  ⟨⟨by decide, by decide, ⟨"Na\nV1\n".toList, by decide⟩⟩, by intro n _ m; simp, ⟨by decide, by decide, ⟨"Nb\nV1\n".toList, by decide⟩⟩⟩
example : let s' := metaInstall slash "a".toList exMetaA (fun _ => true) true false []
    s'.failed = false ∧ s'.ran = ["ldconfig".toList] ∧ s'.fs.get (dbKey "a".toList ++ ["PRER".toList]) = some (.file "rm -r /srv/a".toList 0o644) ∧
    s'.fs.get [".MTREE".toList] = none := by decide +kernel

/-- **C60 fails after a crash.** The installation of `a` is killed after the extraction; then `b`, which has no script, is installed: `b` is recorded with
the removal script of `a`, which will be run when `b` is removed. -/
theorem C60_leftover_counterexample :
    let crashed := (metaRun slash [.step, .step, .step] (metaSteps slash "a".toList exMetaA (fun _ => true) true) (metaStart slash [] false)).fs
    let s' := metaInstall slash "b".toList exMetaB (fun _ => true) true false crashed
    s'.failed = false ∧ (∀ c, (".PRER".toList, c) ∉ exMetaB) ∧
    s'.fs.get (dbKey "b".toList ++ ["PRER".toList]) = some (.file "rm -r /srv/a".toList 0o644) := by
  refine ⟨by decide +kernel, ?_, by decide +kernel⟩
  intro c hc
  have : ∀ e ∈ exMetaB, e.1 ≠ ".PRER".toList := by decide
  exact this _ hc rfl

/-- **C60 fails for another root.** `pkgadd --root /mnt`: `.MTREE` of the package stays in `/mnt`, and a file `/.MTREE` of the host is deleted. -/
theorem C60_root_counterexample :
    let host : Fs := [(["mnt".toList], .dir 0o755), ([".MTREE".toList], .file "mine".toList 0o644)]
    let s' := metaInstall "/mnt/".toList "b".toList exMetaB (fun _ => true) true false host
    s'.failed = false ∧ s'.fs.get ["mnt".toList, ".MTREE".toList] = some (.file "usr/bin/b\n".toList 0o644) ∧ s'.fs.get [".MTREE".toList] = none := by
  decide +kernel

/-- The clean-up for another root deletes files of the host: here a query with `--root /mnt`, where an earlier installation left `.MTREE` and `.META`. -/
theorem C60_cleanup_root_counterexample :
    let fs : Fs := [(["mnt".toList], .dir 0o755), (["mnt".toList, ".META".toList], .file "left".toList 0o644), ([".META".toList], .file "mine".toList 0o644)]
    (cleanupMeta "/mnt/".toList fs).get [".META".toList] = none ∧
    (cleanupMeta "/mnt/".toList fs).get ["mnt".toList, ".META".toList] = some (.file "left".toList 0o644) := by decide +kernel

/-- The clean-up at the start of a command in `/` removes the six names from the root directory, and nothing else, whatever the state a crash left. -/
theorem C60_cleanup (fs : Fs) (hr : Reg fs) (k : List Str) :
    (cleanupMeta slash fs).get k =
      if k ∈ [[".INFO".toList], [".META".toList], [".PRE".toList], [".POST".toList], [".MTREE".toList], [".README".toList]] then none else fs.get k := by
  rw [cleanup_get hr]
  have : (∃ n ∈ cleanupNames, k = [n]) ↔
      k ∈ [[".INFO".toList], [".META".toList], [".PRE".toList], [".POST".toList], [".MTREE".toList], [".README".toList]] := by
    unfold cleanupNames
    simp only [List.mem_cons, List.not_mem_nil, or_false]
    constructor
    · rintro ⟨n, (rfl | rfl | rfl | rfl | rfl | rfl), rfl⟩ <;> simp only [true_or, or_true]
    · rintro (rfl | rfl | rfl | rfl | rfl | rfl) <;> exact ⟨_, by simp only [true_or, or_true], rfl⟩
  by_cases h : ∃ n ∈ cleanupNames, k = [n]
  · rw [if_pos h, if_pos (this.1 h)]
  · rw [if_neg h, if_neg (fun h' => h (this.2 h'))]

/-- **C61 fails.** A query (`pkginfo`) during an installation: the package is extracted, not recorded, and the installation ends with an error. -/
theorem C61_query_counterexample :
    let s' := metaRun slash [.step, .step, .step, .other, .step, .step, .step] (metaSteps slash "a".toList exMetaA (fun _ => true) true)
      (metaStart slash [] false)
    s'.failed = true ∧ s'.fs.get (dbKey "a".toList ++ ["META".toList]) = none ∧ s'.ran = [] ∧
    s'.fs.get [".PRER".toList] = some (.file "rm -r /srv/a".toList 0o644) := by decide +kernel

/-- A query just before `postRun`: the installation succeeds and the post-install script is never run. -/
theorem C61_post_counterexample :
    let s' := metaRun slash [.step, .step, .step, .step, .step, .other, .step] (metaSteps slash "a".toList exMetaA (fun _ => true) true)
      (metaStart slash [] false)
    s'.failed = false ∧ s'.ran = [] ∧ s'.fs.get (dbKey "a".toList ++ ["META".toList]) = some (.file "Na\nV1\n".toList 0o644) := by
  decide +kernel

example : Disturbed [.step, .step, .step, .other, .step, .step, .step] 3 5 := ⟨[.step, .step, .step], [.step, .step, .step], rfl, by decide, by decide⟩

/-! ### What is recorded reads back -/

theorem textOf_writeList (ls : List Str) : textOf ls = writeList ls := by
  induction ls with
  | nil => rfl
  | cons l ls ih =>
    unfold textOf at ih ⊢
    rw [List.flatMap_cons, ih]
    simp [writeList]

/-- **C60, the mark of a dependency**: the META recorded for a dependency is read back as the lines of the archive's META and the line `d1`, no matter what
lines these are (within the bounds of C34). -/
theorem C60_mark_reads_back_partial (ls : List Str) (h : ∀ l ∈ ls, '\n' ∉ l ∧ '\x00' ∉ l ∧ l.length ≤ 8190) :
    ∃ r, parseFileSet (recordedMeta (writeList ls) true) = some r ∧ Sorted r ∧ ∀ x, x ∈ r ↔ x = "d1".toList ∨ x ∈ ls := by
  obtain ⟨r, h1, h2, h3⟩ := C34_set_partial ls h
  have hm : ∀ x, x ∈ sinsert "d1".toList r ↔ x = "d1".toList ∨ x ∈ ls := by
    intro x; rw [mem_sinsert, h3]
  obtain ⟨r', k1, k2, k3⟩ := C34_set_partial (sinsert "d1".toList r) (by
    intro l hl
    rcases (hm l).mp hl with rfl | hl
    · decide
    · exact h l hl)
  refine ⟨r', ?_, k2, fun x => (k3 x).trans (hm x)⟩
  unfold recordedMeta
  rw [if_pos rfl, h1, Option.getD_some, textOf_writeList]
  exact k1

example : parseFileSet (recordedMeta "Nfoo\nV1\n".toList true) = some ["Nfoo".toList, "V1".toList, "d1".toList] := by decide +kernel

end Cards.Props
