import Verif.Model.PkgmkKill
import Verif.Props.PkgmkRun
import Verif.Props.PkgmkRepo
import Verif.Props.PkgmkDeps
import Verif.Lemmas.Levels
import Verif.Props.Repo
/-!
# C223, C224, C225: a run of `pkgmk` that is killed or interrupted
-/
namespace Cards.Props

/-! ## C223: is a killed build built again? -/

theorem runOps_append (clock : Nat → Nat) (a : List DirOp) : ∀ (i : Nat) (b : List DirOp) (d : TarDir),
    runOps clock i (a ++ b) d = runOps clock (i + a.length) b (runOps clock i a d) := by
  induction a with
  | nil => intro i b d; rfl
  | cons o a ih =>
    intro i b d
    rw [List.cons_append, runOps, ih, List.length_cons, runOps, Nat.add_right_comm, Nat.add_assoc]

/-- What is in the directory afterwards was there before, or was put there at a time of the clock. -/
theorem runOps_from (clock : Nat → Nat) (ops : List DirOp) : ∀ (i : Nat) (d : TarDir) (f : Str) (v : TarState × Nat), mget (runOps clock i ops d) f = some v →
    (mget d f = some v ∧ DirOp.rm f ∉ ops) ∨ (DirOp.put f v.1 ∈ ops ∧ ∃ j, v.2 = clock j) := by
  induction ops with
  | nil => intro i d f v h; exact Or.inl ⟨h, by simp⟩
  | cons o ops ih =>
    intro i d f v h
    rw [runOps] at h
    rcases ih _ _ _ _ h with ⟨h1, h2⟩ | ⟨h1, h2⟩
    · cases o with
      | rm g =>
        rw [DirOp.run, mget_merase] at h1
        by_cases e : g = f
        · rw [if_pos e] at h1; cases h1
        · rw [if_neg e] at h1
          refine Or.inl ⟨h1, ?_⟩
          rw [List.mem_cons, not_or]
          exact ⟨fun e' => e (by injection e' with e'; exact e'.symm), h2⟩
      | put g s =>
        rw [DirOp.run, mget_mset] at h1
        by_cases e : g = f
        · rw [if_pos e] at h1
          injection h1 with h1
          subst e h1
          exact Or.inr ⟨List.mem_cons_self .., i, rfl⟩
        · rw [if_neg e] at h1
          refine Or.inl ⟨h1, ?_⟩
          rw [List.mem_cons, not_or]
          exact ⟨(nomatch ·), h2⟩
    · exact Or.inr ⟨List.mem_cons_of_mem _ h1, h2⟩

theorem mget_dates (d : TarDir) (f : Str) : mget (dates d) f = (mget d f).map (·.2) := Cards.mget_map d (fun _ v => v.2) f

/-- The packages of the port in the directory, as `find` lists them. -/
def OldOf (name : Str) (d : TarDir) (old : List Str) : Prop := ∀ f, f ∈ old ↔ OfPort name f ∧ (mget d f).isSome = true

/-- The build was needed for a reason that is seen as long as an old package is there: the port has a new version or release, or all its packages are older than the Pkgfile. -/
def SeenReason (name main : Str) (pkgfile : Nat) (d : TarDir) : Prop :=
  mget d main = none ∨ ∀ f s t, mget d f = some (s, t) → OfPort name f → t ≤ pkgfile

theorem not_put_subs {main : Str} {old subs : List Str} (hs : main ∉ subs) (s : TarState) : DirOp.put main s ∉ old.map DirOp.rm ++ subs.flatMap packOps := by
  intro h
  rcases List.mem_append.mp h with h | h
  · obtain ⟨f, -, e⟩ := List.mem_map.mp h
    cases e
  · obtain ⟨f, hf, e⟩ := List.mem_flatMap.mp h
    simp only [packOps, List.mem_cons, List.not_mem_nil, or_false, DirOp.put.injEq] at e
    rcases e with ⟨rfl, -⟩ | ⟨rfl, -⟩ <;> exact hs hf

theorem take_early {α : Type} (a b : List α) (k : Nat) (hk : k ≤ a.length) : (a ++ b).take k = a.take k := by
  rw [List.take_append_of_le_length hk]

/-- **C223**: a build that is killed before its main package is packed is built again. Missing for the whole property: the time from there to the end (see below). -/
theorem C223_early_partial (scripts : Str → Bool) (clock : Nat → Nat) (name version release : Str) (hn : ∀ c ∈ name, c ≠ '.' ∧ c ≠ '*' ∧ c ≠ '[') (pkgfile : Nat)
    (d : TarDir) (old subs order : List Str) (hs : pkgFileName name none version release ∉ subs)
    (hr : SeenReason name (pkgFileName name none version release) pkgfile d) (k : Nat) (hk : k ≤ old.length + (subs.flatMap packOps).length) :
    mkRebuild false name version release (dates (killedDir clock (pkgBuildOps scripts old subs (pkgFileName name none version release) order) k d)) pkgfile = true := by
  rw [C98_rebuild_iff _ _ _ _ _ _ hn]
  generalize hm : pkgFileName name none version release = main at *
  have ho : OfPort name main := hm ▸ ofPort_main name version release
  right
  have hfrom : ∀ v, mget (killedDir clock (pkgBuildOps scripts old subs main order) k d) main = some v → mget d main = some v := by
    intro v hv
    unfold killedDir pkgBuildOps at hv
    rw [List.append_assoc, take_early _ _ _ (by simpa using hk)] at hv
    rcases runOps_from clock _ _ _ _ _ hv with h | h
    · exact h.1
    · exact absurd (List.mem_of_mem_take h.1) (not_put_subs hs _)
  cases h : mget (killedDir clock (pkgBuildOps scripts old subs main order) k d) main with
  | none => exact Or.inl (by rw [mget_dates, h]; rfl)
  | some v =>
    right
    have h' := hfrom v h
    rcases hr with hr | hr
    · rw [hr] at h'; cases h'
    · exact ⟨main, v.2, by rw [mget_dates, h]; rfl, ho, hr main v.1 v.2 h' ho⟩

/-- **C223**: once the old packages are gone, the next run builds exactly if the main package is not there: what state the packages are in does not count. -/
theorem C223_late (scripts : Str → Bool) (clock : Nat → Nat) (name version release : Str) (hn : ∀ c ∈ name, c ≠ '.' ∧ c ≠ '*' ∧ c ≠ '[') (pkgfile : Nat)
    (hc : ∀ i, pkgfile < clock i) (d : TarDir) (old subs order : List Str) (hold : OldOf name d old) (k : Nat) (hk : old.length ≤ k) :
    let d' := killedDir clock (pkgBuildOps scripts old subs (pkgFileName name none version release) order) k d
    mkRebuild false name version release (dates d') pkgfile = true ↔ mget d' (pkgFileName name none version release) = none := by
  intro d'
  rw [C98_rebuild_iff _ _ _ _ _ _ hn, mget_dates]
  have hnew : ∀ f v, OfPort name f → mget d' f = some v → pkgfile < v.2 := by
    intro f v ho hv
    rcases runOps_from clock _ _ _ _ _ hv with ⟨h1, h2⟩ | ⟨-, j, hj⟩
    · exfalso
      have hf : f ∈ old := (hold f).mpr ⟨ho, by rw [h1]; rfl⟩
      apply h2
      unfold pkgBuildOps
      rw [List.append_assoc, List.append_assoc, List.take_append]
      refine List.mem_append.mpr (Or.inl ?_)
      rw [List.take_of_length_le (by simpa using hk)]
      exact List.mem_map.mpr ⟨f, hf, rfl⟩
    · rw [hj]; exact hc j
  constructor
  · rintro (h | h | ⟨f, t, h, ho, hle⟩)
    · cases h
    · simpa using h
    · rw [mget_dates, Option.map_eq_some_iff] at h
      obtain ⟨v, hv, rfl⟩ := h
      exact absurd (hnew f v ho hv) (by omega)
  · intro h
    exact Or.inr (Or.inl (by rw [h]; rfl))

theorem metaOps_other (scripts : Str → Bool) (clock : Nat → Nat) (i : Nat) (d : TarDir) {f g : Str} (h : g ≠ f) : mget (runOps clock i (metaOps scripts g) d) f = mget d f := by
  unfold metaOps packOps
  split <;> simp [runOps, DirOp.run, mget_mset, mget_merase, h]

theorem metaOps_same (scripts : Str → Bool) (clock : Nat → Nat) (i : Nat) (d : TarDir) (f : Str) : ∃ t, mget (runOps clock i (metaOps scripts f) d) f = some (.whole, t) := by
  unfold metaOps packOps
  split <;> simp [runOps, DirOp.run, mget_mset]

theorem metas_whole (scripts : Str → Bool) (clock : Nat → Nat) (f : Str) (order : List Str) : ∀ (i : Nat) (d : TarDir), (f ∈ order ∨ ∃ t, mget d f = some (.whole, t)) →
    ∃ t, mget (runOps clock i (order.flatMap (metaOps scripts)) d) f = some (.whole, t) := by
  induction order with
  | nil => intro i d h; simpa [runOps] using h
  | cons g order ih =>
    intro i d h
    rw [List.flatMap_cons, runOps_append]
    apply ih
    by_cases e : g = f
    · subst e
      exact Or.inr (metaOps_same ..)
    · rw [metaOps_other _ _ _ _ e]
      rcases h with h | h
      · rcases List.mem_cons.mp h with h | h
        · exact absurd h.symm e
        · exact Or.inl h
      · exact Or.inr h

/-- **C223**: a build that was not killed has finished all its packages, and it is not built again. -/
theorem C223_done (scripts : Str → Bool) (clock : Nat → Nat) (name version release : Str) (hn : ∀ c ∈ name, c ≠ '.' ∧ c ≠ '*' ∧ c ≠ '[') (pkgfile : Nat)
    (hc : ∀ i, pkgfile < clock i) (d : TarDir) (old subs order : List Str) (hold : OldOf name d old)
    (hord : ∀ f, f ∈ order ↔ f ∈ subs ∨ f = pkgFileName name none version release) :
    let ops := pkgBuildOps scripts old subs (pkgFileName name none version release) order
    let d' := killedDir clock ops ops.length d
    (∀ f, f ∈ subs ∨ f = pkgFileName name none version release → ∃ t, mget d' f = some (.whole, t)) ∧
      mkRebuild false name version release (dates d') pkgfile = false := by
  intro ops d'
  have hw : ∀ f, f ∈ order → ∃ t, mget d' f = some (.whole, t) := by
    intro f hf
    show ∃ t, mget (runOps clock 0 (ops.take ops.length) d) f = _
    rw [List.take_length]
    show ∃ t, mget (runOps clock 0 (_ ++ order.flatMap (metaOps scripts)) d) f = _
    rw [runOps_append]
    exact metas_whole scripts clock f order _ _ (Or.inl hf)
  refine ⟨fun f hf => hw f ((hord f).mpr hf), ?_⟩
  have hlate := C223_late scripts clock name version release hn pkgfile hc d old subs order hold ops.length (by
    show old.length ≤ (pkgBuildOps ..).length
    unfold pkgBuildOps
    simp only [List.length_append, List.length_map]
    omega)
  rw [Bool.eq_false_iff]
  intro h
  have h2 := hlate.mp h
  obtain ⟨t, ht⟩ := hw _ ((hord _).mpr (Or.inr rfl))
  exact absurd (h2.symm.trans ht) (by simp)

/-- An example: a new version of `zlib`, with a sub-package; the Pkgfile is of the time 50. -/
def killClock (i : Nat) : Nat := 100 + i
def killOps : List DirOp :=
  pkgBuildOps (fun _ => false) ["zlib.cards-1.2-1".toList] ["zlib.devel.cards-1.3-1".toList] "zlib.cards-1.3-1".toList ["zlib.cards-1.3-1".toList, "zlib.devel.cards-1.3-1".toList]
def killStart : TarDir := [("zlib.cards-1.2-1".toList, .whole, 20), ("bzip2.cards-1-1".toList, .whole, 30)]

example : pkgFileName "zlib".toList none "1.3".toList "1".toList = "zlib.cards-1.3-1".toList := by decide
example : SeenReason "zlib".toList "zlib.cards-1.3-1".toList 50 killStart := Or.inl (by decide)
example : OldOf "zlib".toList killStart ["zlib.cards-1.2-1".toList] := by
  intro f
  rw [List.mem_singleton]
  constructor
  · rintro rfl
    exact ⟨⟨[], "1.2-1".toList, by decide⟩, by decide⟩
  · rintro ⟨⟨a, b, rfl⟩, h⟩
    rw [mget_isSome_iff] at h
    simp only [killStart, keys, List.map_cons, List.map_nil, List.mem_cons, List.not_mem_nil, or_false] at h
    rcases h with h | h
    · exact h
    · exact absurd (congrArg List.head? h) (by simp)

/-- Killed when the main package was packed: neither package has its description, and the next run says that they are up to date (and publishes them). -/
theorem C223_counterexample :
    let d := killedDir killClock killOps 5 killStart
    mget d "zlib.cards-1.3-1".toList = some (.bare, 104) ∧ mget d "zlib.devel.cards-1.3-1".toList = some (.bare, 102) ∧
      mkRebuild false "zlib".toList "1.3".toList "1".toList (dates d) 50 = false := by decide +kernel

/-- Killed while the main package is packed: not even its files are there. -/
theorem C223_counterexample_begun :
    let d := killedDir killClock killOps 4 killStart
    mget d "zlib.cards-1.3-1".toList = some (.part, 103) ∧ mkRebuild false "zlib".toList "1.3".toList "1".toList (dates d) 50 = false := by decide +kernel

/-- A forced build of a port that is up to date, killed while the old packages are removed: the sub-package is gone, and the next run builds nothing. -/
theorem C223_counterexample_force :
    let d := killedDir killClock (pkgBuildOps (fun _ => false) ["zlib.devel.cards-1.3-1".toList, "zlib.cards-1.3-1".toList] ["zlib.devel.cards-1.3-1".toList] "zlib.cards-1.3-1".toList []) 1
      [("zlib.cards-1.3-1".toList, .whole, 60), ("zlib.devel.cards-1.3-1".toList, .whole, 60)]
    mget d "zlib.devel.cards-1.3-1".toList = none ∧ mkRebuild false "zlib".toList "1.3".toList "1".toList (dates d) 50 = false := by decide +kernel

/-! ## C224: a killed update of the lists -/

theorem sedDelete_recs_append (name : Str) (rs : List FileRec) (h : ∀ r ∈ rs, BodyOk r.body) (rest : List Str) :
    sedDelete (atName name) false (recText rs ++ rest) = recText (rs.filter (fun r => !name.isPrefixOf r.file)) ++ sedDelete (atName name) false rest := by
  induction rs with
  | nil => rfl
  | cons r rs ih =>
    have ih := ih (fun x hx => h x (by simp [hx]))
    have hb := h r (by simp)
    have e : recText (r :: rs) ++ rest = ('@' :: r.file) :: (r.body ++ [] :: (recText rs ++ rest)) := by simp [recText, FileRec.lines]
    rw [e, sedDelete, atName_at]
    by_cases hp : name.isPrefixOf r.file = true
    · rw [if_pos hp, sedDelete_drop _ _ _ (fun hm => (hb [] hm).1 rfl), ih, List.filter_cons_of_neg (by simp [hp])]
    · have hp' : name.isPrefixOf r.file = false := Bool.eq_false_iff.mpr hp
      rw [if_neg hp, show r.body ++ [] :: (recText rs ++ rest) = (r.body ++ [[]]) ++ (recText rs ++ rest) by simp, sedDelete_keep, ih,
        List.filter_cons_of_pos (by simp [hp'])]
      · simp [recText, FileRec.lines]
      · intro l hl
        rcases List.mem_append.mp hl with hl | hl
        · exact atName_other (hb l hl).2
        · rcases List.mem_singleton.mp hl with rfl
          rfl

theorem sedDelete_true_all (p : Str → Bool) (ls : List Str) (h : [] ∉ ls) : sedDelete p true ls = [] := by
  induction ls with
  | nil => rfl
  | cons l ls ih =>
    rw [List.mem_cons, not_or] at h
    rw [sedDelete, if_neg (fun e => h.1 e.symm), ih h.2]

/-- Of the records of the port, whole or cut off, nothing is left. -/
theorem sedDelete_killed (name : Str) (rs : List FileRec) (h : ∀ r ∈ rs, BodyOk r.body ∧ name.isPrefixOf r.file = true) : ∀ k : Nat,
    sedDelete (atName name) false ((recText rs).take k) = [] := by
  induction rs with
  | nil => intro k; simp [recText, sedDelete]
  | cons r rs ih =>
    intro k
    obtain ⟨hb, hp⟩ := h r (by simp)
    have hne : [] ∉ r.body := fun hm => (hb [] hm).1 rfl
    have e : recText (r :: rs) = ('@' :: r.file) :: (r.body ++ [] :: recText rs) := by simp [recText, FileRec.lines]
    cases k with
    | zero => rfl
    | succ k =>
      rw [e, List.take_succ_cons, sedDelete, atName_at, if_pos hp, List.take_append]
      cases hk : k - r.body.length with
      | zero =>
        rw [List.take_zero, List.append_nil]
        exact sedDelete_true_all _ _ (fun hm => hne (List.mem_of_mem_take hm))
      | succ j =>
        rw [List.take_succ_cons, List.take_of_length_le (by omega), sedDelete_drop _ _ _ hne]
        exact ih (fun x hx => h x (by simp [hx])) j

theorem globPkgs_ok {name : Str} {dir : List BuiltPkg} (hdir : ∀ p ∈ dir, BodyOk p.info ∧ BodyOk p.files) :
    ∀ p ∈ globPkgs name dir, name.isPrefixOf p.file = true ∧ BodyOk (repoRecOf p).body ∧ BodyOk (filesRecOf p).body := by
  intro p hp
  have key : ∀ q : BuiltPkg, BodyOk q.info → BodyOk (repoRecOf q).body := by
    intro q hq l hl
    rcases List.mem_append.mp hl with hl | hl
    · exact hq l hl
    · rcases List.mem_cons.mp hl with rfl | hl
      · exact ⟨by simp, by simp⟩
      · rcases List.mem_singleton.mp hl with rfl
        exact ⟨by simp, by simp⟩
  unfold globPkgs at hp
  split at hp
  · rcases List.mem_singleton.mp hp with rfl
    refine ⟨List.isPrefixOf_iff_prefix.mpr (List.prefix_append ..), key _ (fun l hl => by cases hl), fun l hl => by cases hl⟩
  · obtain ⟨hm, hg⟩ := List.mem_filter.mp hp
    unfold globName at hg
    rw [Bool.and_eq_true] at hg
    exact ⟨hg.1, key p (hdir p hm).1, (hdir p hm).2⟩

/-- **C224**: after an update that was killed at any point, an update that is not killed leaves what it had left if the killed one had not been: with the packages there are then. -/
theorem C224_repeat (name : Str) (dir dir' : List BuiltPkg) (rs fs : List FileRec) (hr : ∀ r ∈ rs, BodyOk r.body) (hf : ∀ r ∈ fs, BodyOk r.body)
    (hdir : ∀ p ∈ dir, BodyOk p.info ∧ BodyOk p.files) (stage j k : Nat) :
    let killed := killedUpdate name dir (recText rs) (recText fs) stage j k
    updateRepoFile name dir' killed.1 killed.2 = updateRepoFile name dir' (recText rs) (recText fs) := by
  have hok := globPkgs_ok (name := name) hdir
  have key : ∀ (l : List FileRec), (∀ r ∈ l, BodyOk r.body) → ∀ (lines : BuiltPkg → List Str) (recOf : BuiltPkg → FileRec), (∀ p, (recOf p).file = p.file) →
      (∀ p ∈ globPkgs name dir, BodyOk (recOf p).body) → (globPkgs name dir).flatMap lines = recText ((globPkgs name dir).map recOf) → ∀ n,
      sedDelete (atName name) false (sedDelete (atName name) false (recText l) ++ killedLoop lines (globPkgs name dir) n) = sedDelete (atName name) false (recText l) := by
    intro l hl lines recOf hfile hbody hfl n
    have hl' : ∀ r ∈ l.filter (fun r => !name.isPrefixOf r.file), BodyOk r.body := fun r hm => hl r (List.mem_filter.mp hm).1
    rw [sedDelete_recs name l hl, sedDelete_recs_append name _ hl', killedLoop, hfl, sedDelete_killed, List.append_nil, List.filter_filter]
    · simp
    · intro r hm
      obtain ⟨p, hp, rfl⟩ := List.mem_map.mp hm
      exact ⟨hbody p hp, by rw [hfile]; exact (hok p hp).1⟩
  have twice : ∀ (l : List FileRec), (∀ r ∈ l, BodyOk r.body) →
      sedDelete (atName name) false (sedDelete (atName name) false (recText l)) = sedDelete (atName name) false (recText l) := by
    intro l hl
    have := key l hl repoLines repoRecOf (fun _ => rfl) (fun p hp => (hok p hp).2.1) (flatMap_repo _) 0
    simpa [killedLoop] using this
  intro killed
  show updateRepoFile name dir' (killedUpdate ..).1 (killedUpdate ..).2 = _
  unfold killedUpdate
  split
  · rfl
  split
  · unfold updateRepoFile
    rw [twice rs hr]
  · unfold updateRepoFile
    dsimp only
    rw [key rs hr repoLines repoRecOf (fun _ => rfl) (fun p hp => (hok p hp).2.1) (flatMap_repo _),
      key fs hf filesLines filesRecOf (fun _ => rfl) (fun p hp => (hok p hp).2.2) (flatMap_files _)]

/-- The lines written so far: whole records, and then lines of one record that is not ended. -/
theorem take_recText (rs : List FileRec) (h : ∀ r ∈ rs, BodyOk r.body) : ∀ k, ∃ m, ∃ tail, (recText rs).take k = recText (rs.take m) ++ tail ∧
    (tail = [] ∨ ∃ r ∈ rs, ∃ n, tail = ('@' :: r.file) :: r.body.take n) := by
  induction rs with
  | nil => intro k; exact ⟨0, [], by simp [recText], Or.inl rfl⟩
  | cons r rs ih =>
    intro k
    have hne : [] ∉ r.body := fun hm => (h r (by simp) [] hm).1 rfl
    have e : recText (r :: rs) = ('@' :: r.file) :: (r.body ++ [] :: recText rs) := by simp [recText, FileRec.lines]
    cases k with
    | zero => exact ⟨0, [], by simp [recText], Or.inl rfl⟩
    | succ k =>
      rw [e, List.take_succ_cons, List.take_append]
      cases hk : k - r.body.length with
      | zero =>
        refine ⟨0, ('@' :: r.file) :: r.body.take k, by simp [recText], Or.inr ⟨r, by simp, k, rfl⟩⟩
      | succ j =>
        obtain ⟨m, tail, h1, h2⟩ := ih (fun x hx => h x (by simp [hx])) j
        refine ⟨m + 1, tail, ?_, ?_⟩
        · rw [List.take_succ_cons, List.take_of_length_le (by omega : r.body.length ≤ k), h1, List.take_succ_cons]
          simp [recText, FileRec.lines]
        · rcases h2 with h2 | ⟨r', hr', n, h2⟩
          · exact Or.inl h2
          · exact Or.inr ⟨r', List.mem_cons_of_mem _ hr', n, h2⟩

/-- A line that can be read: `std::stoi` does not throw. -/
def LineReadable (l : Str) : Prop := l.head? = some 'r' → stoi10 (l.drop 1) ≠ none

theorem line_map (s : RepoSt) (p : Str) (hp : p ≠ []) (hr : LineReadable p) : ∃ s', s.line p = some s' ∧ s'.map = s.map := by
  unfold RepoSt.line
  split
  · split
    · exact ⟨_, rfl, rfl⟩
    · exact ⟨_, rfl, rfl⟩
  · split
    · rw [if_neg (fun h => hr h.1 h.2)]
      exact ⟨_, rfl, fld_map ..⟩
    · exact ⟨_, rfl, rfl⟩

theorem lines_map (ls : List Str) : ∀ (s : RepoSt), (∀ l ∈ ls, l ≠ [] ∧ LineReadable l) → ∃ s', ls.foldlM RepoSt.line s = some s' ∧ s'.map = s.map := by
  induction ls with
  | nil => intro s _; exact ⟨s, rfl, rfl⟩
  | cons l ls ih =>
    intro s h
    obtain ⟨s1, e1, m1⟩ := line_map s l (h l (by simp)).1 (h l (by simp)).2
    obtain ⟨s2, e2, m2⟩ := ih s1 (fun x hx => h x (by simp [hx]))
    refine ⟨s2, ?_, m2.trans m1⟩
    rw [List.foldlM_cons, e1]
    exact e2

/-- A record that is not ended is not seen by `cards`. -/
theorem parse_tail (init : RepoPkg) (cs : List Coll) (c : Coll) (ls tail : List Str) (h : ∀ l ∈ tail, l ≠ [] ∧ LineReadable l) :
    parseRepo init (cs ++ [{ c with repo := some (ls ++ tail) }]) = parseRepo init (cs ++ [{ c with repo := some ls }]) := by
  unfold parseRepo
  rw [List.foldlM_append, List.foldlM_append]
  cases cs.foldlM readColl (init, []) with
  | none => rfl
  | some s =>
    simp only [Option.bind_eq_bind, Option.bind_some, List.foldlM_cons, List.foldlM_nil]
    unfold readColl
    simp only [List.foldlM_append]
    cases hx : List.foldlM RepoSt.line
      { info := { s.1 with dirName := c.dir ++ '/' :: c.name, collection := c.name, origin := c.origin }, name := [], found := false, aliases := [], sets := [],
        conflicts := [], deps := [], map := s.2 } ls with
    | none => rfl
    | some r =>
      obtain ⟨r', e, hm⟩ := lines_map tail r h
      simp only [Option.bind_eq_bind, Option.bind_some, e, hm]
      rfl

/-- **C224**: what `cards` reads after an update that was killed in its loop, as the last collection: the records of the other ports, as they were, and those of some of the packages of the
port: whole ones. Missing for the whole property: the collections read after this one, and another port between (see below). -/
theorem C224_read_partial (name : Str) (dir : List BuiltPkg) (rs fs : List FileRec) (hr : ∀ r ∈ rs, BodyOk r.body) (hdir : ∀ p ∈ dir, BodyOk p.info ∧ BodyOk p.files)
    (hrel : ∀ p ∈ dir, ∀ l ∈ p.info, LineReadable l) (stage j k : Nat) (hst : 2 ≤ stage) (init : RepoPkg) (cs : List Coll) (c : Coll) :
    ∃ m, parseRepo init (cs ++ [{ c with repo := some (killedUpdate name dir (recText rs) (recText fs) stage j k).1 }]) =
      parseRepo init (cs ++ [{ c with repo := some (recText (rs.filter (fun r => !name.isPrefixOf r.file) ++ ((globPkgs name dir).map repoRecOf).take m)) }]) := by
  have hok := globPkgs_ok (name := name) hdir
  have hb : ∀ r ∈ (globPkgs name dir).map repoRecOf, BodyOk r.body := by
    intro r hm
    obtain ⟨p, hp, rfl⟩ := List.mem_map.mp hm
    exact (hok p hp).2.1
  have hread : ∀ r ∈ (globPkgs name dir).map repoRecOf, ∀ l ∈ r.body, LineReadable l := by
    intro r hm l hl
    obtain ⟨p, hp, rfl⟩ := List.mem_map.mp hm
    rcases List.mem_append.mp hl with hl | hl
    · unfold globPkgs at hp
      split at hp
      · rcases List.mem_singleton.mp hp with rfl
        cases hl
      · exact hrel p (List.mem_filter.mp hp).1 l hl
    · rcases List.mem_cons.mp hl with rfl | hl
      · intro h; simp at h
      · rcases List.mem_singleton.mp hl with rfl
        intro h; simp at h
  obtain ⟨m, tail, h1, h2⟩ := take_recText _ hb j
  refine ⟨m, ?_⟩
  unfold killedUpdate
  rw [if_neg (by omega), if_neg (by omega)]
  dsimp only
  rw [sedDelete_recs name rs hr, killedLoop, flatMap_repo, h1, ← List.append_assoc, ← recText_append]
  apply parse_tail
  intro l hl
  rcases h2 with rfl | ⟨r, hrm, n, rfl⟩
  · cases hl
  · rcases List.mem_cons.mp hl with rfl | hl
    · exact ⟨by simp, fun h => by simp at h⟩
    · have hl' := List.mem_of_mem_take hl
      exact ⟨(hb r hrm l hl').1, hread r hrm l hl'⟩

/-- An update for `gtk` killed in its second record, and what is read then. -/
example : (killedUpdate "gtk".toList xBuilt (recText [repoRecOf xBuilt[3]]) [] 2 7 0).1 =
    recText [repoRecOf xBuilt[3], repoRecOf xBuilt[0]] ++ ["@gtk.cards-4.0-1".toList] := by decide +kernel
example : (∀ p ∈ xBuilt, BodyOk p.info ∧ BodyOk p.files) ∧ ∀ p ∈ xBuilt, ∀ l ∈ p.info, LineReadable l := by
  unfold BodyOk LineReadable
  decide +kernel

/-- The update for `zlib` is killed, then `bzip2` is built, and then `zlib` again: the record of `bzip2` is gone. -/
theorem C224_counterexample_other :
    let bz : BuiltPkg := ⟨"bzip2.cards-1-1".toList, ["Nbzip2".toList], ["usr/bin/bzip2".toList], "5".toList, "ee".toList⟩
    let a := killedUpdate "zlib".toList [xBuilt[3]] [] [] 2 2 2
    let b := updateRepoFile "bzip2".toList [bz, xBuilt[3]] a.1 a.2
    let c := updateRepoFile "zlib".toList [bz, xBuilt[3]] b.1 b.2
    c.1 = recText [repoRecOf xBuilt[3]] ∧ c.2 = recText [filesRecOf xBuilt[3]] := by decide +kernel

/-! ## C225: an interrupted build and the packages it installed -/

/-- **C225**: what was there when the build began is still there, in its place. -/
theorem C225_kept (holds : Str → Option (Str × Nat)) (db : OnMachine) (files : Str → List (Str × Str)) (colls depends : List Str) (j : Nat) :
    db <+: afterInterrupt holds db files colls depends j := by
  obtain ⟨e, he, -⟩ := addDependencies_append holds ((getDependencies db files colls depends).take j) db
  exact ⟨e, he.symm⟩

/-- **C225**: what came is what one of the packages holds that the port asks for. -/
theorem C225_only_asked {holds : Str → Option (Str × Nat)} {db : OnMachine} {files : Str → List (Str × Str)} {colls depends : List Str} {j : Nat} {p : Str × Nat}
    (hp : p ∈ afterInterrupt holds db files colls depends j) :
    p ∈ db ∨ ∃ c ∈ colls, ∃ n ∈ depends, ∃ f ∈ files c, mkDepFile n f.2 = true ∧ builtAt db (getPackageName f.2) = 0 ∧ holds f.1 = some p := by
  obtain ⟨e, he, h⟩ := addDependencies_append holds ((getDependencies db files colls depends).take j) db
  unfold afterInterrupt at hp
  rw [he] at hp
  rcases List.mem_append.mp hp with hp | hp
  · exact Or.inl hp
  · obtain ⟨x, hx, hh⟩ := h p hp
    obtain ⟨c, hc, n, hn, f, hf, hm, h0, rfl⟩ := mem_getDependencies.mp (List.mem_of_mem_take hx)
    exact Or.inr ⟨c, hc, n, hn, f, hf, hm, h0, hh⟩

/-- **C225**: later builds, of this port or of others, leave what the interrupted one installed. -/
theorem C225_stays {holds : Str → Option (Str × Nat)} {db : OnMachine} {files : Str → List (Str × Str)} (colls depends colls' depends' : List Str) (j again : Nat)
    (hd : ∀ p ∈ db, p.2 ≠ 0) (hh : HonestFiles files holds) (hz : ∀ f p, holds f = some p → p.2 ≠ 0) :
    afterBuild holds (afterInterrupt holds db files colls depends j) files colls' depends' again = afterInterrupt holds db files colls depends j := by
  apply C187_as_before_partial _ _ _ _ hh
  intro p hp
  rcases C225_only_asked hp with h | ⟨-, -, -, -, f, -, -, -, h⟩
  · exact hd p h
  · exact hz _ p h

/-- **C225**: the status of an interrupted run is that of a failure, and the work directory is gone unless it is to be kept. -/
theorem C225_status (keepWork work : Bool) : (interrupted keepWork work).2 ≠ 0 ∧ ((interrupted keepWork work).1 = true ↔ keepWork = true ∧ work = true) := by
  cases keepWork <;> cases work <;> simp [interrupted]

/-- The build of a port that asks for `make`, interrupted when `make` is installed: it is there afterwards, and after the next build. -/
theorem C225_example :
    afterInterrupt c187Holds [] c187Files ["base".toList] ["make".toList] 1 ≠ [] ∧
      afterBuild c187Holds (afterInterrupt c187Holds [] c187Files ["base".toList] ["make".toList] 1) c187Files ["base".toList] ["make".toList] 0 ≠ [] := by decide +kernel

end Cards.Props
