import Verif.Model.PkgmkUnpack
import Verif.Props.PkgmkTar
import Verif.Props.PkgmkSrc
/-!
# C164, C165: the sources are unpacked
-/
namespace Cards.Props
open Cards Cards.Spec

/-- The path and all directories above it are directories. -/
def AllDirs (fs : Fs) (p : List Str) : Prop := ∀ d, d ≠ [] → d <+: p → ∃ m, fs.get d = some (.dir m)

theorem untar_frame (src : List Str) : ∀ (t : Tar) (fs : Fs), AllDirs fs src → (∀ m ∈ t, ∃ r, r ≠ [] ∧ m.1 = src ++ r) →
    ∀ k, ¬ Inside k src → (untar fs t).get k = fs.get k := by
  intro t
  induction t with
  | nil => intro fs _ _ k _; rfl
  | cons m t ih =>
    intro fs hd hm k hk
    obtain ⟨r, hr, he⟩ := hm m (by simp)
    have step : ∀ k, ¬ Inside k src → ((fs.mkParents m.1).set m.1 m.2).get k = fs.get k := by
      intro k hk
      have hne : m.1 ≠ k := by
        intro e
        cases r with
        | nil => exact hr rfl
        | cons c r => exact hk ⟨c, r, by rw [← e, he]⟩
      rw [Fs.get_set, if_neg hne, mkParents_get]
      split
      · rename_i hp
        obtain ⟨h1, h2, h3⟩ := mem_parents.mp hp
        have : k <+: src := by
          rw [he] at h2
          rcases List.prefix_or_prefix_of_prefix h2 (List.prefix_append src r) with h | h
          · exact h
          · obtain ⟨x, rfl⟩ := h
            cases x with
            | nil => simp
            | cons c x => exact absurd ⟨c, x, rfl⟩ hk
        obtain ⟨p, hp⟩ := hd k h1 this
        rw [hp]
        rfl
      · rfl
    show (untar ((fs.mkParents m.1).set m.1 m.2) t).get k = _
    rw [ih _ ?_ (fun m hm' => hm m (by simp [hm'])) k hk, step k hk]
    intro d h1 h2
    rw [step d ?_]
    · exact hd d h1 h2
    · rintro ⟨c, x, rfl⟩
      obtain ⟨y, hy⟩ := h2
      have := congrArg List.length hy
      simp at this

theorem extract_frame (c : UnpackCfg) (fs : Fs) (hd : AllDirs fs c.src) (file k : List Str) (hk : ¬ Inside k c.src) : (c.extract fs file).1.get k = fs.get k := by
  unfold UnpackCfg.extract
  split
  · split
    · refine untar_frame c.src _ fs hd ?_ k hk
      intro m hm
      obtain ⟨m', hm', rfl⟩ := List.mem_map.mp hm
      exact ⟨m'.1, by simpa using (List.mem_filter.mp hm').2, rfl⟩
    · rfl
  · rfl

theorem copy_frame (c : UnpackCfg) (fs : Fs) (file k : List Str) (hk : ¬ Inside k c.src) : (c.copy fs file).1.get k = fs.get k := by
  unfold UnpackCfg.copy
  split
  · split
    · rfl
    · rw [Fs.get_set, if_neg]
      intro e
      exact hk ⟨_, [], e.symm⟩
  · rfl

/-- The source is not fetched with git, and not named like an archive of git. -/
def NotGit (c : UnpackCfg) (s : Str) : Prop := endsIn gitExt (c.localText s) = false

theorem allDirs_frame {fs fs' : Fs} {p : List Str} (h : AllDirs fs p) (he : ∀ k, ¬ Inside k p → fs'.get k = fs.get k) : AllDirs fs' p := by
  intro d h1 h2
  rw [he d ?_]
  · exact h d h1 h2
  · rintro ⟨c, x, rfl⟩
    obtain ⟨y, hy⟩ := h2
    have := congrArg List.length hy
    simp at this

theorem one_frame (c : UnpackCfg) (st : Fs × List Str) (s : Str) (hg : c.ignoreUnpack = true ∨ NotGit c s) (hd : AllDirs st.1 c.src) :
    (c.one st s).1.2 = st.2 ∧ ∀ k, ¬ Inside k c.src → (c.one st s).1.1.get k = st.1.get k := by
  unfold UnpackCfg.one
  simp only
  split
  · rename_i hx
    rw [Bool.and_eq_true] at hx
    rcases hg with hg | hg
    · simp [hg] at hx
    · unfold NotGit at hg
      simp only [hg, Bool.false_eq_true, if_false]
      exact ⟨trivial, fun k hk => extract_frame c st.1 hd _ k hk⟩
  · exact ⟨rfl, fun k hk => copy_frame c st.1 _ k hk⟩

theorem rmTree_get (fs : Fs) (d k : List Str) : (fs.rmTree d).get k = if d <+: k then none else fs.get k := by
  unfold Fs.rmTree
  induction fs with
  | nil => simp [Fs.get]
  | cons e fs ih =>
    obtain ⟨x, v⟩ := e
    rw [List.filter_cons]
    by_cases hx : d <+: x
    · have : d.isPrefixOf x = true := List.isPrefixOf_iff_prefix.mpr hx
      simp only [this, Bool.not_true, Bool.false_eq_true, if_false]
      rw [ih]
      split
      · rfl
      · rename_i h
        have : x ≠ k := fun e => h (e ▸ hx)
        simp [Fs.get, this]
    · have : d.isPrefixOf x = false := Bool.eq_false_iff.mpr (fun h => hx (List.isPrefixOf_iff_prefix.mp h))
      simp only [this, Bool.not_false, if_true]
      by_cases hk : x = k
      · subst hk
        simp [Fs.get, hx]
      · simp only [Fs.get, hk, if_false]
        exact ih

theorem src_below (c : UnpackCfg) {k : List Str} (hk : ¬ c.work <+: k) : ¬ Inside k c.src := by
  rintro ⟨x, r, rfl⟩
  refine hk ?_
  unfold UnpackCfg.src
  rw [List.append_assoc]
  exact List.prefix_append _ _

/-- **C164, on success.** Then only what is below `$SRC` has changed. -/
theorem C164_frame (c : UnpackCfg) : ∀ (ss : List Str) (st : Fs × List Str), (∀ s ∈ ss, c.ignoreUnpack = true ∨ NotGit c s) → AllDirs st.1 c.src → (c.all ss st).2 = 0 →
    ∀ k, ¬ Inside k c.src → (c.all ss st).1.1.get k = st.1.get k
  | [], _, _, _, _, _, _ => rfl
  | s :: ss, st, hg, hd, h, k, hk => by
    obtain ⟨h1, h2⟩ := one_frame c st s (hg s (by simp)) hd
    revert h
    unfold UnpackCfg.all
    split
    · rename_i st' he
      intro h
      rw [he] at h1 h2
      rw [C164_frame c ss st' (fun s hs => hg s (by simp [hs])) (allDirs_frame hd h2) h k hk]
      exact h2 k hk
    · intro h
      cases h

/-- **C164, as far as it holds.** If none of the sources is one of git, then however unpacking ends, nothing outside of the work directory has changed. -/
theorem C164_only_work_partial (c : UnpackCfg) : ∀ (ss : List Str) (st : Fs × List Str), (∀ s ∈ ss, c.ignoreUnpack = true ∨ NotGit c s) → AllDirs st.1 c.src →
    ∀ k, ¬ c.work <+: k → (c.all ss st).1.1.get k = st.1.get k
  | [], _, _, _, _, _ => rfl
  | s :: ss, st, hg, hd, k, hk => by
    obtain ⟨h1, h2⟩ := one_frame c st s (hg s (by simp)) hd
    unfold UnpackCfg.all
    split
    · rename_i st' he
      rw [he] at h1 h2
      rw [C164_only_work_partial c ss st' (fun s hs => hg s (by simp [hs])) (allDirs_frame hd h2) k hk]
      exact h2 k (src_below c hk)
    · rename_i st' he
      rw [he] at h1 h2
      simp only
      split
      · exact h2 k (src_below c hk)
      · rw [rmTree_get, if_neg hk]
        exact h2 k (src_below c hk)

/-- The source is unpacked, not copied. -/
def Unpacked (c : UnpackCfg) (s : Str) : Prop := c.ignoreUnpack = false ∧ ∃ e ∈ archiveExts, e <:+ c.localText s

/-- The place of the source: in the directory of the sources under the name the address ends with, or in the port. -/
def placeOf (c : UnpackCfg) (port : List Str) (s : Str) : List Str :=
  match srcName (c.name ++ gitExt) s with
  | some f => c.sources ++ [f]
  | none => port ++ comps s

/-- The text whose ending decides: the name of the file a source is kept under, or the word of the Pkgfile. -/
theorem C165_text (c : UnpackCfg) (s : Str) : c.localText s = (srcName (c.name ++ gitExt) s).getD s := by
  unfold UnpackCfg.localText
  cases srcName (c.name ++ gitExt) s <;> rfl

/-- The source is there, and can be read if it is an archive to be unpacked. -/
def Usable (c : UnpackCfg) (fs : Fs) (port : List Str) (s : Str) : Prop :=
  ∃ d m, fs.get (placeOf c port s) = some (.file d m) ∧ (Unpacked c s → ∃ t, c.dec d = some t)

theorem unpacked_iff (c : UnpackCfg) (s : Str) : (archiveExts.any (fun e => endsIn e (c.localText s)) && !c.ignoreUnpack) = true ↔ Unpacked c s := by
  unfold Unpacked endsIn
  rw [Bool.and_eq_true, List.any_eq_true]
  simp only [List.isSuffixOf_iff_suffix, Bool.not_eq_true']
  exact and_comm

theorem one_ok (c : UnpackCfg) (fs : Fs) (port : List Str) (s : Str) (hg : c.ignoreUnpack = true ∨ NotGit c s) (hp : placeOf c port s ≠ [] ∧ ¬ Inside (placeOf c port s) c.src) :
    (c.one (fs, port) s).2 = true ↔ Usable c fs port s := by
  unfold UnpackCfg.one Usable
  have e : c.local port s = placeOf c port s := rfl
  simp only [e]
  generalize placeOf c port s = p at hp
  by_cases hu : Unpacked c s
  · rw [if_pos ((unpacked_iff c s).mpr hu)]
    have hng : endsIn gitExt (c.localText s) = false := by
      rcases hg with hg | hg
      · rw [hu.1] at hg
        cases hg
      · exact hg
    simp only [hng, Bool.false_eq_true, if_false, hu, true_imp_iff]
    unfold UnpackCfg.extract
    constructor
    · intro h
      split at h
      · rename_i d m hd
        split at h
        · rename_i t ht
          exact ⟨d, m, hd, t, ht⟩
        · simp at h
      · simp at h
    · rintro ⟨d, m, hd, t, ht⟩
      simp [hd, ht]
  · rw [if_neg (fun h => hu ((unpacked_iff c s).mp h))]
    simp only [hu, false_imp_iff, and_true]
    unfold UnpackCfg.copy
    obtain ⟨b, hb⟩ : ∃ b, p.getLast? = some b := by
      exact ⟨_, List.getLast?_eq_some_getLast hp.1⟩
    have hne : ∀ b, p ≠ c.src ++ [b] := fun b e => hp.2 ⟨b, [], e⟩
    constructor
    · intro h
      split at h
      · rename_i d m _ hd _
        exact ⟨d, m, hd⟩
      · simp at h
    · rintro ⟨d, m, hd⟩
      simp [hd, hb, hne b]

/-- **C165, as far as it holds.** If none of the sources is one of git and they lie outside of the work directory: unpacking succeeds exactly if each source is there and, when it is an archive, can be read; otherwise the
status is 5. The current directory stays that of the port. -/
theorem C165_exact_partial (c : UnpackCfg) (fs0 : Fs) (port : List Str) : ∀ (ss : List Str) (fs : Fs), (∀ s ∈ ss, c.ignoreUnpack = true ∨ NotGit c s) → AllDirs fs c.src →
    (∀ s ∈ ss, placeOf c port s ≠ [] ∧ ¬ Inside (placeOf c port s) c.src ∧ fs.get (placeOf c port s) = fs0.get (placeOf c port s)) →
    ((c.all ss (fs, port)).2 = 0 ↔ ∀ s ∈ ss, Usable c fs0 port s) ∧ ((c.all ss (fs, port)).2 = 0 ∨ (c.all ss (fs, port)).2 = 5) ∧ (c.all ss (fs, port)).1.2 = port
  | [], fs, _, _, _ => ⟨by simp [UnpackCfg.all], Or.inl rfl, rfl⟩
  | s :: ss, fs, hg, hd, hp => by
    obtain ⟨h1, h2⟩ := one_frame c (fs, port) s (hg s (by simp)) hd
    obtain ⟨p1, p2, p3⟩ := hp s (by simp)
    have hok := one_ok c fs port s (hg s (by simp)) ⟨p1, p2⟩
    have hu : Usable c fs port s ↔ Usable c fs0 port s := by unfold Usable; rw [p3]
    rw [hu] at hok
    have hall : c.all (s :: ss) (fs, port) = match c.one (fs, port) s with
        | (st', true) => c.all ss st'
        | (st', false) => (((if c.keepWork then st'.1 else st'.1.rmTree c.work), st'.2), 5) := rfl
    rcases ho : c.one (fs, port) s with ⟨⟨fs', cwd'⟩, b⟩
    rw [ho] at h1 h2 hok
    simp only at h1 h2 hok
    subst h1
    rw [hall]
    simp only [ho]
    cases b with
    | false =>
      refine ⟨?_, Or.inr rfl, rfl⟩
      constructor
      · intro h
        cases h
      · intro h
        have := hok.mpr (h s (by simp))
        cases this
    | true =>
      simp only
      obtain ⟨i1, i2, i3⟩ := C165_exact_partial c fs0 cwd' ss fs' (fun s hs => hg s (by simp [hs])) (allDirs_frame hd h2) (fun x hx => by
        obtain ⟨q1, q2, q3⟩ := hp x (by simp [hx])
        exact ⟨q1, q2, (h2 _ q2).trans q3⟩)
      refine ⟨?_, i2, i3⟩
      rw [i1]
      constructor
      · intro h x hx
        rcases List.mem_cons.mp hx with rfl | hx
        · exact hok.mp rfl
        · exact h x hx
      · intro h x hx
        exact h x (by simp [hx])

theorem all_append (c : UnpackCfg) (ss : List Str) (s : Str) : ∀ (st : Fs × List Str), (c.all (ss ++ [s]) st).2 = 0 →
    (c.all ss st).2 = 0 ∧ (c.one (c.all ss st).1 s).2 = true ∧ (c.all (ss ++ [s]) st).1 = (c.one (c.all ss st).1 s).1 := by
  induction ss with
  | nil =>
    intro st h
    simp only [List.nil_append, UnpackCfg.all] at h ⊢
    split at h
    · rename_i st' he
      rw [he]
      exact ⟨trivial, rfl, rfl⟩
    · cases h
  | cons x ss ih =>
    intro st h
    simp only [List.cons_append, UnpackCfg.all] at h ⊢
    split at h
    · rename_i st' he
      exact ih st' h
    · cases h

theorem untar_last (t : Tar) : ∀ (fs : Fs) (pre post : Tar) (m : List Str × Node), t = pre ++ m :: post → (∀ x ∈ post, x.1 ≠ m.1 ∧ (m.1 <+: x.1 → ∃ p, m.2 = .dir p)) →
    (untar fs t).get m.1 = some m.2 := by
  have keep : ∀ (post : Tar) (fs : Fs) (m : List Str × Node), fs.get m.1 = some m.2 → (∀ x ∈ post, x.1 ≠ m.1 ∧ (m.1 <+: x.1 → ∃ p, m.2 = .dir p)) → (untar fs post).get m.1 = some m.2 := by
    intro post
    induction post with
    | nil => intro fs m h _; exact h
    | cons x post ih =>
      intro fs m h hx
      refine ih ((fs.mkParents x.1).set x.1 x.2) m ?_ (fun y hy => hx y (by simp [hy]))
      obtain ⟨h1, h2⟩ := hx x (by simp)
      rw [Fs.get_set, if_neg h1, mkParents_get, h]
      split
      · rename_i hp
        obtain ⟨p, hp⟩ := h2 (mem_parents.mp hp).2.1
        rw [hp]
        rfl
      · rfl
  intro fs pre post m ht hx
  subst ht
  unfold untar
  rw [List.foldl_append, List.foldl_cons]
  exact keep post _ m (by rw [Fs.get_set, if_pos rfl]) hx

/-- **C165, what is there afterwards.** After success the last source is in `$SRC`: a file that is copied, under its name; of an archive every member behind which no other takes its place. -/
theorem C165_there (c : UnpackCfg) (ss : List Str) (s : Str) (fs : Fs) (port : List Str) (hg : ∀ x ∈ ss ++ [s], c.ignoreUnpack = true ∨ NotGit c x) (hd : AllDirs fs c.src)
    (hp : ∀ x ∈ ss ++ [s], placeOf c port x ≠ [] ∧ ¬ Inside (placeOf c port x) c.src) (h : (c.all (ss ++ [s]) (fs, port)).2 = 0) :
    ∃ d m, fs.get (placeOf c port s) = some (.file d m) ∧
      (¬ Unpacked c s → ∀ b, (placeOf c port s).getLast? = some b → (c.all (ss ++ [s]) (fs, port)).1.1.get (c.src ++ [b]) = some (.file d m)) ∧
      (Unpacked c s → ∃ t, c.dec d = some t ∧ ∀ pre k n post, t = pre ++ (k, n) :: post → k ≠ [] → (∀ x ∈ post, x.1 ≠ k ∧ (k <+: x.1 → ∃ p, n = .dir p)) →
        (c.all (ss ++ [s]) (fs, port)).1.1.get (c.src ++ k) = some n) := by
  obtain ⟨a1, a2, a3⟩ := all_append c ss s (fs, port) h
  have hcwd := (C165_exact_partial c fs port ss fs (fun x hx => hg x (by simp [hx])) hd (fun x hx => ⟨(hp x (by simp [hx])).1, (hp x (by simp [hx])).2, rfl⟩)).2.2
  have hfr := C164_frame c ss (fs, port) (fun x hx => hg x (by simp [hx])) hd a1 _ (hp s (by simp)).2
  rw [a3]
  generalize c.all ss (fs, port) = r at *
  obtain ⟨⟨fs1, cwd1⟩, n1⟩ := r
  simp only at hcwd hfr a2 ⊢
  subst hcwd
  obtain ⟨d, m, u1, u2⟩ := (one_ok c fs1 cwd1 s (hg s (by simp)) (hp s (by simp))).mp a2
  refine ⟨d, m, hfr ▸ u1, ?_, ?_⟩
  · intro hu b hb
    unfold UnpackCfg.one
    simp only
    rw [if_neg (fun h => hu ((unpacked_iff c s).mp h))]
    unfold UnpackCfg.copy
    have e : c.local cwd1 s = placeOf c cwd1 s := rfl
    have hne : placeOf c cwd1 s ≠ c.src ++ [b] := fun e => (hp s (by simp)).2 ⟨b, [], e⟩
    simp only [e, u1, hb, hne, if_false]
    rw [Fs.get_set, if_pos rfl]
  · intro hu
    obtain ⟨t, ht⟩ := u2 hu
    refine ⟨t, ht, ?_⟩
    intro pre k n post hk hkn hpost
    have hng : endsIn gitExt (c.localText s) = false := by
      rcases hg s (by simp) with hg | hg
      · rw [hu.1] at hg
        cases hg
      · exact hg
    unfold UnpackCfg.one
    simp only
    rw [if_pos ((unpacked_iff c s).mpr hu)]
    have e : c.local cwd1 s = placeOf c cwd1 s := rfl
    simp only [hng, Bool.false_eq_true, if_false, UnpackCfg.extract, e, u1, ht]
    refine untar_last _ fs1 ((pre.filter (fun m => m.1 ≠ [])).map (fun m => (c.src ++ m.1, m.2))) ((post.filter (fun m => m.1 ≠ [])).map (fun m => (c.src ++ m.1, m.2))) (c.src ++ k, n) ?_ ?_
    · rw [hk, List.filter_append, List.filter_cons]
      simp [hkn]
    · intro x hx
      obtain ⟨y, hy, rfl⟩ := List.mem_map.mp hx
      obtain ⟨h1, h2⟩ := hpost y (List.mem_filter.mp hy).1
      refine ⟨fun e => h1 (List.append_cancel_left e), fun hpre => h2 ?_⟩
      exact (List.prefix_append_right_inj c.src).mp hpre

/-! ## git -/

/-- A file of the port that is copied: no address, no slash in it, not named like an archive. -/
def PlainLocal (c : UnpackCfg) (s : Str) : Prop := srcName (c.name ++ gitExt) s = none ∧ comps s = [s] ∧ ¬ ∃ e ∈ archiveExts, e <:+ s

/-- **C165 is broken**, for every port: a file of the port that is listed behind a source of git — with a good archive — is looked for in `$SRC` and never found; the status is 5. -/
theorem C165_behind_git (c : UnpackCfg) (hi : c.ignoreUnpack = false) (st : Fs × List Str) (g x : Str) (rest : List Str)
    (hg : gitExt <:+ c.localText g) (hdir : (c.extract st.1 (c.local st.2 g)).1.isDirAt (c.src ++ [c.name]) = true) (hx : PlainLocal c x) :
    (c.all (g :: x :: rest) st).2 = 5 := by
  obtain ⟨x1, x2, x3⟩ := hx
  have hone : (c.one st g).1.2 = c.src := by
    unfold UnpackCfg.one
    simp only
    have hu : Unpacked c g := by
      refine ⟨hi, ".tar.xz".toList, by decide, ?_⟩
      refine List.IsSuffix.trans ?_ hg
      exact ⟨".git".toList, by decide⟩
    have he : endsIn gitExt (c.localText g) = true := List.isSuffixOf_iff_suffix.mpr hg
    rw [if_pos ((unpacked_iff c g).mpr hu), if_pos he]
    unfold UnpackCfg.gitStep
    simp only [hdir, if_true, List.dropLast_concat]
  unfold UnpackCfg.all
  split
  · rename_i st' he
    rw [he] at hone
    simp only at hone
    have hlocal : c.local st'.2 x = c.src ++ [x] := by
      unfold UnpackCfg.local
      rw [x1, hone, x2]
    have htext : c.localText x = x := by
      unfold UnpackCfg.localText
      rw [x1]
    have hno : (c.one st' x).2 = false := by
      unfold UnpackCfg.one
      simp only
      rw [if_neg, hlocal]
      · unfold UnpackCfg.copy
        simp only [List.getLast?_concat]
        split
        · rename_i b hb
          cases hb
          simp
        · rfl
      · intro h
        obtain ⟨_, e, he', hs⟩ := (unpacked_iff c x).mp h
        exact x3 ⟨e, he', htext ▸ hs⟩
    unfold UnpackCfg.all
    split
    · rename_i st2 h2
      rw [h2] at hno
      cases hno
    · rfl
  · rfl

/-- A port whose source is fetched with git: the archive is empty, because `git clone` has failed. -/
def gitCfg : UnpackCfg where
  name := "foo".toList
  version := "1".toList
  sources := ["s".toList]
  work := ["tmp".toList, "work".toList]
  ignoreUnpack := false
  keepWork := false
  dec := fun d => if d = "good".toList then some [(["foo".toList], .dir 0o755), (["foo".toList, "main.c".toList], .file [] 0o644)] else if d = [] then some [] else none
  enc := fun _ _ => "packed".toList
  git := fun _ fs => fs

/-- The tree: the collection with the port, the work directory, and the archive. -/
def gitFs (archive : String) : Fs :=
  [(["ports".toList], .dir 0o755), (["ports".toList, "foo".toList], .dir 0o755), (["ports".toList, "foo".toList, "Pkgfile".toList], .file "name=foo".toList 0o644),
   (["ports".toList, "foo".toList, "fix.patch".toList], .file [] 0o644), (["tmp".toList], .dir 0o755), (["tmp".toList, "work".toList], .dir 0o755),
   (["tmp".toList, "work".toList, "src".toList], .dir 0o755), (["s".toList], .dir 0o755), (["s".toList, "foo.git.tar.xz".toList], .file archive.toList 0o644)]

/-- **C164 is broken**: when `git clone` has failed and left an empty archive, unpacking succeeds: the directory of the port has been renamed, and the archive of the sources is one of the port. -/
theorem C164_port_renamed_counterexample :
    let r := gitCfg.all ["https://x/foo.git".toList] (gitFs "", ["ports".toList, "foo".toList])
    r.2 = 0 ∧ r.1.1.get ["ports".toList, "foo".toList, "Pkgfile".toList] = none ∧
      r.1.1.get ["ports".toList, "foo-1".toList, "Pkgfile".toList] = some (.file "name=foo".toList 0o644) ∧
      r.1.1.get ["s".toList, "foo.git.tar.xz".toList] = some (.file "packed".toList 0o644) := by decide +kernel

/-- **C165 is broken**, an example: the patch is in the port, and is not found behind the source of git; before it, it is. -/
theorem C165_behind_git_counterexample :
    (gitCfg.all ["https://x/foo.git".toList, "fix.patch".toList] (gitFs "good", ["ports".toList, "foo".toList])).2 = 5 ∧
    (gitCfg.all ["fix.patch".toList, "https://x/foo.git".toList] (gitFs "good", ["ports".toList, "foo".toList])).2 = 0 := by
  constructor <;> decide +kernel

-- The hypotheses of the theorems about ports without git can be met.
example : NotGit gitCfg "https://x/foo-1.tar.gz".toList ∧ NotGit gitCfg "fix.patch".toList := by unfold NotGit; constructor <;> decide +kernel
example : Usable gitCfg (gitFs "good") ["ports".toList, "foo".toList] "fix.patch".toList := by
  refine ⟨[], 0o644, by decide +kernel, ?_⟩
  rintro ⟨_, e, he, hs⟩
  exfalso
  revert hs
  rw [← List.isSuffixOf_iff_suffix]
  revert e
  decide +kernel

end Cards.Props
