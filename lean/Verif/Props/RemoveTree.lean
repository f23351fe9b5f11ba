import Verif.Props.RemoveCmd
import Verif.Lemmas.UpgCmd
import Verif.Props.UpgradeRun
/-!
# C53: what `cards remove` does to the file tree, and C03 for all commands
-/
namespace Cards.Props
open Cards Cards.Spec

/-- Scripts that never touch `k`. -/
def QuietAt (env : RmEnv) (k : List Str) : Prop := ∀ n, Leaves (fun fs => ((env.sc n).pre fs).1) k ∧ Leaves (env.sc n).post k

/-- What removals do, from one state to a later one: records disappear, none changes; of the tree only what removed packages list and no remaining one
lists may go, and every such file that is not a directory goes. -/
structure Shrink (quiet : List Str → Prop) (st st' : Sys) : Prop where
  sorted : MSorted st.disk
  sorted' : MSorted st'.disk
  sub : ∀ p ∈ st'.disk, p ∈ st.disk
  mono : ∀ k, quiet k → st'.fs.get k = st.fs.get k ∨ st'.fs.get k = none
  same : ∀ k, quiet k → (∀ n f, Owns st.disk n f → ¬ Installed st'.disk n → comps f = k → ∃ m, Owns st'.disk m f) → st'.fs.get k = st.fs.get k
  gone : ∀ f, quiet (comps f) → ¬ IsDirName f → (∃ n, Owns st.disk n f) → (∀ n, Owns st.disk n f → ¬ Installed st'.disk n) →
    (∀ m, st.fs.get (comps f) ≠ some (.dir m)) → st'.fs.get (comps f) = none

theorem shrink_refl (quiet : List Str → Prop) (st : Sys) (h : MSorted st.disk) : Shrink quiet st st where
  sorted := h
  sorted' := h
  sub := fun _ h => h
  mono := fun _ _ => Or.inl rfl
  same := fun _ _ _ => rfl
  gone := by
    rintro f _ _ ⟨n, i, hi, hf⟩ hall
    exact absurd ⟨i, hi⟩ (hall n ⟨i, hi, hf⟩)

theorem Shrink.owns {quiet : List Str → Prop} {st st' : Sys} (h : Shrink quiet st st') {n f : Str} :
    Owns st'.disk n f ↔ Owns st.disk n f ∧ Installed st'.disk n := by
  constructor
  · rintro ⟨i, hi, hf⟩; exact ⟨⟨i, h.sub _ hi, hf⟩, i, hi⟩
  · rintro ⟨⟨i, hi, hf⟩, j, hj⟩
    have h1 := (mget_iff_mem h.sorted).mpr hi
    have h2 := (mget_iff_mem h.sorted).mpr (h.sub _ hj)
    rw [h1] at h2
    simp only [Option.some.injEq] at h2
    subst h2
    exact ⟨i, hj, hf⟩

theorem shrink_trans {quiet : List Str → Prop} {a b c : Sys} (h1 : Shrink quiet a b) (h2 : Shrink quiet b c) : Shrink quiet a c where
  sorted := h1.sorted
  sorted' := h2.sorted'
  sub := fun p hp => h1.sub p (h2.sub p hp)
  mono := by
    intro k hk
    rcases h2.mono k hk with e | e
    · rw [e]; exact h1.mono k hk
    · exact Or.inr e
  same := by
    intro k hk hall
    have sub2 : ∀ n, Installed c.disk n → Installed b.disk n := fun n ⟨i, hi⟩ => ⟨i, h2.sub _ hi⟩
    rw [h2.same k hk, h1.same k hk]
    · intro n f ho hn he
      obtain ⟨m, i, hm, hf⟩ := hall n f ho (fun hc => hn (sub2 n hc)) he
      exact ⟨m, i, h2.sub _ hm, hf⟩
    · intro n f ho hn he
      exact hall n f (h1.owns.mp ho).1 hn he
  gone := by
    intro f hq hd hex hall hdir
    have sub2 : ∀ n, Installed c.disk n → Installed b.disk n := fun n ⟨i, hi⟩ => ⟨i, h2.sub _ hi⟩
    by_cases hb : ∃ m, Owns b.disk m f
    · apply h2.gone f hq hd hb
      · intro n hn; exact hall n (h1.owns.mp hn).1
      · intro m hm
        rcases h1.mono _ hq with e | e
        · rw [e] at hm; exact hdir m hm
        · rw [e] at hm; simp at hm
    · have := h1.gone f hq hd hex (fun n hn hi => hb ⟨n, h1.owns.mpr ⟨hn, hi⟩⟩) hdir
      rcases h2.mono _ hq with e | e
      · rw [e, this]
      · exact e

theorem mem_toDelete_synced {st : St} {gone names : List Str} (hs : Synced st gone names) {n f : Str} :
    f ∈ toDelete st.mem n [] ↔ OnlyOwner st.disk n f := by
  have hown : ∀ m, (∃ i, (m, i) ∈ st.mem ∧ f ∈ i.files) ↔ Owns st.disk m f := by
    intro m
    by_cases hg : m ∈ gone
    · constructor
      · rintro ⟨i, hi, hf⟩
        have := (mget_iff_mem hs.memSorted).mpr hi
        rw [hs.goneMem m hg] at this
        simp only [Option.some.injEq] at this
        rw [← this] at hf
        simp [blank] at hf
      · rintro ⟨i, hi, hf⟩
        have := (mget_iff_mem hs.diskSorted).mpr hi
        rw [hs.goneDisk m hg] at this
        simp at this
    · unfold Owns
      simp only [← mget_iff_mem hs.memSorted, ← mget_iff_mem hs.diskSorted, hs.same m hg]
  rw [mem_toDelete]
  unfold OnlyOwner
  simp only [mget_iff_mem hs.memSorted, List.not_mem_nil, not_false_eq_true, true_and]
  rw [hown]
  constructor
  · rintro ⟨h1, h2⟩
    refine ⟨h1, fun n' hn' => ?_⟩
    obtain ⟨i, hi, hf⟩ := (hown n').mpr hn'
    by_contra hne
    exact h2 (n', i) hi hne hf
  · rintro ⟨h1, h2⟩
    refine ⟨h1, ?_⟩
    rintro ⟨n', i⟩ hp hne hf
    exact hne (h2 n' ((hown n').mp ⟨i, hp, hf⟩))

/-- One removal, whatever its outcome. -/
theorem shrink_runRm {locked : Bool} {sc : RmScripts} {n : Str} {st : St} {gone names : List Str} (hs : Synced st gone names) :
    Shrink (fun k => Leaves (fun fs => (sc.pre fs).1) k ∧ Leaves sc.post k) st.sys (runRm locked sc n st).1.sys := by
  have hrefl := shrink_refl (fun k => Leaves (fun fs => (sc.pre fs).1) k ∧ Leaves sc.post k) st.sys hs.diskSorted
  unfold runRm
  split
  · exact hrefl
  · split
    · exact hrefl
    · simp only
      split
      · -- the script failed: the tree is as the script left it
        refine { hrefl with mono := ?_, same := ?_, gone := ?_ }
        · rintro k ⟨h1, _⟩; exact Or.inl (h1 st.fs)
        · rintro k ⟨h1, _⟩ _; exact h1 st.fs
        · rintro f _ _ ⟨m, i, hi, hf⟩ hall
          exact absurd ⟨i, hi⟩ (hall m ⟨i, hi, hf⟩)
      · have hfs : ∀ k, Leaves (fun fs => (sc.pre fs).1) k ∧ Leaves sc.post k →
            (sc.post ((sc.pre st.fs).1.removeRev (toDelete st.mem n []))).get k = ((sc.pre st.fs).1.removeRev (toDelete st.mem n [])).get k :=
          fun k hk => hk.2 _
        simp only [removeRecord, removeFiles]
        cases hd : mget st.disk n with
        | none =>
          have hempty : ∀ f, f ∉ toDelete st.mem n [] := by
            intro f hf
            obtain ⟨⟨i, hi, _⟩, _⟩ := (mem_toDelete_synced hs).mp hf
            rw [(mget_iff_mem hs.diskSorted).mpr hi] at hd
            simp at hd
          have hsame : ∀ k, Leaves (fun fs => (sc.pre fs).1) k ∧ Leaves sc.post k →
              (sc.post ((sc.pre st.fs).1.removeRev (toDelete st.mem n []))).get k = st.fs.get k := by
            intro k hk
            rw [hfs k hk, Fs.removeRev_ne _ _ _ (fun p hp => absurd hp (hempty p))]
            exact hk.1 st.fs
          refine { hrefl with mono := ?_, same := ?_, gone := ?_ }
          · intro k hk; exact Or.inl (hsame k hk)
          · intro k hk _; exact hsame k hk
          · rintro f _ _ ⟨m, i, hi, hf⟩ hall
            exact absurd ⟨i, hi⟩ (hall m ⟨i, hi, hf⟩)
        | some i =>
          refine ⟨hs.diskSorted, msorted_merase hs.diskSorted, fun p hp => (mem_merase.mp hp).1, ?_, ?_, ?_⟩
          · intro k hk
            show (sc.post ((sc.pre st.fs).1.removeRev (toDelete st.mem n []))).get k = st.fs.get k ∨
              (sc.post ((sc.pre st.fs).1.removeRev (toDelete st.mem n []))).get k = none
            rw [hfs k hk, ← hk.1 st.fs]
            exact Fs.removeRev_le _ _ _
          · intro k hk hall
            show (sc.post ((sc.pre st.fs).1.removeRev (toDelete st.mem n []))).get k = st.fs.get k
            rw [hfs k hk, Fs.removeRev_ne]
            · exact hk.1 st.fs
            · intro p hp he
              obtain ⟨o1, o2⟩ := (mem_toDelete_synced hs).mp hp
              obtain ⟨m, hm⟩ := hall n p o1 (by rintro ⟨j, hj⟩; exact (mem_merase.mp hj).2 rfl) he
              obtain ⟨h1, h2⟩ := owns_merase.mp hm
              exact h2 (o2 m h1)
          · intro f hk hdn hex hall hdir
            show (sc.post ((sc.pre st.fs).1.removeRev (toDelete st.mem n []))).get (comps f) = none
            rw [hfs _ hk]
            have honly : ∀ m, Owns st.disk m f → m = n := by
              intro m hm
              by_contra hne
              have hm' := hm
              obtain ⟨j, hj, _⟩ := hm'
              exact hall m hm ⟨j, mem_merase.mpr ⟨hj, hne⟩⟩
            apply removeRev_file_gone
            · rw [mem_toDelete_synced hs]
              obtain ⟨m, hm⟩ := hex
              have hmn := honly m hm
              rw [hmn] at hm
              exact ⟨hm, honly⟩
            · rw [Bool.eq_false_iff]; intro h; exact hdn (endsSlash_iff.mp h)
            · intro m
              rw [hk.1 st.fs]; exact hdir m

theorem shrink_weaken {q q' : List Str → Prop} {a b : Sys} (h : Shrink q a b) (hq : ∀ k, q' k → q k) : Shrink q' a b where
  sorted := h.sorted
  sorted' := h.sorted'
  sub := h.sub
  mono := fun k hk => h.mono k (hq k hk)
  same := fun k hk => h.same k (hq k hk)
  gone := fun f hk => h.gone f (hq _ hk)

theorem shrink_removeLoop (env : RmEnv) (names : List Str) (ps : List (Str × Str)) (st : St) (gone : List Str) (hs : Synced st gone names) :
    Shrink (QuietAt env) st.sys (removeLoop env ps st gone).1.1.sys := by
  induction ps generalizing st gone with
  | nil => exact shrink_refl _ _ hs.diskSorted
  | cons p ps ih =>
    obtain ⟨n, c⟩ := p
    simp only [removeLoop]
    split
    · exact ih st gone hs
    · split
      · exact shrink_refl _ _ hs.diskSorted
      · have h1 : Shrink (QuietAt env) st.sys (runRm (env.locked n) (env.sc n) n st).1.sys :=
          shrink_weaken (shrink_runRm hs) (fun k hk => hk n)
        split
        · rename_i st1 e hr; rw [hr] at h1; exact h1
        · rename_i st1 hr
          rw [hr] at h1
          exact shrink_trans h1 (ih st1 _ (synced_run hs hr))

theorem shrink_purgeLoop (env : RmEnv) (names : List Str) (ns : List Str) (st : St) (gone : List Str) (hs : Synced st gone names) :
    Shrink (QuietAt env) st.sys (purgeLoop env ns st).1.sys := by
  induction ns generalizing st gone with
  | nil => exact shrink_refl _ _ hs.diskSorted
  | cons n ns ih =>
    simp only [purgeLoop]
    have h1 : Shrink (QuietAt env) st.sys (runRm (env.locked n) (env.sc n) n st).1.sys :=
      shrink_weaken (shrink_runRm hs) (fun k hk => hk n)
    split
    · rename_i st1 e hr; rw [hr] at h1; exact h1
    · rename_i st1 hr
      rw [hr] at h1
      exact shrink_trans h1 (ih st1 _ (synced_run hs hr))

/-- All of `cards remove`, whatever its outcome. -/
theorem shrink_cardsRemove (env : RmEnv) (args : List Str) (s s' : Sys) (e : Option RmErr) (hw : WF s.disk)
    (h : cardsRemove env args s = some (s', e)) : Shrink (QuietAt env) s s' := by
  simp only [cardsRemove] at h
  have hl : (load s false).disk = s.disk ∧ (load s false).mem = s.disk ∧ (load s false).alias = loadAlias s.disk :=
    ⟨rfl, rfl, rfl⟩
  rw [hl.1, hl.2.1, hl.2.2] at h
  cases hsel : selectArgs s.disk s.disk args [] (loadAlias s.disk) with
  | error e =>
    rw [hsel] at h
    simp only [Option.some.injEq, Prod.mk.injEq] at h
    rw [← h.1]; exact shrink_refl _ _ hw.1
  | ok r =>
    obtain ⟨sel, al⟩ := r
    rw [hsel] at h
    simp only at h
    have hsync := synced_select hw hsel
    have h1 := shrink_removeLoop env (keys s.disk) (addGroups env.groups (St.nameExists { load s false with «alias» := al }) sel) _ [] hsync
    cases hloop : removeLoop env (addGroups env.groups (St.nameExists { load s false with «alias» := al }) sel) { load s false with «alias» := al } [] with
    | mk r e1 =>
      obtain ⟨st1, gone⟩ := r
      have hloop' : removeLoop env (addGroups env.groups (St.nameExists { fs := (load s false).fs, disk := s.disk, mem := s.disk, «alias» := al, dep := (load s false).dep }) sel) { fs := (load s false).fs, disk := s.disk, mem := s.disk, «alias» := al, dep := (load s false).dep } [] = ((st1, gone), e1) := hloop
      rw [hloop'] at h
      rw [hloop] at h1
      have h1' : Shrink (QuietAt env) s st1.sys := h1
      cases e1 with
      | some e1 =>
        simp only [Option.some.injEq, Prod.mk.injEq] at h
        rw [← h.1]; exact h1'
      | none =>
        simp only at h
        obtain ⟨a1, _, _⟩ := removeLoop_ok env (keys s.disk) _ _ st1 [] gone hsync hloop
        simp only [purge] at h
        cases hn : needed (depGraph (keys s.disk) st1.disk) (manual env gone st1.mem) with
        | none => rw [hn] at h; simp at h
        | some vis =>
          rw [hn] at h
          simp only [Option.some.injEq, Prod.mk.injEq] at h
          have h2 := shrink_purgeLoop env (keys s.disk) (obsoleteAll env.groups st1.nameExists (obsolete st1.mem vis)) st1 gone a1
          rw [← h.1]
          exact shrink_trans h1' h2

/-- **C53.** Whatever `cards remove` does and however it ends: records disappear, none changes, and a path of the tree that no removed package lists, or
that some remaining package lists too (spelled the same), is as before, provided the removal scripts leave it alone. -/
theorem C53_untouched (env : RmEnv) (args : List Str) (s s' : Sys) (e : Option RmErr) (hw : WF s.disk)
    (h : cardsRemove env args s = some (s', e)) :
    (∀ p ∈ s'.disk, p ∈ s.disk) ∧
    ∀ k, QuietAt env k → (∀ n f, Owns s.disk n f → ¬ Installed s'.disk n → comps f = k → ∃ m, Owns s'.disk m f) → s'.fs.get k = s.fs.get k :=
  let hs := shrink_cardsRemove env args s s' e hw h
  ⟨hs.sub, hs.same⟩

/-- **C53.** Nor does it leave anything behind: a file that is not a directory and that only removed packages listed is gone. -/
theorem C53_gone (env : RmEnv) (args : List Str) (s s' : Sys) (e : Option RmErr) (hw : WF s.disk)
    (h : cardsRemove env args s = some (s', e)) (f : Str) (hq : QuietAt env (comps f)) (hd : ¬ IsDirName f) (hex : ∃ n, Owns s.disk n f)
    (hall : ∀ n, Owns s.disk n f → ¬ Installed s'.disk n) (hdir : ∀ m, s.fs.get (comps f) ≠ some (.dir m)) : s'.fs.get (comps f) = none :=
  (shrink_cardsRemove env args s s' e hw h).gone f hq hd hex hall hdir

/-- A tree with a file shared by `app` and its dependency `lib`, and files of their own; `top` needs nothing. -/
def rtSys : Sys :=
  { fs := [(["usr".toList], .dir 0o755), (["usr".toList, "app".toList], .file [] 0o755), (["usr".toList, "both".toList], .file [] 0o644),
      (["usr".toList, "lib".toList], .file [] 0o644), (["usr".toList, "top".toList], .file [] 0o644)],
    disk := [("app".toList, { md := ["Rlib1700000000".toList], files := ["usr/".toList, "usr/app".toList, "usr/both".toList] }),
      ("lib".toList, { md := ["d1".toList], files := ["usr/".toList, "usr/both".toList, "usr/lib".toList] }),
      ("top".toList, { md := [], files := ["usr/".toList, "usr/top".toList] })] }

/-- `cards remove app` takes `app` and `lib` with all their files, and leaves the directory and the file of `top`. -/
example : WF rtSys.disk ∧ (∀ k, QuietAt (rEnv []) k) ∧
    (cardsRemove (rEnv []) ["app".toList] rtSys).map (fun r => (r.1.fs, r.1.disk, r.2)) =
      some ([(["usr".toList], .dir 0o755), (["usr".toList, "top".toList], .file [] 0o644)],
        [("top".toList, { md := [], files := ["usr/".toList, "usr/top".toList] })], none) := by
  refine ⟨⟨by decide, ?_⟩, fun k n => ⟨fun _ => rfl, fun _ => rfl⟩, rfl⟩
  intro p hp
  simp only [rtSys, List.mem_cons, List.not_mem_nil, or_false] at hp
  rcases hp with rfl | rfl | rfl <;> decide

/-! ## C03 for any commands one after the other -/

/-- Any command that changes the database, with whatever the environment decides for it. -/
inductive AnyCmd where
  | pkg (c : Cmd)
  | install (E : InstEnv) (opts : Opts) (args : List Str) (sess : RepoSess)
  | upgrade (E : InstEnv) (junk : Nat) (o : UpgOpts) (opts : Opts) (locked : Str → Bool) (sess : RepoSess)
  | remove (env : RmEnv) (args : List Str)

/-- The system after the command, whether it succeeds or not. -/
def AnyCmd.exec : AnyCmd → Sys → Sys
  | .pkg c, s => (c.exec s).1
  | .install E opts args sess, s => (cardsInstall E opts args s sess).1.st.sys
  | .upgrade E junk o opts locked sess, s => (cardsUpgrade E junk o opts locked s sess).1.st.sys
  | .remove env args, s => match cardsRemove env args s with | some r => r.1 | none => s

/-- **C03.** No non-directory is listed by two packages after any sequence of `pkgadd`, `pkgrm`, `cards install`, `cards upgrade` and `cards remove`, successful
or not, if that was so before; in particular from an empty database. -/
theorem C03_unique_owner_all_commands (cmds : List AnyCmd) (s : Sys) (hw : WF s.disk) (hu : UniqueOwner s.disk) :
    WF (cmds.foldl (fun s c => c.exec s) s).disk ∧ UniqueOwner (cmds.foldl (fun s c => c.exec s) s).disk := by
  induction cmds generalizing s with
  | nil => exact ⟨hw, hu⟩
  | cons c cmds ih =>
    have : WF (c.exec s).disk ∧ UniqueOwner (c.exec s).disk := by
      cases c with
      | pkg c => exact ⟨wf_exec c s hw, unique_exec c s hw hu⟩
      | install E opts args sess => exact C03_unique_owner_cards_install E opts args s sess hw hu
      | upgrade E junk o opts locked sess => exact C03_unique_owner_cards_upgrade E junk o opts locked s sess hw hu
      | remove env args =>
        simp only [AnyCmd.exec]
        cases h : cardsRemove env args s with
        | none => exact ⟨hw, hu⟩
        | some r =>
          have hs := shrink_cardsRemove env args s r.1 r.2 hw h
          exact ⟨⟨hs.sorted', fun p hp => hw.2 p (hs.sub p hp)⟩, unique_sub hs.sub hu⟩
    exact ih _ this.1 this.2

end Cards.Props
