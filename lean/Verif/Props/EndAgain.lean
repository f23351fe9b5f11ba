import Verif.Props.EndToEnd
import Verif.Props.Whole2
/-!
# C229: built, installed and removed again
-/
namespace Cards.Props
open Cards Cards.Spec

/-- Whatever is above something is there, as a directory. -/
def ShutAbove (t : List PEnt) : Prop := ∀ e ∈ t, ∀ k, k ≠ [] → k <+: e.path → k ≠ e.path → (⟨k, true⟩ : PEnt) ∈ t

theorem shut_filter {t : List PEnt} (h : ShutAbove t) (P : PEnt → Bool) (hP : ∀ e ∈ t, P e = true → ∀ k, k ≠ [] → k <+: e.path → k ≠ e.path → P ⟨k, true⟩ = true) :
    ShutAbove (t.filter P) := by
  intro e he k h1 h2 h3
  obtain ⟨he, hp⟩ := List.mem_filter.mp he
  exact List.mem_filter.mpr ⟨h e he k h1 h2 h3, hP e he hp k h1 h2 h3⟩

theorem shut_notUnder {t : List PEnt} (h : ShutAbove t) (d : List Str) : ShutAbove (t.filter (fun e => !e.under d)) := by
  refine shut_filter h _ (fun e _ hp k _ h2 _ => ?_)
  rw [Bool.not_eq_true', Bool.eq_false_iff] at hp ⊢
  intro hu
  exact hp (under_iff.mpr ((under_iff.mp hu).trans h2))

/-- The tree is in order, and nothing is in the archive of the main package yet. -/
def MainInv (s : PackSt) : Prop := ShutAbove s.tree ∧ s.get [] = []

theorem main_packDir {s : PackSt} (h : MainInv s) {a : Str} (ha : a ≠ []) (d : List Str) : MainInv (packDir a s d) := by
  unfold packDir
  split
  · refine ⟨h.1, ?_⟩
    rw [get_put, if_neg ha]
    exact h.2
  · exact h

theorem main_rmDir {s : PackSt} (h : MainInv s) (d : List Str) : MainInv (rmDir s d) := by
  unfold rmDir
  split
  · exact ⟨shut_notUnder h.1 d, h.2⟩
  · exact h

theorem main_packLibDir {s : PackSt} (h : MainInv s) {a : Str} (ha : a ≠ []) (d : List Str) : MainInv (packLibDir a s d) := by
  unfold packLibDir
  split
  · rename_i hi
    simp only
    generalize hk : (if isDirAt s.tree (d ++ ["pkgconfig".toList]) then s.tree.filter (·.under (d ++ ["pkgconfig".toList])) else []) = keep
    refine ⟨?_, ?_⟩
    · intro e he k h1 h2 h3
      simp only at he ⊢
      have hkeep : ∀ f ∈ keep, f ∈ s.tree ∧ d ++ ["pkgconfig".toList] <+: f.path := by
        intro f hf
        rw [← hk] at hf
        split at hf
        · exact ⟨(List.mem_filter.mp hf).1, under_iff.mp (List.mem_filter.mp hf).2⟩
        · cases hf
      have hout : ∀ k, (⟨k, true⟩ : PEnt) ∈ s.tree → ¬ d <+: k → (⟨k, true⟩ : PEnt) ∈ s.tree.filter (fun e => !e.under d) ++ (if keep = [] then [] else ⟨d, true⟩ :: keep) := by
        intro k hm hn
        refine List.mem_append_left _ (List.mem_filter.mpr ⟨hm, ?_⟩)
        rw [Bool.not_eq_true', Bool.eq_false_iff]
        exact fun hu => hn (under_iff.mp hu)
      -- what is above `d` is there
      have habove : ∀ k, k ≠ [] → k <+: d → k ≠ d → (⟨k, true⟩ : PEnt) ∈ s.tree := by
        intro k h1 h2 h3
        unfold isDirAt at hi
        obtain ⟨g, hg, hgg⟩ := List.any_eq_true.mp hi
        rw [Bool.and_eq_true] at hgg
        have hp := under_iff.mp hgg.1
        refine h.1 g hg k h1 (h2.trans hp) ?_
        intro he
        have l1 := h2.length_le
        have l2 := hp.length_le
        rw [← he] at l2
        exact h3 (h2.eq_of_length (Nat.le_antisymm l1 l2))
      rcases List.mem_append.mp he with he | he
      · obtain ⟨hm, hu⟩ := List.mem_filter.mp he
        rw [Bool.not_eq_true', Bool.eq_false_iff] at hu
        exact hout k (h.1 e hm k h1 h2 h3) (fun hd => hu (under_iff.mpr (hd.trans h2)))
      · by_cases hke : keep = []
        · rw [if_pos hke] at he; cases he
        · rw [if_neg hke] at he ⊢
          have hshort : k <+: d → k ≠ d → (⟨k, true⟩ : PEnt) ∈ s.tree.filter (fun e => !e.under d) ++ (⟨d, true⟩ :: keep) := by
            intro hkd hne
            have := hout k (habove k h1 hkd hne) (fun hd => hne (hkd.eq_of_length (Nat.le_antisymm hkd.length_le hd.length_le)))
            rw [if_neg hke] at this
            exact this
          rcases List.mem_cons.mp he with rfl | he
          · exact hshort h2 h3
          · obtain ⟨hm, hp⟩ := hkeep e he
            by_cases hdk : d ++ ["pkgconfig".toList] <+: k
            · refine List.mem_append_right _ (List.mem_cons_of_mem _ ?_)
              rw [← hk] at he ⊢
              split at he
              · rename_i hc
                rw [if_pos hc]
                exact List.mem_filter.mpr ⟨h.1 e hm k h1 h2 h3, under_iff.mpr hdk⟩
              · cases he
            · have hkp : k <+: d ++ ["pkgconfig".toList] := by
                rcases List.prefix_or_prefix_of_prefix h2 hp with h | h
                · exact h
                · exact absurd h hdk
              have hkd : k <+: d := by
                rcases List.prefix_concat_iff.mp hkp with h | h
                · exact absurd (h ▸ List.prefix_refl _) hdk
                · exact h
              by_cases hne : k = d
              · subst hne
                exact List.mem_append_right _ (List.mem_cons_self ..)
              · exact hshort hkd hne
    · show PackSt.get (s.put a _) [] = []
      rw [get_put, if_neg ha]
      exact h.2
  · exact h

theorem main_packGroup {s : PackSt} (h : MainInv s) (g : Str) : MainInv (packGroup s g) := by
  unfold packGroup
  have hr : ∀ (ds : List (List Str)) s, MainInv s → MainInv (ds.foldl rmDir s) := fun ds => foldl_inv MainInv rmDir (fun s x h => main_rmDir h x) ds
  have hp : g ≠ [] → ∀ (ds : List (List Str)) s, MainInv s → MainInv (ds.foldl (packDir g) s) :=
    fun hg ds => foldl_inv MainInv (packDir g) (fun s x h => main_packDir h hg x) ds
  have hne : ∀ {x : Str}, x ≠ [] → g = x → g ≠ [] := fun hx h => h ▸ hx
  split
  · next hg => exact hr _ _ (foldl_inv MainInv (packRmDir g) (fun s x h => main_rmDir (main_packDir h (hne (by decide) hg) x) x) _ _ h)
  split
  · next hg => exact hr _ _ (hp (hne (by decide) hg) _ _ h)
  split
  · next hg => exact hr _ _ (hp (hne (by decide) hg) _ _ h)
  split
  · next hg => exact hr _ _ (foldl_inv MainInv (packLibDir g) (fun s x h => main_packLibDir h (hne (by decide) hg) x) _ _ h)
  split
  · next hg =>
    have h1 := hr serviceDirs _ (hp (hne (by decide) hg) serviceDirs _ h)
    simp only
    generalize serviceDirs.foldl rmDir (serviceDirs.foldl (packDir g) s) = s1 at h1
    refine ⟨?_, h1.2⟩
    refine shut_filter h1.1 _ (fun e he _ k h1 h2 h3 => ?_)
    rw [Bool.not_eq_true', Bool.eq_false_iff]
    intro hc
    simp only [Bool.and_eq_true, decide_eq_true_eq, List.all_eq_true, Bool.or_eq_true, Bool.not_eq_true'] at hc
    rcases hc.2 e he with hn | hn
    · rw [under_iff.mpr h2] at hn; cases hn
    · exact h3 hn.symm
  · exact h

/-- The main package has, with everything, the directories above. -/
theorem split_main {groups locales : List Str} {keepLa : Bool} {t : List PEnt} {archs : List (Str × List PEnt)}
    (hrun : splitPackages groups locales keepLa t = some archs) (ht : ShutAbove t) (hl : [] ∉ locales) : ∃ es, mget archs [] = some es ∧ ShutAbove es := by
  unfold splitPackages at hrun
  simp only at hrun
  have h0 : MainInv ⟨t, []⟩ := ⟨ht, rfl⟩
  have h1 := foldl_inv MainInv packGroup (fun s x h => main_packGroup h x) groups _ h0
  have h2 := foldl_inv_mem MainInv packLocale locales (fun s x hx h => foldl_inv MainInv (packRmDir x)
    (fun s d h => main_rmDir (main_packDir h (fun he => hl (he ▸ hx)) d) d) _ _ h) _ h1
  have h3 : MainInv (dropLocales (locales.foldl packLocale (groups.foldl packGroup ⟨t, []⟩))) :=
    foldl_inv MainInv rmDir (fun s x h => main_rmDir h x) _ _ h2
  generalize dropLocales (locales.foldl packLocale (groups.foldl packGroup ⟨t, []⟩)) = s2 at hrun h3
  cases hc : checkBuild keepLa s2 with
  | none => rw [hc] at hrun; cases hrun
  | some s3 =>
    rw [hc] at hrun
    simp only at hrun
    split at hrun
    case isFalse => cases hrun
    have ha : archs = (packMain s3).arch := (Option.some.inj hrun).symm
    subst ha
    have h4 : MainInv s3 := by
      rw [checkBuild_some hc]
      split
      · exact h3
      · refine ⟨shut_filter h3.1 _ (fun e _ _ k _ _ _ => ?_), h3.2⟩
        simp [isLa]
    have hg : (packMain s3).get [] = s3.tree.filter (fun e => visible e.path) := by
      unfold packMain
      rw [get_put, if_pos rfl, h4.2, List.nil_append]
      refine List.filter_congr (fun e _ => ?_)
      cases e.path with
      | nil => rfl
      | cons x r => rfl
    have hs : mget (packMain s3).arch [] = some ((packMain s3).get []) := by
      unfold packMain PackSt.put PackSt.get
      simp [mget_mset]
    refine ⟨_, hs, ?_⟩
    rw [hg]
    refine shut_filter h4.1 _ (fun e _ hv k h1 h2 _ => ?_)
    obtain ⟨r, hr⟩ := h2
    cases k with
    | nil => exact absurd rfl h1
    | cons x k =>
      rw [← hr] at hv
      simpa [visible] using hv


theorem built_shut {pkg : Fs} (hb : Built pkg) : ShutAbove (treeOf pkg) := by
  intro e he k h1 h2 h3
  obtain ⟨q, hq, rfl⟩ := List.mem_map.mp he
  obtain ⟨p, hp⟩ := hb.tree q hq k h1 h2 h3
  exact List.mem_map.mpr ⟨_, hp, rfl⟩

/-- The main package, opened: it lists everything that is unpacked from it, with the directories above. -/
theorem main_whole {port : Str → Option Str} {md file : Str → Str} {groups locales : List Str} {keepLa : Bool} {pkg : Fs} {pkgs : List (Str × Tar)}
    (hb : Built pkg) (hl : [] ∉ locales) (hrun : buildPort port md file groups locales keepLa pkg = some pkgs) {n : Str} (hn : NamedIn (md (file [])) n)
    (hpack : ∃ k c p, (k, Node.file c p) ∈ pkg ∧ Dest groups locales keepLa k (some []))
    (machine root : Str) (pre : Fs → Fs × Bool) (post : Fs → Fs) :
    ∃ t' a, (file [], t') ∈ pkgs ∧ openTar machine root pre post t' = .ok a ∧ a.name = n ∧ a.pre = pre ∧ a.post = post ∧
      ∀ rx rules, (∀ g ∈ a.mtree, ¬ Excluded rx rules g) → Whole rx rules a := by
  obtain ⟨archs, hs, h1, _⟩ := build_at hb hrun
  obtain ⟨es, hes, hshut⟩ := split_main hs (built_shut hb) hl
  have ha := (mget_iff_mem (split_shown hs).1).mp hes
  obtain ⟨t', ht', hfin⟩ := h1 [] es ha
  have hmem := tarOf_mem hb hs ha
  have ho : ∀ m ∈ tarOf pkg es, OrdinaryPath m.1 := fun m hm => hb.names m (hmem m hm)
  have hv : ∀ m ∈ tarOf pkg es, visible m.1 = true := by
    intro m hm
    obtain ⟨x, hx, rfl⟩ := List.mem_map.mp hm
    exact (split_shown hs).2 [] es ha x hx
  have hne : tarOf pkg es ≠ [] := by
    obtain ⟨k, c, p, hk, hd⟩ := hpack
    obtain ⟨b1, b2, b3⟩ := built_alone hb hk
    have hcount := C93_split_exact_partial groups locales keepLa (treeOf pkg) archs hs ⟨k, false⟩ b1 rfl b2 (some []) hd []
    rw [if_pos rfl, hes] at hcount
    have hin : (⟨k, false⟩ : PEnt) ∈ es := List.count_pos_iff.mp (by simp only [Option.getD_some] at hcount; rw [hcount]; exact Nat.one_pos)
    exact List.ne_nil_of_mem (List.mem_map.mpr ⟨_, hin, rfl⟩)
  have habove : ∀ m ∈ tarOf pkg es, ∀ k, k ≠ [] → k <+: m.1 → k ≠ m.1 → ∃ q, (k, Node.dir q) ∈ tarOf pkg es := by
    intro m hm k h1 h2 h3
    obtain ⟨q, hq⟩ := hb.tree m (hmem m hm) k h1 h2 h3
    obtain ⟨x, hx, rfl⟩ := List.mem_map.mp hm
    refine ⟨q, List.mem_map.mpr ⟨⟨k, true⟩, hshut x hx k h1 h2 h3, ?_⟩⟩
    simp only
    rw [(get_iff_mem hb.once _ _).mpr hq]
    rfl
  obtain ⟨ls, l1, l2, l3⟩ := hn
  obtain ⟨a, a1, a2, _, a4, a5, a6, a7⟩ := open_finished hfin ho hne l1 l2 l3 machine root pre post
  refine ⟨t', a, ht', a1, a2, a6, a7, ?_⟩
  intro rx rules hex
  have hlisted : ∀ m ∈ tarOf pkg es, memberName m ∈ a.mtree ∧ (memberName m).head? ≠ some '.' := by
    intro m hm
    refine ⟨?_, (visible_member (ho m hm)).mp (hv m hm)⟩
    rw [a4]
    exact List.mem_map.mpr ⟨m, List.mem_append_left _ hm, rfl⟩
  refine ⟨good_finished hfin (tarOf_good hb hmem) hv ho a4 a5, ?_, ?_⟩
  · intro e he
    rw [a5, mem_tarEntries] at he
    obtain ⟨m, hm, hh, rfl⟩ := he
    obtain ⟨o1, o2⟩ := finished_members hfin ho hm
    have hvm : visible m.1 = true := by
      by_contra hc
      rw [Bool.not_eq_true] at hc
      exact hh (o2.mpr hc)
    rcases (hfin.files m.1 m.2 hvm).mp hm with h | ⟨hno, ⟨q, hq, q1, q2, q3⟩, _⟩
    · exact hlisted m h
    · exfalso
      obtain ⟨x, hx⟩ := habove q hq m.1 q1 q2 q3
      exact hno (List.mem_map.mpr ⟨_, hx, rfl⟩)
  · intro f hf d hd hin
    obtain ⟨hf1, hf2, _⟩ := hf
    rw [a4] at hf1
    obtain ⟨m, hm, rfl⟩ := List.mem_map.mp hf1
    rcases List.mem_append.mp hm with hm | hm
    · rw [(memberName_facts (ho m hm)).2.1] at hin
      obtain ⟨hp, hne⟩ := inside_iff.mp hin
      obtain ⟨q, hq⟩ := habove m hm d hd hp (Ne.symm hne)
      obtain ⟨g1, g2⟩ := hlisted _ hq
      exact ⟨_, ⟨g1, g2, hex _ g1⟩, (memberName_facts (ho _ hq)).2.2.1.mpr ⟨q, rfl⟩, (memberName_facts (ho _ hq)).2.1⟩
    · exfalso
      obtain ⟨s, hs', e1, _⟩ := scripts_mem hm
      have o : OrdinaryPath m.1 := by rw [e1]; exact ordinary_one (ordinary_script s hs')
      have hvis := (visible_member o).mpr hf2
      rw [e1, script_hidden s hs'] at hvis
      cases hvis

/-- **C229** for the main package of a port: built, installed (no rule excludes anything of it, no `--force`, scripts that do nothing) and removed, it leaves the
database as it was, every file with its content and permissions (unless the package had a directory in its place), and nothing where nothing was. -/
theorem C229_main_undone_partial (port : Str → Option Str) (md file : Str → Str) (groups locales : List Str) (keepLa : Bool) (pkg : Fs) (pkgs : List (Str × Tar))
    (hb : Built pkg) (hl : [] ∉ locales) (hrun : buildPort port md file groups locales keepLa pkg = some pkgs) (n : Str) (hn : NamedIn (md (file [])) n)
    (hpack : ∃ k c p, (k, Node.file c p) ∈ pkg ∧ Dest groups locales keepLa k (some []))
    (machine root : Str) (pre : Fs → Fs × Bool) (post : Fs → Fs) :
    ∃ t' a, (file [], t') ∈ pkgs ∧ openTar machine root pre post t' = .ok a ∧ a.name = n ∧
      ∀ env rules opts s sc, (∀ g ∈ a.mtree, ¬ Excluded env.rx rules g) → FreshInstall env rules opts a s → NoSideEffects sc → IsTree s.fs → AllThere s →
        (pkgrm false sc n (pkgadd env rules opts a s).1).2 = none ∧
        (∀ p, p ∈ (pkgrm false sc n (pkgadd env rules opts a s).1).1.disk ↔ p ∈ s.disk) ∧
        (∀ k c m, s.fs.get k = some (.file c m) → (∀ g ∈ a.mtree, IsDirName g → comps g ≠ k) →
          (pkgrm false sc n (pkgadd env rules opts a s).1).1.fs.get k = some (.file c m)) ∧
        ∀ k, k ≠ [] → s.fs.get k = none → (pkgrm false sc n (pkgadd env rules opts a s).1).1.fs.get k = none := by
  obtain ⟨t', a, h1, h2, rfl, _, _, h6⟩ := main_whole hb hl hrun hn hpack machine root pre post
  refine ⟨t', a, h1, h2, rfl, ?_⟩
  intro env rules opts s sc hex hf hq ht hall
  obtain ⟨r1, r2, r3, r4⟩ := C168_undone hf (h6 env.rx rules hex) ht hall hq
  exact ⟨r1, r2, fun k c m hk hcl => r3 k c m hk (fun g hg => hcl g hg.1), r4⟩

/-- **C229** for every package of a port: the removal succeeds, the database is the one before, and no file of the package is left where nothing was before. -/
theorem C229_files_gone_partial (port : Str → Option Str) (md file : Str → Str) (groups locales : List Str) (keepLa : Bool) (pkg : Fs) (pkgs : List (Str × Tar))
    (hb : Built pkg) (hrun : buildPort port md file groups locales keepLa pkg = some pkgs) (f : Str) (t' : Tar) (hf : (f, t') ∈ pkgs)
    (hsome : ∃ m ∈ t', (m.1.head?.bind List.head?) ≠ some '.') (n : Str) (hn : NamedIn (md f) n)
    (machine root : Str) (pre : Fs → Fs × Bool) (post : Fs → Fs) :
    ∃ a, openTar machine root pre post t' = .ok a ∧ a.name = n ∧
      ∀ env rules opts s sc, FreshInstall env rules opts a s → NoSideEffects sc → (∀ g ∈ a.mtree, ¬ Excluded env.rx rules g) →
        (pkgrm false sc n (pkgadd env rules opts a s).1).2 = none ∧
        (∀ p, p ∈ (pkgrm false sc n (pkgadd env rules opts a s).1).1.disk ↔ p ∈ s.disk) ∧
        ∀ k c p, s.fs.get k = none → (pkgrm false sc n (pkgadd env rules opts a s).1).1.fs.get k ≠ some (.file c p) := by
  obtain ⟨a, h1, rfl, _, _, h5, h6, h7⟩ := built_open hb hrun hf hsome hn machine root pre post
  refine ⟨a, h1, rfl, ?_⟩
  intro env rules opts s sc hfr hq hex
  refine ⟨(C79_database hfr hq).1, (C79_database hfr hq).2, ?_⟩
  intro k c p hnone
  rw [rm_fresh_fs hfr hq]
  intro hx
  have hx1 : (pkgadd env rules opts a s).1.fs.get k = some (.file c p) := by
    rcases Fs.removeRev_le (toDelete (pkgadd env rules opts a s).1.disk a.name []) (pkgadd env rules opts a s).1.fs k with h | h
    · rw [← h]; exact hx
    · rw [h] at hx; cases hx
  have hx2 := hx1
  rw [fresh_fs hfr] at hx2
  rcases extracted_src env _ a.entries s.fs k _ hx2 with h | ⟨e, he, hni, hck, hnode⟩ | ⟨e, he, _, _, hnode⟩
  · rw [hnone] at h; cases h
  · obtain ⟨m, hmt, hcase⟩ := h7 e he
    rcases hcase with ⟨hm, hmv, hlist, rfl⟩ | ⟨_, _, ⟨x, hd⟩, rfl⟩
    · simp only at hck hnode
      have ho := hb.names m hm
      have hnd : ¬ IsDirName (memberName m) := by
        intro h
        obtain ⟨q, hq'⟩ := (memberName_facts ho).2.2.1.mp h
        rw [hq'] at hnode; cases hnode
      have hsh : Ships env.rx rules a (memberName m) := ⟨hlist, (visible_member ho).mp hmv, hex _ hlist⟩
      have honly : OnlyOwner (pkgadd env rules opts a s).1.disk a.name (memberName m) := by
        refine ⟨(owned_iff hfr).mpr hsh, ?_⟩
        intro n' hn'
        by_contra hne
        have hn2 := (other_owns hfr hne).mp hn'
        refine fresh_free hfr hsh ⟨hnd, Or.inl ⟨n', hne, hn2⟩, ?_⟩
        intro hown
        obtain ⟨i, hi, _⟩ := (owns_iff_mget hfr.wf).mp hown
        rw [fresh_absent hfr] at hi
        cases hi
      have hdel := (mem_toDelete_iff (fresh_disk hfr).1).mpr honly
      have hgone := removeRev_file_gone (pkgadd env rules opts a s).1.fs _ _ hdel (by
        rw [Bool.eq_false_iff]; exact fun h => hnd (endsSlash_iff.mp h)) (by
        intro q hq'
        rw [hck, hx1] at hq'; cases hq')
      rw [hck, hx] at hgone
      cases hgone
    · simp only at hnode
      rw [hd] at hnode; cases hnode
  · cases hnode

/-! ### A case -/

/-- The scripts are there and do nothing; the machine is an x86_64, and the system is at /mnt. -/
def xOpened (t : Tar) : Option Archive :=
  match openTar "x86_64".toList "/mnt".toList (fun fs => (fs, true)) id t with
  | .ok a => some a
  | .error _ => none

/-- The package file of that name, opened. -/
def xPack (f : String) : Option Archive :=
  ((buildPort (fun _ => none) xBuiltMeta xBuiltFile ["devel".toList] [] false xBuiltFs).getD []).find? (·.1 = f.toList) |>.bind (xOpened ·.2)

/-- Nothing is installed. -/
def xNothing : Sys := { fs := [], disk := [] }

/-- The package `a` installed where nothing is, and what is there then; and then removed, and what is left. -/
def xInOut (a : Archive) : Bool × List (List Str) × Bool × Fs × List Str :=
  let s := pkgadd xEnv [] xOpts a xNothing
  let r := pkgrm false noScripts a.name s.1
  (s.2.isNone, s.1.fs.map (·.1), r.2.isNone, r.1.fs, r.1.disk.map (·.1))

set_option synthInstance.maxSize 2000 in
/-- The main package is installed and removed: nothing is left. -/
example : (xPack "tool.cards-1-1").map xInOut =
    some (true, [["usr".toList], ["usr".toList, "bin".toList], ["usr".toList, "bin".toList, "tool".toList]], true, [], []) := by
  decide +kernel

/-- The hypotheses of the two theorems hold for it: the port is built, `usr/bin/tool` goes to the main package, the description names it. -/
example : Built xBuiltFs ∧ [] ∉ ([] : List Str) ∧ NamedIn (xBuiltMeta (xBuiltFile [])) "tool".toList ∧
    (∃ k c p, (k, Node.file c p) ∈ xBuiltFs ∧ Dest ["devel".toList] [] false k (some [])) := by
  refine ⟨xBuilt_built, by simp, ?_, ["usr".toList, "bin".toList, "tool".toList], "elf".toList, 0o755, by decide +kernel, ?_⟩
  · have := xBuilt_describes (xBuiltFile []) (by decide +kernel)
    rwa [show getPackageName (xBuiltFile []) = "tool".toList by decide +kernel] at this
  · obtain ⟨o, ho⟩ := C93_dest_total ["devel".toList] [] false ["usr".toList, "bin".toList, "tool".toList] (by simp)
    have hs : splitPackages ["devel".toList] [] false (treeOf xBuiltFs) = some ((splitPackages ["devel".toList] [] false (treeOf xBuiltFs)).getD []) := by decide +kernel
    obtain ⟨b1, b2, _⟩ := built_alone xBuilt_built (k := ["usr".toList, "bin".toList, "tool".toList]) (c := "elf".toList) (p := 0o755) (by decide +kernel)
    have h := C93_split_exact_partial _ _ _ _ _ hs ⟨["usr".toList, "bin".toList, "tool".toList], false⟩ b1 rfl b2 o ho []
    by_cases he : o = some []
    · exact he ▸ ho
    · rw [if_neg he] at h
      exact absurd h (by decide +kernel)

set_option synthInstance.maxSize 2000 in
/-- **C229** is false for the other packages of a port: `tool.devel`, installed where nothing is, and removed, leaves the directory `usr`, which no package has. -/
theorem C229_subpackage_counterexample :
    (xPack "tool.devel.cards-1-1").map xInOut =
    some (true, [["usr".toList], ["usr".toList, "include".toList], ["usr".toList, "include".toList, "tool.h".toList]], true, [(["usr".toList], .dir 0o755)], []) := by
  decide +kernel

end Cards.Props
