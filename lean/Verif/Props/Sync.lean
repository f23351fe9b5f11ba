import Verif.Spec.Sync
import Verif.Lemmas.Fs
import Verif.Lemmas.Names
import Verif.Props.Inside
import Mathlib.Tactic.Common
/-!
# C68, C69: `cards sync`
-/
namespace Cards.Props
open Cards

/-! ### Where the files are -/

theorem comps_in_coll (d : DirUrl) (n : Str) : comps (collDir d ++ n) = d.place ++ comps n := by
  have : collDir d ++ n = (d.depot ++ "/".toList ++ d.collection) ++ '/' :: n := by
    unfold collDir; simp
  rw [this, splitSlash_append]
  rfl

theorem comps_pkey : comps publicKey = [".PKEY".toList] := by decide
theorem comps_repo : comps pkgRepoFile = [".REPO".toList] := by decide
theorem comps_files : comps pkgFilesFile = [".FILES".toList] := by decide
theorem comps_repo_zst : comps (pkgRepoFile ++ ".zst".toList) = [".REPO.zst".toList] := by decide
theorem comps_files_zst : comps (pkgFilesFile ++ ".zst".toList) = [".FILES.zst".toList] := by decide

/-- The files asked for. -/
theorem mem_syncFiles {arch version : Str} {dirs : List DirUrl} {f : SyncFile} : f ∈ syncFiles arch version dirs ↔
    ∃ d ∈ dirs, d.url ≠ [] ∧ (f = ⟨collUrl arch version d, collDir d, publicKey⟩ ∨ f = ⟨collUrl arch version d, collDir d, pkgRepoFile⟩ ∨
      f = ⟨collUrl arch version d, collDir d, pkgFilesFile⟩) := by
  unfold syncFiles syncFilesOf
  simp only [List.mem_flatMap]
  constructor
  · rintro ⟨d, hd, h⟩
    split at h
    · simp at h
    · rename_i hu
      exact ⟨d, hd, hu, by simpa using h⟩
  · rintro ⟨d, hd, hu, h⟩
    exact ⟨d, hd, by rw [if_neg hu]; simpa using h⟩

/-- Where the transferred file goes. -/
def _root_.Cards.SyncFile.down (f : SyncFile) : List Str := comps (f.dir ++ f.remote)
/-- Where the uncompressed list goes. -/
def _root_.Cards.SyncFile.list (f : SyncFile) : List Str := comps (f.dir ++ f.name)

theorem remote_pkey (u d : Str) : (SyncFile.mk u d publicKey).remote = publicKey := rfl
theorem remote_repo (u d : Str) : (SyncFile.mk u d pkgRepoFile).remote = pkgRepoFile ++ ".zst".toList := rfl
theorem remote_files (u d : Str) : (SyncFile.mk u d pkgFilesFile).remote = pkgFilesFile ++ ".zst".toList := rfl

/-! ### The writes -/

theorem foldl_writes_ne (ws : List Write) (fs : Fs) (k : List Str) (h : ∀ w ∈ ws, w.1 ≠ k) : (ws.foldl applyWrite fs).get k = fs.get k := by
  induction ws generalizing fs with
  | nil => rfl
  | cons w ws ih =>
    rw [List.foldl_cons, ih _ (fun x hx => h x (by simp [hx]))]
    unfold applyWrite
    rw [Fs.get_set, if_neg (h w (by simp))]

/-- What is downloaded goes to the places of the files. -/
theorem downloadWrites_mem (net : Nat → Str → Transfer) (l : List SyncFile) (i : Nat) (w : Write) (h : w ∈ (downloadWrites net i l).1) :
    ∃ f ∈ l, w.1 = f.down := by
  induction l generalizing i with
  | nil => simp [downloadWrites] at h
  | cons f l ih =>
    unfold downloadWrites at h
    have hr : ∀ c, w ∈ receive (comps (f.dir ++ f.remote)) c → w.1 = f.down := by
      intro c hc
      unfold receive at hc
      split at hc
      · simp at hc
      · simp only [List.mem_singleton] at hc; rw [hc]; rfl
    split at h
    · exact ⟨f, by simp, hr _ h⟩
    · simp only [List.mem_append] at h
      rcases h with h | h
      · exact ⟨f, by simp, hr _ h⟩
      · obtain ⟨g, hg, e⟩ := ih _ h
        exact ⟨g, by simp [hg], e⟩

/-- What is uncompressed goes to the lists, and is the content of a compressed file. -/
theorem uncompressWrite_mem {unz : Str → Option Str} {fs : Fs} {p : Str} {w : Write} (h : w ∈ uncompressWrite unz fs p) :
    w.1 = comps p ∧ ∃ z, HasContent fs (comps (p ++ ".zst".toList)) z ∧ unz z = some w.2 := by
  unfold uncompressWrite at h
  split at h
  · rename_i z m hz
    split at h
    · rename_i c hc
      simp only [List.mem_singleton] at h
      subst h
      exact ⟨rfl, z, ⟨m, hz⟩, hc⟩
    · simp at h
  · simp at h

theorem uncompressWrites_mem (unz : Str → Option Str) (l : List SyncFile) (fs : Fs) (w : Write) (h : w ∈ uncompressWrites unz fs l) :
    ∃ f ∈ l, f.name ≠ publicKey ∧ w.1 = f.list := by
  induction l generalizing fs with
  | nil => simp [uncompressWrites] at h
  | cons f l ih =>
    unfold uncompressWrites at h
    split at h
    · obtain ⟨g, hg, e⟩ := ih _ h
      exact ⟨g, by simp [hg], e⟩
    · rename_i hn
      simp only [List.mem_append] at h
      rcases h with h | h
      · exact ⟨f, by simp, hn, (uncompressWrite_mem h).1⟩
      · obtain ⟨g, hg, e⟩ := ih _ h
        exact ⟨g, by simp [hg], e⟩

/-- The places of a file of the collection `d`. -/
theorem down_of {arch version : Str} {dirs : List DirUrl} {f : SyncFile} (h : f ∈ syncFiles arch version dirs) :
    ∃ d ∈ dirs, d.url ≠ [] ∧ ∃ n ∈ [".PKEY".toList, ".REPO.zst".toList, ".FILES.zst".toList], f.down = d.place ++ [n] := by
  obtain ⟨d, hd, hu, h⟩ := mem_syncFiles.mp h
  refine ⟨d, hd, hu, ?_⟩
  unfold SyncFile.down
  rcases h with rfl | rfl | rfl
  · exact ⟨".PKEY".toList, by simp, by rw [remote_pkey, comps_in_coll, comps_pkey]⟩
  · exact ⟨".REPO.zst".toList, by simp, by rw [remote_repo, comps_in_coll, comps_repo_zst]⟩
  · exact ⟨".FILES.zst".toList, by simp, by rw [remote_files, comps_in_coll, comps_files_zst]⟩

theorem list_of {arch version : Str} {dirs : List DirUrl} {f : SyncFile} (h : f ∈ syncFiles arch version dirs) (hn : f.name ≠ publicKey) :
    ∃ d ∈ dirs, d.url ≠ [] ∧ ∃ n ∈ listNames, f.list = d.place ++ [n] := by
  obtain ⟨d, hd, hu, h⟩ := mem_syncFiles.mp h
  refine ⟨d, hd, hu, ?_⟩
  unfold SyncFile.list
  rcases h with rfl | rfl | rfl
  · exact absurd rfl hn
  · exact ⟨".REPO".toList, by simp [listNames], by rw [comps_in_coll, comps_repo]⟩
  · exact ⟨".FILES".toList, by simp [listNames], by rw [comps_in_coll, comps_files]⟩

theorem syncWrites_mem {net : Nat → Str → Transfer} {unz : Str → Option Str} {l : List SyncFile} {fs : Fs} {w : Write}
    (h : w ∈ (syncWrites net unz l fs).1) : ∃ f ∈ l, w.1 = f.down ∨ (f.name ≠ publicKey ∧ w.1 = f.list) := by
  unfold syncWrites at h
  simp only at h
  split at h
  · simp only [List.mem_append] at h
    rcases h with h | h
    · obtain ⟨f, hf, e⟩ := downloadWrites_mem _ _ _ _ h
      exact ⟨f, hf, .inl e⟩
    · obtain ⟨f, hf, hn, e⟩ := uncompressWrites_mem _ _ _ _ h
      exact ⟨f, hf, .inr ⟨hn, e⟩⟩
  · obtain ⟨f, hf, e⟩ := downloadWrites_mem _ _ _ _ h
    exact ⟨f, hf, .inl e⟩

theorem syncWrites_path {net : Nat → Str → Transfer} {unz : Str → Option Str} {arch version : Str} {dirs : List DirUrl} {fs : Fs} {w : Write}
    (h : w ∈ (syncWrites net unz (syncFiles arch version dirs) fs).1) : SyncPath dirs w.1 := by
  obtain ⟨f, hf, e | ⟨hn, e⟩⟩ := syncWrites_mem h
  · obtain ⟨d, hd, hu, n, hn, e'⟩ := down_of hf
    refine ⟨d, hd, hu, n, ?_, e.trans e'⟩
    simp only [List.mem_cons, List.not_mem_nil, or_false] at hn ⊢
    tauto
  · obtain ⟨d, hd, hu, n, hn, e'⟩ := list_of hf hn
    refine ⟨d, hd, hu, n, ?_, e.trans e'⟩
    simp only [listNames, List.mem_cons, List.not_mem_nil, or_false] at hn ⊢
    tauto

/-- **C68, nothing else**: whatever the server sends, and whether the command succeeds, fails or is stopped, only the keys and lists of the
collections that have an address change. -/
theorem C68_only_lists (root : Bool) (net : Nat → Str → Transfer) (unz : Str → Option Str) (arch version : Str) (dirs : List DirUrl) (fs : Fs)
    (k : List Str) (hk : ¬ SyncPath dirs k) :
    (cardsSync root net unz arch version dirs fs).1.get k = fs.get k ∧
    ∀ n m, (syncStopped net unz arch version dirs fs n m).get k = fs.get k := by
  have key : ∀ w ∈ (syncWrites net unz (syncFiles arch version dirs) fs).1, w.1 ≠ k := fun w hw e => hk (e ▸ syncWrites_path hw)
  constructor
  · unfold cardsSync
    cases root with
    | false => rfl
    | true => exact foldl_writes_ne _ _ _ key
  · intro n m
    unfold syncStopped
    have h1 : ∀ w ∈ (syncWrites net unz (syncFiles arch version dirs) fs).1.take n, w.1 ≠ k := fun w hw => key w (List.mem_of_mem_take hw)
    simp only
    split
    · rename_i m x hx
      unfold applyWrite
      rw [Fs.get_set, if_neg (key x (List.mem_of_getElem? hx))]
      exact foldl_writes_ne _ _ _ h1
    · exact foldl_writes_ne _ _ _ h1

/-- **C68**: an ordinary user changes nothing and is told so. -/
theorem C68_only_root (net : Nat → Str → Transfer) (unz : Str → Option Str) (arch version : Str) (dirs : List DirUrl) (fs : Fs) :
    cardsSync false net unz arch version dirs fs = (fs, false) := rfl

/-! ### What a successful run leaves -/

/-- After the downloads the last one to a place is there. -/
theorem downloaded (net : Nat → Str → Transfer) (l : List SyncFile) (i : Nat) (fs : Fs) (f : SyncFile) (hf : f ∈ l)
    (hown : ∀ g ∈ l, g.down = f.down → g = f) (hok : (downloadWrites net i l).2 = true) :
    ∃ j c, net j (f.url ++ f.remote) = .complete c ∧
      (c ≠ [] → ((downloadWrites net i l).1.foldl applyWrite fs).get f.down = some (.file c 0o644)) := by
  induction l generalizing i fs with
  | nil => simp at hf
  | cons g l ih =>
    unfold downloadWrites at hok ⊢
    cases hg : net i (g.url ++ g.remote) with
    | broken r => rw [hg] at hok; simp at hok
    | complete c =>
      rw [hg] at hok
      simp only at hok ⊢
      by_cases hl : f ∈ l
      · obtain ⟨j, c', h1, h2⟩ := ih (i + 1) ((receive (comps (g.dir ++ g.remote)) c).foldl applyWrite fs) hl
          (fun x hx => hown x (by simp [hx])) hok
        refine ⟨j, c', h1, fun hc => ?_⟩
        rw [List.foldl_append]
        exact h2 hc
      · have hfg : f = g := by simpa [hl] using hf
        subst hfg
        refine ⟨i, c, hg, fun hc => ?_⟩
        rw [List.foldl_append, foldl_writes_ne]
        · unfold receive
          rw [if_neg hc]
          simp only [List.foldl_cons, List.foldl_nil, applyWrite]
          rw [Fs.get_set, if_pos]
          rfl
        · intro w hw e
          obtain ⟨x, hx, e'⟩ := downloadWrites_mem _ _ _ _ hw
          have := hown x (by simp [hx]) (e'.symm.trans e)
          exact hl (this ▸ hx)

/-- After the uncompressing the lists are there. -/
theorem uncompressed (unz : Str → Option Str) (l : List SyncFile) (fs : Fs) (f : SyncFile) (hf : f ∈ l) (hn : f.name ≠ publicKey)
    (hown : ∀ g ∈ l, g.list = f.list → g = f) (hz : ∀ g ∈ l, g.name ≠ publicKey → g.list ≠ comps (f.dir ++ f.name ++ ".zst".toList))
    (z c : Str) (m : Nat) (hget : fs.get (comps (f.dir ++ f.name ++ ".zst".toList)) = some (.file z m)) (hc : unz z = some c) :
    ((uncompressWrites unz fs l).foldl applyWrite fs).get f.list = some (.file c 0o644) := by
  induction l generalizing fs with
  | nil => simp at hf
  | cons g l ih =>
    unfold uncompressWrites
    by_cases hg : g.name = publicKey
    · rw [if_pos hg]
      have hl : f ∈ l := by
        rcases List.mem_cons.mp hf with rfl | h
        · exact absurd hg hn
        · exact h
      exact ih fs hl (fun x hx => hown x (by simp [hx])) (fun x hx => hz x (by simp [hx])) hget
    · rw [if_neg hg]
      simp only
      rw [List.foldl_append]
      by_cases hl : f ∈ l
      · apply ih _ hl (fun x hx => hown x (by simp [hx])) (fun x hx => hz x (by simp [hx]))
        rw [foldl_writes_ne, hget]
        intro w hw e
        exact hz g (by simp) hg ((uncompressWrite_mem hw).1.symm.trans e)
      · have hfg : f = g := by simpa [hl] using hf
        subst hfg
        rw [foldl_writes_ne]
        · unfold uncompressWrite
          rw [hget]
          simp only [hc, List.foldl_cons, List.foldl_nil, applyWrite]
          rw [Fs.get_set, if_pos]
          rfl
        · intro w hw e
          obtain ⟨x, hx, -, e'⟩ := uncompressWrites_mem _ _ _ _ hw
          have := hown x (by simp [hx]) (e'.symm.trans e)
          exact hl (this ▸ hx)

/-- In a collection with its own directory no two files go to the same place. -/
theorem own_down {arch version : Str} {dirs : List DirUrl} {d : DirUrl} (ho : OwnPlace dirs d) {n : Str} {f g : SyncFile}
    (hf : f = ⟨collUrl arch version d, collDir d, n⟩) (hn : n = publicKey ∨ n = pkgRepoFile ∨ n = pkgFilesFile)
    (hg : g ∈ syncFiles arch version dirs) (e : g.down = f.down) : g = f := by
  obtain ⟨d', hd', hu', h⟩ := mem_syncFiles.mp hg
  subst hf
  unfold SyncFile.down at e
  have pe : ∀ x y : Str, d'.place ++ [x] = d.place ++ [y] → d' = d ∧ x = y := by
    intro x y e
    have := List.append_inj' e rfl
    exact ⟨ho d' hd' hu' this.1, by simpa using this.2⟩
  rcases h with rfl | rfl | rfl <;> rcases hn with rfl | rfl | rfl <;>
    simp only [remote_pkey, remote_repo, remote_files, comps_in_coll, comps_pkey, comps_repo_zst, comps_files_zst] at e <;>
    obtain ⟨rfl, h2⟩ := pe _ _ e <;> first | rfl | exact absurd h2 (by decide)

theorem own_list {arch version : Str} {dirs : List DirUrl} {d : DirUrl} (ho : OwnPlace dirs d) {n : Str} {f g : SyncFile}
    (hf : f = ⟨collUrl arch version d, collDir d, n⟩) (hn : n = pkgRepoFile ∨ n = pkgFilesFile)
    (hg : g ∈ syncFiles arch version dirs) (e : g.list = f.list) : g = f := by
  obtain ⟨d', hd', hu', h⟩ := mem_syncFiles.mp hg
  subst hf
  unfold SyncFile.list at e
  have pe : ∀ x y : Str, d'.place ++ [x] = d.place ++ [y] → d' = d ∧ x = y := by
    intro x y e
    have := List.append_inj' e rfl
    exact ⟨ho d' hd' hu' this.1, by simpa using this.2⟩
  rcases h with rfl | rfl | rfl <;> rcases hn with rfl | rfl <;>
    simp only [comps_in_coll, comps_pkey, comps_repo, comps_files] at e <;>
    obtain ⟨rfl, h2⟩ := pe _ _ e <;> first | rfl | exact absurd h2 (by decide)

/-- A list never is a compressed file or a key. -/
theorem list_not_down {arch version : Str} {dirs : List DirUrl} {f g : SyncFile} (hf : f ∈ syncFiles arch version dirs)
    (hg : g ∈ syncFiles arch version dirs) (hn : g.name ≠ publicKey) : g.list ≠ f.down := by
  obtain ⟨d, -, -, a, ha, e1⟩ := down_of hf
  obtain ⟨d', -, -, b, hb, e2⟩ := list_of hg hn
  rw [e1, e2]
  intro e
  have := (List.append_inj' e rfl).2
  simp only [List.cons.injEq, and_true] at this
  subst this
  simp only [listNames, List.mem_cons, List.not_mem_nil, or_false] at ha hb
  rcases ha with rfl | rfl | rfl <;> rcases hb with h | h <;> exact absurd h (by decide)

theorem sync_ok {net : Nat → Str → Transfer} {unz : Str → Option Str} {arch version : Str} {dirs : List DirUrl} {fs fs' : Fs}
    (h : cardsSync true net unz arch version dirs fs = (fs', true)) :
    (downloadWrites net 0 (syncFiles arch version dirs)).2 = true ∧
    fs' = (uncompressWrites unz ((downloadWrites net 0 (syncFiles arch version dirs)).1.foldl applyWrite fs) (syncFiles arch version dirs)).foldl applyWrite
      ((downloadWrites net 0 (syncFiles arch version dirs)).1.foldl applyWrite fs) := by
  unfold cardsSync syncWrites at h
  simp only [Bool.not_true, Bool.false_eq_true, if_false] at h
  split at h
  · rename_i hd
    injection h with h1 h2
    exact ⟨hd, by rw [← h1, List.foldl_append]⟩
  · injection h with h1 h2
    cases h2

/-- A list of a collection after a successful run. -/
theorem synced_list {net : Nat → Str → Transfer} {unz : Str → Option Str} {arch version : Str} {dirs : List DirUrl} {fs fs' : Fs}
    (h : cardsSync true net unz arch version dirs fs = (fs', true)) {d : DirUrl} (hd : d ∈ dirs) (hu : d.url ≠ []) (ho : OwnPlace dirs d)
    (n : Str) (hn : n = pkgRepoFile ∨ n = pkgFilesFile) :
    ∃ i z, net i (d.address arch version (n ++ ".zst".toList)) = .complete z ∧
      (z ≠ [] → ∀ c, unz z = some c → HasContent fs' (d.place ++ [n]) c) := by
  obtain ⟨hok, hfs⟩ := sync_ok h
  generalize hf : SyncFile.mk (collUrl arch version d) (collDir d) n = f
  have hmem : f ∈ syncFiles arch version dirs := mem_syncFiles.mpr ⟨d, hd, hu, by
    rw [← hf]; rcases hn with rfl | rfl
    · exact .inr (.inl rfl)
    · exact .inr (.inr rfl)⟩
  have hne : f.name ≠ publicKey := by
    rw [← hf]; show n ≠ publicKey; rcases hn with rfl | rfl <;> decide
  have hrem : f.remote = n ++ ".zst".toList := by rw [← hf]; rcases hn with rfl | rfl <;> rfl
  have hdown : comps (f.dir ++ f.name ++ ".zst".toList) = f.down := by
    unfold SyncFile.down; rw [hrem, List.append_assoc, ← hf]
  have hlist : f.list = d.place ++ [n] := by
    rw [← hf]
    unfold SyncFile.list
    rw [comps_in_coll]
    rcases hn with rfl | rfl
    · rw [comps_repo]; rfl
    · rw [comps_files]; rfl
  obtain ⟨i, z, h1, h2⟩ := downloaded net _ 0 fs f hmem
    (fun g hg e => own_down ho hf.symm (.inr hn) hg e) hok
  refine ⟨i, z, ?_, fun hz c hc => ⟨0o644, ?_⟩⟩
  · have : f.url ++ f.remote = d.address arch version (n ++ ".zst".toList) := by
      rw [hrem, ← hf]; unfold DirUrl.address collUrl; rfl
    rw [← this]; exact h1
  · rw [hfs, ← hlist]
    exact uncompressed unz _ _ f hmem hne (fun g hg e => own_list ho hf.symm hn hg e)
      (fun g hg hgn => by rw [hdown]; exact list_not_down hmem hg hgn) z c 0o644 (by rw [hdown]; exact h2 hz) hc

/-- **C68, part that holds**: after a successful `cards sync`, a collection that has its own directory has the key the server sent, and both its lists say
what the compressed lists say that the server sent - provided these were not empty and can be uncompressed (see the counterexamples). -/
theorem C68_synced_partial (net : Nat → Str → Transfer) (unz : Str → Option Str) (arch version : Str) (dirs : List DirUrl) (fs fs' : Fs)
    (h : cardsSync true net unz arch version dirs fs = (fs', true)) (d : DirUrl) (hd : d ∈ dirs) (hu : d.url ≠ []) (ho : OwnPlace dirs d) :
    (∃ i c, net i (d.address arch version "/.PKEY".toList) = .complete c ∧ (c ≠ [] → HasContent fs' (d.place ++ [".PKEY".toList]) c)) ∧
    (∃ i z, net i (d.address arch version ".REPO.zst".toList) = .complete z ∧
      (z ≠ [] → ∀ c, unz z = some c → HasContent fs' (d.place ++ [".REPO".toList]) c)) ∧
    (∃ i z, net i (d.address arch version ".FILES.zst".toList) = .complete z ∧
      (z ≠ [] → ∀ c, unz z = some c → HasContent fs' (d.place ++ [".FILES".toList]) c)) := by
  refine ⟨?_, synced_list h hd hu ho pkgRepoFile (.inl rfl), synced_list h hd hu ho pkgFilesFile (.inr rfl)⟩
  obtain ⟨hok, hfs⟩ := sync_ok h
  have hmem : (⟨collUrl arch version d, collDir d, publicKey⟩ : SyncFile) ∈ syncFiles arch version dirs := mem_syncFiles.mpr ⟨d, hd, hu, .inl rfl⟩
  obtain ⟨i, c, h1, h2⟩ := downloaded net _ 0 fs _ hmem (fun g hg e => own_down ho rfl (.inl rfl) hg e) hok
  refine ⟨i, c, h1, fun hc => ⟨0o644, ?_⟩⟩
  rw [hfs, foldl_writes_ne, ← h2 hc]
  · unfold SyncFile.down
    rw [remote_pkey, comps_in_coll, comps_pkey]
  · intro w hw e
    obtain ⟨g, hg, hgn, e'⟩ := uncompressWrites_mem _ _ _ _ hw
    apply list_not_down hmem hg hgn
    rw [← e', e]
    unfold SyncFile.down
    rw [remote_pkey, comps_in_coll, comps_pkey]

/-- The downloads succeed exactly when every transfer does. -/
theorem downloadWrites_ok (net : Nat → Str → Transfer) (l : List SyncFile) (i : Nat) :
    (downloadWrites net i l).2 = true ↔ ∀ j f, l[j]? = some f → ∃ c, net (i + j) (f.url ++ f.remote) = .complete c := by
  induction l generalizing i with
  | nil => simp [downloadWrites]
  | cons f l ih =>
    unfold downloadWrites
    cases hf : net i (f.url ++ f.remote) with
    | broken r =>
      simp only [Bool.false_eq_true, false_iff]
      intro h
      obtain ⟨c, hc⟩ := h 0 f rfl
      rw [Nat.add_zero, hf] at hc
      cases hc
    | complete c =>
      simp only [ih]
      constructor
      · intro h j g hg
        cases j with
        | zero =>
          simp only [List.getElem?_cons_zero, Option.some.injEq] at hg
          subst hg
          exact ⟨c, hf⟩
        | succ j =>
          rw [List.getElem?_cons_succ] at hg
          have := h j g hg
          rwa [show i + 1 + j = i + (j + 1) by omega] at this
      · intro h j g hg
        have := h (j + 1) g (by rw [List.getElem?_cons_succ]; exact hg)
        rwa [show i + (j + 1) = i + 1 + j by omega] at this

/-- **C68, success**: the command fails only when a transfer fails. -/
theorem C68_succeeds (net : Nat → Str → Transfer) (unz : Str → Option Str) (arch version : Str) (dirs : List DirUrl) (fs : Fs)
    (h : ∀ i a, ∃ c, net i a = .complete c) : (cardsSync true net unz arch version dirs fs).2 = true := by
  unfold cardsSync syncWrites
  have := (downloadWrites_ok net (syncFiles arch version dirs) 0).mpr (fun j f _ => h _ _)
  simp [this]

/-- **C68, failure is reported**: when no transfer of a file of a collection succeeds, neither does the command. -/
theorem C68_failure_reported (net : Nat → Str → Transfer) (unz : Str → Option Str) (arch version : Str) (dirs : List DirUrl) (fs : Fs)
    (d : DirUrl) (hd : d ∈ dirs) (hu : d.url ≠ []) (n : Str) (hn : n = "/.PKEY".toList ∨ n = ".REPO.zst".toList ∨ n = ".FILES.zst".toList)
    (hb : ∀ i, ∃ r, net i (d.address arch version n) = .broken r) : (cardsSync true net unz arch version dirs fs).2 = false := by
  cases hs : (cardsSync true net unz arch version dirs fs).2 with
  | false => rfl
  | true =>
    exfalso
    obtain ⟨hok, -⟩ := sync_ok (fs' := (cardsSync true net unz arch version dirs fs).1) (Prod.ext rfl hs)
    rw [downloadWrites_ok] at hok
    have : ∃ f ∈ syncFiles arch version dirs, f.url ++ f.remote = d.address arch version n := by
      rcases hn with rfl | rfl | rfl
      · exact ⟨_, mem_syncFiles.mpr ⟨d, hd, hu, .inl rfl⟩, rfl⟩
      · exact ⟨_, mem_syncFiles.mpr ⟨d, hd, hu, .inr (.inl rfl)⟩, rfl⟩
      · exact ⟨_, mem_syncFiles.mpr ⟨d, hd, hu, .inr (.inr rfl)⟩, rfl⟩
    obtain ⟨f, hf, e⟩ := this
    obtain ⟨j, hj⟩ := List.mem_iff_getElem?.mp hf
    obtain ⟨c, hc⟩ := hok j f hj
    rw [e] at hc
    obtain ⟨r, hr⟩ := hb (0 + j)
    rw [hr] at hc
    cases hc

/-! ### Concrete runs -/

/-- One collection. -/
def syDir : DirUrl := ⟨"base".toList, "/var/depot".toList, "http://s".toList⟩

/-- What a server has under the three addresses of the collection. -/
def syServer (key repo files : Str) : Nat → Str → Transfer := fun _ a =>
  if a = "http://s/x/24/base//.PKEY".toList then .complete key
  else if a = "http://s/x/24/base/.REPO.zst".toList then .complete repo
  else if a = "http://s/x/24/base/.FILES.zst".toList then .complete files
  else .broken []

/-- Compression puts a `Z` in front. -/
def syUnz : Str → Option Str
  | 'Z' :: c => some c
  | _ => none

/-- A depot as an earlier run left it. -/
def syOld : Fs := [(["var".toList, "depot".toList, "base".toList], .dir 0o755),
  (["var".toList, "depot".toList, "base".toList, ".PKEY".toList], .file "k1".toList 0o644),
  (["var".toList, "depot".toList, "base".toList, ".REPO.zst".toList], .file "Zold".toList 0o644),
  (["var".toList, "depot".toList, "base".toList, ".REPO".toList], .file "old".toList 0o644),
  (["var".toList, "depot".toList, "base".toList, ".FILES.zst".toList], .file "Zfo".toList 0o644),
  (["var".toList, "depot".toList, "base".toList, ".FILES".toList], .file "fo".toList 0o644)]

/-- The list in the depot. -/
def syList (fs : Fs) (n : String) : Option Str := fs.content ("/var/depot/base/".toList ++ n.toList)

theorem syDir_own : OwnPlace [syDir] syDir := by
  intro e he _ _
  simpa using he

/-- The hypotheses of `C68_synced_partial` are met, and the new lists are there. -/
example : syDir.url ≠ [] ∧ OwnPlace [syDir] syDir ∧
    (cardsSync true (syServer "k2".toList "Znew".toList "Zfn".toList) syUnz "x".toList "24".toList [syDir] syOld).2 = true ∧
    (let fs := (cardsSync true (syServer "k2".toList "Znew".toList "Zfn".toList) syUnz "x".toList "24".toList [syDir] syOld).1
     syList fs ".PKEY" = some "k2".toList ∧ syList fs ".REPO" = some "new".toList ∧ syList fs ".FILES" = some "fn".toList) :=
  ⟨by decide, syDir_own, by decide +kernel, by decide +kernel⟩

/-- **C68 fails for an empty answer**: when the server sends an empty compressed list, no file is opened, the list of the last run is uncompressed again, and
the command reports success with a stale list. -/
theorem C68_empty_counterexample :
    (cardsSync true (syServer "k2".toList [] "Zfn".toList) syUnz "x".toList "24".toList [syDir] syOld).2 = true ∧
    (let fs := (cardsSync true (syServer "k2".toList [] "Zfn".toList) syUnz "x".toList "24".toList [syDir] syOld).1
     syList fs ".PKEY" = some "k2".toList ∧ syList fs ".REPO" = some "old".toList ∧ syList fs ".FILES" = some "fn".toList) :=
  ⟨by decide +kernel, by decide +kernel⟩

/-- **C68 fails for a damaged answer**: when the compressed list cannot be uncompressed, a message is printed, the old list stays, and the command reports
success. -/
theorem C68_damaged_counterexample :
    (cardsSync true (syServer "k2".toList "bad".toList "Zfn".toList) syUnz "x".toList "24".toList [syDir] syOld).2 = true ∧
    (let fs := (cardsSync true (syServer "k2".toList "bad".toList "Zfn".toList) syUnz "x".toList "24".toList [syDir] syOld).1
     syList fs ".PKEY" = some "k2".toList ∧ syList fs ".REPO" = some "old".toList) :=
  ⟨by decide +kernel, by decide +kernel⟩

/-! ### Interruptions -/

/-- **C69, failure**: a `cards sync` that fails leaves every list of every collection as it was (only keys and compressed lists may be new). -/
theorem C69_failed_keeps_lists (root : Bool) (net : Nat → Str → Transfer) (unz : Str → Option Str) (arch version : Str) (dirs : List DirUrl) (fs fs' : Fs)
    (h : cardsSync root net unz arch version dirs fs = (fs', false)) (k : List Str) (n : Str) (hn : n ∈ listNames) : fs'.get (k ++ [n]) = fs.get (k ++ [n]) := by
  unfold cardsSync at h
  cases root with
  | false => injection h with h; rw [← h]
  | true =>
    simp only [Bool.not_true, Bool.false_eq_true, if_false] at h
    unfold syncWrites at h
    simp only at h
    split at h
    · injection h with h1 h2
      cases h2
    · injection h with h1 h2
      rw [← h1]
      apply foldl_writes_ne
      intro w hw e
      obtain ⟨f, hf, e'⟩ := downloadWrites_mem _ _ _ _ hw
      obtain ⟨d, -, -, a, ha, e2⟩ := down_of hf
      have := (List.append_inj' ((e2.symm.trans e'.symm).trans e) rfl).2
      simp only [List.cons.injEq, and_true] at this
      subst this
      simp only [listNames, List.mem_cons, List.not_mem_nil, or_false] at ha hn
      rcases ha with rfl | rfl | rfl <;> rcases hn with h | h <;> exact absurd h (by decide)

/-- The place of the compressed form of a list. -/
def zstOf (k : List Str) (n : Str) : List Str := k ++ [n ++ ".zst".toList]

/-- What a write of the uncompressing part writes is the content of the compressed list beside it, as it was before that part began. -/
theorem uncompress_source (unz : Str → Option Str) (arch version : Str) (dirs : List DirUrl) (l : List SyncFile)
    (hl : ∀ f ∈ l, f ∈ syncFiles arch version dirs) (fs0 fs : Fs)
    (hz : ∀ f ∈ syncFiles arch version dirs, fs.get f.down = fs0.get f.down) (w : Write) (hw : w ∈ uncompressWrites unz fs l) :
    ∃ k n, n ∈ listNames ∧ w.1 = k ++ [n] ∧ ∃ z, HasContent fs0 (zstOf k n) z ∧ unz z = some w.2 := by
  induction l generalizing fs with
  | nil => simp [uncompressWrites] at hw
  | cons f l ih =>
    unfold uncompressWrites at hw
    have hf := hl f (by simp)
    split at hw
    · exact ih (fun x hx => hl x (by simp [hx])) fs hz hw
    · rename_i hne
      simp only [List.mem_append] at hw
      rcases hw with hw | hw
      · obtain ⟨e, z, ⟨m, hm⟩, hc⟩ := uncompressWrite_mem hw
        obtain ⟨d, hd, hu, h⟩ := mem_syncFiles.mp hf
        have hdown : comps (f.dir ++ f.name ++ ".zst".toList) = f.down := by
          rcases h with rfl | rfl | rfl
          · exact absurd rfl hne
          · rw [SyncFile.down, remote_repo, List.append_assoc]
          · rw [SyncFile.down, remote_files, List.append_assoc]
        rw [hdown, hz f hf] at hm
        rcases h with rfl | rfl | rfl
        · exact absurd rfl hne
        · refine ⟨d.place, ".REPO".toList, by simp [listNames], ?_, z, ⟨m, ?_⟩, hc⟩
          · rw [e]; show comps (collDir d ++ pkgRepoFile) = _; rw [comps_in_coll, comps_repo]
          · rw [← hm, SyncFile.down, remote_repo, comps_in_coll, comps_repo_zst]; rfl
        · refine ⟨d.place, ".FILES".toList, by simp [listNames], ?_, z, ⟨m, ?_⟩, hc⟩
          · rw [e]; show comps (collDir d ++ pkgFilesFile) = _; rw [comps_in_coll, comps_files]
          · rw [← hm, SyncFile.down, remote_files, comps_in_coll, comps_files_zst]; rfl
      · refine ih (fun x hx => hl x (by simp [hx])) _ ?_ hw
        intro g hg
        rw [foldl_writes_ne, hz g hg]
        intro x hx e
        rw [(uncompressWrite_mem hx).1] at e
        exact list_not_down hg hf hne e

theorem foldl_writes_last (ws : List Write) (fs : Fs) (k : List Str) :
    (ws.foldl applyWrite fs).get k = fs.get k ∨ ∃ w ∈ ws, w.1 = k ∧ (ws.foldl applyWrite fs).get k = some (.file w.2 0o644) := by
  induction ws generalizing fs with
  | nil => exact .inl rfl
  | cons w ws ih =>
    rw [List.foldl_cons]
    rcases ih (applyWrite fs w) with h | ⟨x, hx, e, h⟩
    · by_cases hk : w.1 = k
      · right
        refine ⟨w, by simp, hk, ?_⟩
        rw [h]; unfold applyWrite; rw [Fs.get_set, if_pos hk]
      · left
        rw [h]; unfold applyWrite; rw [Fs.get_set, if_neg hk]
    · exact .inr ⟨x, by simp [hx], e, h⟩

/-- The writes up to a stop: a complete part and perhaps a piece of one more. -/
theorem syncStopped_cases (net : Nat → Str → Transfer) (unz : Str → Option Str) (arch version : Str) (dirs : List DirUrl) (fs : Fs) (n : Nat) (m : Option Nat) :
    ∃ ws, ws <+: (syncWrites net unz (syncFiles arch version dirs) fs).1 ∧
      (syncStopped net unz arch version dirs fs n m = ws.foldl applyWrite fs ∨
       ∃ x c, ws ++ [x] <+: (syncWrites net unz (syncFiles arch version dirs) fs).1 ∧ c <+: x.2 ∧
        syncStopped net unz arch version dirs fs n m = applyWrite (ws.foldl applyWrite fs) (x.1, c)) := by
  unfold syncStopped
  simp only
  refine ⟨_, List.take_prefix n _, ?_⟩
  split
  · rename_i m x hx
    right
    refine ⟨x, x.2.take m, ?_, List.take_prefix m _, rfl⟩
    have : (syncWrites net unz (syncFiles arch version dirs) fs).1.take n ++ [x] = (syncWrites net unz (syncFiles arch version dirs) fs).1.take (n + 1) := by
      rw [List.take_add_one, hx]; rfl
    rw [this]
    exact List.take_prefix _ _
  · exact .inl rfl

/-- The writes are: downloads, none of which is to a list; then lists with what the compressed lists hold, once the downloads are done. -/
theorem syncWrites_parts (net : Nat → Str → Transfer) (unz : Str → Option Str) (arch version : Str) (dirs : List DirUrl) (fs : Fs) :
    ∃ ds us, (syncWrites net unz (syncFiles arch version dirs) fs).1 = ds ++ us ∧ (∀ w ∈ ds, ∃ k n, n ∉ listNames ∧ w.1 = k ++ [n]) ∧
      ∀ w ∈ us, ∃ k n, n ∈ listNames ∧ w.1 = k ++ [n] ∧ ∃ z, HasContent (ds.foldl applyWrite fs) (zstOf k n) z ∧ unz z = some w.2 := by
  have hd : ∀ w ∈ (downloadWrites net 0 (syncFiles arch version dirs)).1, ∃ k n, n ∉ listNames ∧ w.1 = k ++ [n] := by
    intro w hw
    obtain ⟨f, hf, e⟩ := downloadWrites_mem _ _ _ _ hw
    obtain ⟨d, -, -, a, ha, e2⟩ := down_of hf
    refine ⟨d.place, a, ?_, e.trans e2⟩
    intro hb
    simp only [listNames, List.mem_cons, List.not_mem_nil, or_false] at ha hb
    rcases ha with rfl | rfl | rfl <;> rcases hb with h | h <;> exact absurd h (by decide)
  unfold syncWrites
  simp only
  split
  · exact ⟨_, _, rfl, hd, fun w hw => uncompress_source unz arch version dirs _ (fun _ h => h) _ _ (fun _ _ => rfl) w hw⟩
  · exact ⟨_, [], (List.append_nil _).symm, hd, by simp⟩

theorem zst_not_list (n a : Str) (hn : n ∈ listNames) (h : a ∈ listNames) : a ≠ n ++ ".zst".toList := by
  simp only [listNames, List.mem_cons, List.not_mem_nil, or_false] at hn h
  rcases hn with rfl | rfl <;> rcases h with rfl | rfl <;> decide

theorem prefix_append_cases {α : Type _} {p a b : List α} (h : p <+: a ++ b) : p <+: a ∨ ∃ q, p = a ++ q ∧ q <+: b := by
  rcases List.prefix_or_prefix_of_prefix h (List.prefix_append a b) with h1 | ⟨q, rfl⟩
  · exact .inl h1
  · exact .inr ⟨q, rfl, (List.prefix_append_right_inj a).mp h⟩

/-- **C69, part that holds**: stopped at any moment - a crash, a kill, a full disk - every list but one is the old list or the whole text that the compressed
list beside it holds; and that one is the old list or a beginning of that text. -/
theorem C69_stopped_partial (net : Nat → Str → Transfer) (unz : Str → Option Str) (arch version : Str) (dirs : List DirUrl) (fs : Fs) (n : Nat) (m : Option Nat) :
    ∃ torn : List Str, ∀ k l, l ∈ listNames →
      let fs' := syncStopped net unz arch version dirs fs n m
      fs'.get (k ++ [l]) = fs.get (k ++ [l]) ∨
      ∃ z c c', HasContent fs' (zstOf k l) z ∧ unz z = some c ∧ HasContent fs' (k ++ [l]) c' ∧ c' <+: c ∧ (k ++ [l] ≠ torn → c' = c) := by
  obtain ⟨ds, us, e, hds, hus⟩ := syncWrites_parts net unz arch version dirs fs
  obtain ⟨ws, hws, hst⟩ := syncStopped_cases net unz arch version dirs fs n m
  rw [e] at hws hst
  have nolist : ∀ w ∈ ds, ∀ k l, l ∈ listNames → w.1 ≠ k ++ [l] := by
    intro w hw k l hl e'
    obtain ⟨k', n', hn', e''⟩ := hds w hw
    have := (List.append_inj' (e''.symm.trans e') rfl).2
    simp only [List.cons.injEq, and_true] at this
    exact hn' (this ▸ hl)
  have nozst : ∀ w ∈ us, ∀ k l, l ∈ listNames → w.1 ≠ zstOf k l := by
    intro w hw k l hl e'
    obtain ⟨k', n', hn', e'', -⟩ := hus w hw
    have := (List.append_inj' (e''.symm.trans e') rfl).2
    simp only [List.cons.injEq, and_true] at this
    exact zst_not_list l n' hl hn' this
  -- the complete writes
  have full : ∀ q, q <+: us → ∀ k l, l ∈ listNames →
      ((ds ++ q).foldl applyWrite fs).get (k ++ [l]) = fs.get (k ++ [l]) ∨
      ∃ z c, HasContent ((ds ++ q).foldl applyWrite fs) (zstOf k l) z ∧ unz z = some c ∧ HasContent ((ds ++ q).foldl applyWrite fs) (k ++ [l]) c := by
    intro q hq k l hl
    rw [List.foldl_append]
    rcases foldl_writes_last q (ds.foldl applyWrite fs) (k ++ [l]) with h | ⟨w, hw, ew, h⟩
    · left
      rw [h]
      exact foldl_writes_ne _ _ _ (fun w hw => nolist w hw k l hl)
    · right
      obtain ⟨k', n', hn', e'', z, ⟨mz, hz⟩, hc⟩ := hus w (hq.subset hw)
      have := List.append_inj' (e''.symm.trans ew) rfl
      obtain ⟨rfl, h2⟩ := this
      simp only [List.cons.injEq, and_true] at h2
      subst h2
      refine ⟨z, w.2, ⟨mz, ?_⟩, hc, 0o644, h⟩
      rw [foldl_writes_ne, hz]
      exact fun x hx => nozst x (hq.subset hx) _ _ hl
  rcases hst with hst | ⟨x, c, hx, hcx, hst⟩
  · refine ⟨[], fun k l hl => ?_⟩
    simp only
    rw [hst]
    rcases prefix_append_cases hws with h | ⟨q, rfl, hq⟩
    · left
      exact foldl_writes_ne _ _ _ (fun w hw => nolist w (h.subset hw) k l hl)
    · rcases full q hq k l hl with h | ⟨z, c, h1, h2, h3⟩
      · exact .inl h
      · exact .inr ⟨z, c, c, h1, h2, h3, List.prefix_refl _, fun _ => rfl⟩
  · rcases prefix_append_cases hx with h | ⟨q, eq, hq⟩
    · -- a download is torn
      refine ⟨[], fun k l hl => ?_⟩
      left
      rw [hst]
      have := nolist x (h.subset (by simp)) k l hl
      unfold applyWrite
      rw [Fs.get_set, if_neg this]
      exact foldl_writes_ne _ _ _ (fun w hw => nolist w (h.subset (by simp [hw])) k l hl)
    · by_cases hq0 : q = []
      · subst hq0
        rw [List.append_nil] at eq
        refine ⟨[], fun k l hl => ?_⟩
        left
        rw [hst]
        have hin : ∀ w ∈ ws ++ [x], w ∈ ds := fun w hw => eq ▸ hw
        unfold applyWrite
        rw [Fs.get_set, if_neg (nolist x (hin x (by simp)) k l hl)]
        exact foldl_writes_ne _ _ _ (fun w hw => nolist w (hin w (by simp [hw])) k l hl)
      · -- a list is torn
        obtain ⟨q', y, rfl⟩ : ∃ q' y, q = q' ++ [y] := ⟨q.dropLast, q.getLast hq0, (List.dropLast_concat_getLast hq0).symm⟩
        rw [← List.append_assoc] at eq
        obtain ⟨rfl, h2⟩ := List.append_inj' eq rfl
        simp only [List.cons.injEq, and_true] at h2
        subst h2
        have hq' : q' <+: us := (List.prefix_append _ _).trans hq
        have hxu : x ∈ us := hq.subset (by simp)
        refine ⟨x.1, fun k l hl => ?_⟩
        simp only
        rw [hst]
        have hzz : ∀ k l, l ∈ listNames → (applyWrite ((ds ++ q').foldl applyWrite fs) (x.1, c)).get (zstOf k l) = ((ds ++ q').foldl applyWrite fs).get (zstOf k l) := by
          intro k l hl
          unfold applyWrite
          rw [Fs.get_set, if_neg (nozst x hxu k l hl)]
        by_cases hk : x.1 = k ++ [l]
        · right
          obtain ⟨k', n', hn', e'', z, ⟨mz, hz⟩, hc⟩ := hus x hxu
          obtain ⟨rfl, h2⟩ := List.append_inj' (e''.symm.trans hk) rfl
          simp only [List.cons.injEq, and_true] at h2
          subst h2
          refine ⟨z, x.2, c, ⟨mz, ?_⟩, hc, ⟨0o644, ?_⟩, hcx, fun h => absurd hk.symm h⟩
          · rw [hzz _ _ hl, List.foldl_append, foldl_writes_ne, hz]
            exact fun w hw => nozst w (hq'.subset hw) _ _ hl
          · unfold applyWrite
            rw [Fs.get_set, if_pos hk]
        · have hg : (applyWrite ((ds ++ q').foldl applyWrite fs) (x.1, c)).get (k ++ [l]) = ((ds ++ q').foldl applyWrite fs).get (k ++ [l]) := by
            unfold applyWrite
            rw [Fs.get_set, if_neg hk]
          rcases full q' hq' k l hl with h | ⟨z, c', ⟨m1, h1⟩, h2, ⟨m3, h3⟩⟩
          · exact .inl (hg.trans h)
          · exact .inr ⟨z, c', c', ⟨m1, (hzz k l hl).trans h1⟩, h2, ⟨m3, hg.trans h3⟩, List.prefix_refl _, fun _ => rfl⟩

/-- **C69, repair**: after a run that was stopped at any moment, a successful run gives the lists of the server all the same. -/
theorem C69_run_again_partial (net net' : Nat → Str → Transfer) (unz : Str → Option Str) (arch version : Str) (dirs : List DirUrl) (fs fs' : Fs) (n : Nat) (m : Option Nat)
    (h : cardsSync true net' unz arch version dirs (syncStopped net unz arch version dirs fs n m) = (fs', true)) (d : DirUrl) (hd : d ∈ dirs) (hu : d.url ≠ [])
    (ho : OwnPlace dirs d) (l : Str) (hl : l ∈ listNames) :
    ∃ i z, net' i (d.address arch version (l ++ ".zst".toList)) = .complete z ∧ (z ≠ [] → ∀ c, unz z = some c → HasContent fs' (d.place ++ [l]) c) := by
  simp only [listNames, List.mem_cons, List.not_mem_nil, or_false] at hl
  exact synced_list h hd hu ho l hl

/-- The stopped run of `C69_torn_counterexample`, and the runs again of `C69_run_again_partial`. -/
example : (cardsSync true (syServer "k3".toList "Znewer".toList "Zf".toList) syUnz "x".toList "24".toList [syDir]
    (syncStopped (syServer "k2".toList "Znew".toList "Zfn".toList) syUnz "x".toList "24".toList [syDir] syOld 3 (some 1))).2 = true ∧
    syList (cardsSync true (syServer "k3".toList "Znewer".toList "Zf".toList) syUnz "x".toList "24".toList [syDir]
    (syncStopped (syServer "k2".toList "Znew".toList "Zfn".toList) syUnz "x".toList "24".toList [syDir] syOld 3 (some 1))).1 ".REPO" = some "newer".toList := by
  decide +kernel

/-- **C69 fails for a new key**: the key is replaced first. A run that fails, or is stopped, while it fetches the list leaves the new key with the old list. -/
theorem C69_mixed_counterexample :
    (let net := fun i a => if i = 1 then Transfer.broken "Zn".toList else syServer "k2".toList "Znew".toList "Zfn".toList i a
     let r := cardsSync true net syUnz "x".toList "24".toList [syDir] syOld
     r.2 = false ∧ syList r.1 ".PKEY" = some "k2".toList ∧ syList r.1 ".REPO" = some "old".toList ∧ syList r.1 ".REPO.zst" = some "Zn".toList) ∧
    (let fs := syncStopped (syServer "k2".toList "Znew".toList "Zfn".toList) syUnz "x".toList "24".toList [syDir] syOld 1 none
     syList fs ".PKEY" = some "k2".toList ∧ syList fs ".REPO" = some "old".toList) := by decide +kernel

end Cards.Props
