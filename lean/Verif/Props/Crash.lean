import Verif.Model.Crash
import Verif.Lemmas.Base
import Verif.Props.TransDb
import Mathlib.Tactic.Common
/-!
# C11, C12, C45: the database on disk, crashes
-/
namespace Cards.Props
open Cards Cards.Spec

/-! ## C12 -/

theorem mem_readRecord (ls acc : List Str) (f : Str) :
    (f ∈ (readRecord ls acc).1 ∨ (f ≠ [] ∧ f ∈ (readRecord ls acc).2)) ↔ (f ∈ acc ∨ (f ≠ [] ∧ f ∈ ls)) := by
  induction ls generalizing acc with
  | nil => simp [readRecord]
  | cons l ls ih =>
    simp only [readRecord]
    split
    · rename_i h; subst h; simp only [List.mem_cons]
      constructor
      · rintro (h | ⟨h, h'⟩); exacts [.inl h, .inr ⟨h, .inr h'⟩]
      · rintro (h | ⟨h, h' | h'⟩); exacts [.inl h, absurd h' h, .inr ⟨h, h'⟩]
    · rename_i h
      rw [ih]
      simp only [mem_sinsert, List.mem_cons]
      constructor
      · rintro ((rfl | h') | ⟨h1, h2⟩); exacts [.inr ⟨h, .inl rfl⟩, .inl h', .inr ⟨h1, .inr h2⟩]
      · rintro (h' | ⟨h1, rfl | h2⟩); exacts [.inl (.inr h'), .inl (.inl rfl), .inr ⟨h1, h2⟩]

theorem sorted_readRecord (ls acc : List Str) (h : Sorted acc) : Sorted (readRecord ls acc).1 := by
  induction ls generalizing acc with
  | nil => simpa [readRecord]
  | cons l ls ih => simp only [readRecord]; split; exacts [h, ih _ (sorted_sinsert h)]

theorem readLoop_spec (ls acc : List Str) (h : Sorted acc) :
    Sorted (readLoop ls acc) ∧ ∀ f, f ∈ readLoop ls acc ↔ f ∈ acc ∨ (f ≠ [] ∧ f ∈ ls) := by
  induction hn : ls.length using Nat.strongRecOn generalizing ls acc with
  | ind n ih =>
    subst hn
    rw [readLoop.eq_def]
    split
    · exact ⟨h, by simp⟩
    · rename_i l ls'
      split
      · rename_i hl
        obtain ⟨h1, h2⟩ := ih ls'.length (by simp) ls' acc h rfl
        refine ⟨h1, fun f => ?_⟩
        rw [h2]; subst hl
        constructor
        · rintro (h | ⟨h, h'⟩); exacts [.inl h, .inr ⟨h, by simp [h']⟩]
        · rintro (h | ⟨h, h'⟩)
          · exact .inl h
          · rcases List.mem_cons.mp h' with h' | h'; exacts [absurd h' h, .inr ⟨h, h'⟩]
      · rename_i hl
        have hlen := readRecord_length ls' (sinsert l acc)
        obtain ⟨h1, h2⟩ := ih (readRecord ls' (sinsert l acc)).2.length (by simp; omega) _ _
          (sorted_readRecord ls' _ (sorted_sinsert h)) rfl
        refine ⟨h1, fun f => ?_⟩
        simp only
        rw [h2, mem_readRecord]
        simp only [mem_sinsert, List.mem_cons]
        constructor
        · rintro ((rfl | h') | ⟨h1, h2⟩); exacts [.inr ⟨hl, .inl rfl⟩, .inl h', .inr ⟨h1, .inr h2⟩]
        · rintro (h' | ⟨h1, rfl | h2⟩); exacts [.inl (.inr h'), .inl (.inl rfl), .inr ⟨h1, h2⟩]

/-- The reader returns exactly the non-empty lines of the file, whatever the file contains. -/
theorem C12_reader_exact (content : Str) :
    Sorted (readList content) ∧ ∀ f, f ∈ readList content ↔ f ≠ [] ∧ f ∈ lines content := by
  obtain ⟨h1, h2⟩ := readLoop_spec (lines content) [] .nil
  exact ⟨h1, by simpa [readList] using h2⟩

theorem lines_line (f rest : Str) (h : '\n' ∉ f) : lines (f ++ '\n' :: rest) = f :: lines rest := by
  induction f with
  | nil => simp [lines]
  | cons c f ih =>
    simp only [List.mem_cons, not_or] at h
    simp only [List.cons_append, lines, ih h.2]
    rw [if_neg (fun e => h.1 e.symm)]

theorem lines_writeList (files : List Str) (h : ∀ f ∈ files, '\n' ∉ f) : lines (writeList files) = files ++ [[]] := by
  induction files with
  | nil => rfl
  | cons f fs ih =>
    simp only [writeList]
    rw [lines_line f _ (h f (by simp)), ih (fun x hx => h x (by simp [hx]))]
    rfl

/-- Reading back the file list written for a package gives exactly the list written, for every set of non-empty names without newline. -/
theorem C12_roundtrip (files : List Str) (hs : files.Pairwise (· < ·)) (h : ∀ f ∈ files, f ≠ [] ∧ '\n' ∉ f) :
    readList (writeList files) = files := by
  obtain ⟨h1, h2⟩ := C12_reader_exact (writeList files)
  refine sorted_ext h1 hs (fun x => ?_)
  rw [h2, lines_writeList files (fun f hf => (h f hf).2)]
  simp only [List.mem_append, List.mem_singleton]
  constructor
  · rintro ⟨h, h' | h'⟩; exacts [h', absurd h' h]
  · intro hx; exact ⟨(h x hx).1, .inl hx⟩

/-- The two restrictions are needed: a name with a newline comes back as two names. -/
theorem C12_newline_counterexample : readList (writeList ["a\nb".toList]) = ["a".toList, "b".toList] := by
  refine sorted_ext (C12_reader_exact _).1 (by unfold Sorted; decide) (fun x => ?_)
  rw [(C12_reader_exact _).2]
  have : lines (writeList ["a\nb".toList]) = ["a".toList, "b".toList, []] := by decide
  rw [this]
  simp only [List.mem_cons, List.not_mem_nil, or_false]
  constructor
  · rintro ⟨h, h' | h' | h'⟩; exacts [.inl h', .inr h', absurd h' h]
  · rintro (rfl | rfl); exacts [⟨by decide, .inl rfl⟩, ⟨by decide, .inr (.inl rfl)⟩]

example : readList (writeList ["usr/".toList, "usr/bin/a b".toList]) = ["usr/".toList, "usr/bin/a b".toList] :=
  C12_roundtrip _ (by decide) (by decide)

/-! ## C11 -/

/-- The state of the package directory before: `files` is on disk and does not share its inode with the temporary name, a new inode
is really new. -/
structure Before (w : World) (fresh : Nat) : Prop where
  durable : ∀ i, w.files = some i → w.synced i = true
  apart : ∀ i, w.files = some i → w.tmp ≠ some i ∧ i ≠ fresh

/-- While the temporary file is written, `files` and the data of its inode are as before. -/
structure Same (w w' : World) : Prop where
  files : w'.files = w.files
  data : ∀ i, w.files = some i → w'.data i = w.data i ∧ w'.synced i = true
  apart : ∀ i, w.files = some i → w'.tmp ≠ some i

theorem same_reads {w w' : World} (h : Same w w') : w'.reads = w.reads := by
  unfold World.reads
  rw [h.files]
  cases hf : w.files with
  | none => rfl
  | some i => simp [(h.data i hf).1]

theorem same_step {w w' : World} {fresh : Nat} (hb : Before w fresh) (h : Same w w') (c : SysCall) (hc : c ≠ .rename)
    (hf : ∀ n, c = .creat n → n = fresh) : Same w (w'.step c) := by
  have h3 : ∀ i, w.files = some i → ∀ j, w'.tmp = some j → i ≠ j := by
    intro i hi j hj e; subst e; exact h.apart i hi hj
  cases c with
  | mkdir => exact ⟨h.files, h.data, h.apart⟩
  | creat n =>
    have := hf n rfl; subst this
    have h4 : ∀ i, w.files = some i → i ≠ w'.tmp.getD n := by
      intro i hi
      cases ht : w'.tmp with
      | none => exact (hb.apart i hi).2
      | some j => exact h3 i hi j ht
    refine ⟨h.files, fun i hi => ?_, fun i hi e => ?_⟩
    · simp only [World.step, if_neg (h4 i hi)]; exact h.data i hi
    · simp only [World.step, Option.some.injEq] at e; exact h4 i hi e.symm
  | write c =>
    simp only [World.step]
    cases ht : w'.tmp with
    | none => exact h
    | some j =>
      refine ⟨h.files, fun i hi => ?_, fun i hi => ?_⟩
      · simp only [if_neg (h3 i hi j ht)]; exact h.data i hi
      · have := h.apart i hi; rw [ht] at this; exact this
  | fsync =>
    simp only [World.step]
    cases ht : w'.tmp with
    | none => exact h
    | some j =>
      refine ⟨h.files, fun i hi => ?_, fun i hi => ?_⟩
      · simp only [if_neg (h3 i hi j ht)]; exact h.data i hi
      · have := h.apart i hi; rw [ht] at this; exact this
  | rename => exact absurd rfl hc
  | rmdir =>
    simp only [World.step]
    split
    · exact ⟨h.files, h.data, h.apart⟩
    · exact h

theorem same_run {w w' : World} {fresh : Nat} (hb : Before w fresh) (t : List SysCall) (h : Same w w') (ht : SysCall.rename ∉ t)
    (hf : ∀ n, .creat n ∈ t → n = fresh) : Same w (w'.run t) := by
  induction t generalizing w' with
  | nil => exact h
  | cons c t ih =>
    simp only [List.mem_cons, not_or] at ht
    exact ih (same_step hb h c (fun e => ht.1 e.symm) (fun n e => hf n (by simp [e]))) ht.2 (fun n hn => hf n (by simp [hn]))

theorem same_refl {w : World} {fresh : Nat} (hb : Before w fresh) : Same w w :=
  ⟨rfl, fun i hi => ⟨rfl, hb.durable i hi⟩, fun i hi => (hb.apart i hi).1⟩

theorem run_writes (w : World) (i : Nat) (ht : w.tmp = some i) (chunks : List Str) :
    (w.run (chunks.map .write)).tmp = some i ∧ (w.run (chunks.map .write)).data i = w.data i ++ chunks.flatten := by
  induction chunks generalizing w with
  | nil => simp [World.run, ht]
  | cons c cs ih =>
    have := ih (w.step (.write c)) (by simp [World.step, ht])
    simp only [List.map_cons, World.run, List.foldl_cons] at this ⊢
    refine ⟨this.1, ?_⟩
    rw [this.2]
    simp [World.step, ht]

/-- The calls other than the last leave `files` alone; only the complete sequence reaches `rename`. -/
theorem calls_prefix {content : Str} {fresh : Nat} {t t' : List SysCall} (h : Calls content fresh t) (hp : t' <+: t) :
    SysCall.rename ∉ t' ∨ (∃ chunks : List Str, chunks.flatten = content ∧
      t' = .mkdir :: .creat fresh :: chunks.map .write ++ [.fsync, .rename] ∧ t' = t) := by
  have key : ∀ (l : List SysCall), SysCall.rename ∉ l → t = l → SysCall.rename ∉ t' := by
    rintro l hl rfl hm; exact hl (hp.subset hm)
  cases h with
  | ok chunks hc =>
    rcases hp with ⟨s, hs⟩
    rcases List.eq_nil_or_concat s with rfl | ⟨s', x, rfl⟩
    · right; exact ⟨chunks, hc, by simpa using hs, by simpa using hs⟩
    · left
      rw [List.concat_eq_append] at hs
      have : t' ++ s' = .mkdir :: .creat fresh :: chunks.map .write ++ [.fsync] := by
        have h2 : (t' ++ s') ++ [x] = (.mkdir :: .creat fresh :: chunks.map .write ++ [.fsync]) ++ [.rename] := by simpa using hs
        exact (List.append_inj' h2 rfl).1
      intro hm
      have : SysCall.rename ∈ (SysCall.mkdir :: .creat fresh :: chunks.map .write ++ [.fsync]) := by rw [← this]; simp [hm]
      simp at this
  | creatFails => left; exact key [.mkdir] (by simp) rfl
  | writeFails chunks _ => left; exact key _ (by simp) rfl
  | syncFails chunks _ => left; exact key _ (by simp) rfl
  | renameFails chunks _ => left; exact key _ (by simp) rfl

theorem calls_fresh {content : Str} {fresh : Nat} {t : List SysCall} (h : Calls content fresh t) (n : Nat) (hn : .creat n ∈ t) : n = fresh := by
  cases h <;> simp at hn <;> exact hn

theorem run_append (w : World) (a b : List SysCall) : w.run (a ++ b) = (w.run a).run b := by simp [World.run]

theorem run_full (w : World) (fresh : Nat) (chunks : List Str) :
    let w' := w.run (.mkdir :: .creat fresh :: chunks.map .write ++ [.fsync, .rename])
    ∃ i, w'.files = some i ∧ w'.data i = chunks.flatten ∧ w'.synced i = true ∧ w'.tmp = none := by
  have e1 : w.run (.mkdir :: .creat fresh :: chunks.map .write ++ [.fsync, .rename]) =
      ((((w.step .mkdir).step (.creat fresh)).run (chunks.map .write)).step .fsync).step .rename := by
    simp [World.run]
  simp only [e1]
  have hr := run_writes ((w.step .mkdir).step (.creat fresh)) (w.tmp.getD fresh) (by simp [World.step]) chunks
  generalize ((w.step .mkdir).step (.creat fresh)).run (chunks.map .write) = w2 at hr
  refine ⟨w.tmp.getD fresh, ?_, ?_, ?_, ?_⟩ <;> simp [World.step, hr.1, hr.2]

/-- Killing the process anywhere: whatever system calls were made, in whatever chunks, a reader of the list afterwards finds what was
there before (possibly nothing) or the complete new text. -/
theorem C11_kill_atomic (w : World) (fresh : Nat) (hb : Before w fresh) (content : Str) (t t' : List SysCall)
    (hc : Calls content fresh t) (hp : t' <+: t) :
    (w.run t').reads = w.reads ∨ (w.run t').reads = some content := by
  rcases calls_prefix hc hp with h | ⟨chunks, h1, h2, _⟩
  · left; exact same_reads (same_run hb t' (same_refl hb) h (fun n hn => calls_fresh hc n (hp.subset hn)))
  · right
    obtain ⟨i, h3, h4, _⟩ := run_full w fresh chunks
    rw [h2]; simp only [World.reads, h3, Option.map_some, h4, h1]

/-- Losing power anywhere: when the directory on disk is that of any earlier moment and unsynced data is arbitrary, a reader still finds the
complete old or the complete new list. -/
theorem C11_power_loss_atomic (w : World) (fresh : Nat) (hb : Before w fresh) (content : Str) (t t0 t1 : List SysCall)
    (hc : Calls content fresh t) (h1 : t1 <+: t) (h0 : t0 <+: t1) (w' : World) (hl : PowerLoss (w.run t0) (w.run t1) w') :
    w'.reads = w.reads ∨ w'.reads = some content := by
  obtain ⟨_, hf, _, hd⟩ := hl
  rcases calls_prefix hc (h0.trans h1) with h | ⟨chunks, e1, e2, e3⟩
  · have hs := same_run hb t0 (same_refl hb) h (fun n hn => calls_fresh hc n ((h0.trans h1).subset hn))
    rcases calls_prefix hc h1 with h' | ⟨chunks, e1, e2, e3⟩
    · have hs1 := same_run hb t1 (same_refl hb) h' (fun n hn => calls_fresh hc n (h1.subset hn))
      left
      simp only [World.reads, hf, hs.files]
      cases hi : w.files with
      | none => rfl
      | some i =>
        have := hs1.data i hi
        simp only [Option.map_some, Option.some.injEq]
        rw [hd i this.2, this.1]
    · -- all calls made, directory of before the rename: the old inode is still intact
      left
      have h' : ∀ i, w.files = some i → (w.run t1).synced i = true ∧ (w.run t1).data i = w.data i := by
        intro i hi
        have hs1 : Same w (w.run (.mkdir :: .creat fresh :: chunks.map .write ++ [.fsync])) :=
          same_run hb _ (same_refl hb) (by simp) (fun n hn => by simpa using hn)
        have e : w.run t1 = (w.run (.mkdir :: .creat fresh :: chunks.map .write ++ [.fsync])).step .rename := by
          rw [e2]; simp [World.run]
        rw [e]
        have := hs1.data i hi
        simp only [World.step]
        split <;> exact ⟨this.2, this.1⟩
      simp only [World.reads, hf, hs.files]
      cases hi : w.files with
      | none => rfl
      | some i =>
        simp only [Option.map_some, Option.some.injEq]
        rw [hd i (h' i hi).1, (h' i hi).2]
  · right
    have : t1 = t0 := by
      have a := h1.length_le
      have b := h0.length_le
      rw [e3] at b
      have : t0.length = t1.length := by rw [e3]; omega
      exact (h0.eq_of_length this).symm
    obtain ⟨i, h3, h4, h5⟩ := run_full w fresh chunks
    rw [this, e2] at hd
    rw [e2] at hf
    simp only [World.reads, hf, h3, Option.map_some]
    rw [hd i h5.1, h4, e1]

/-- When all calls succeed the new list is there. -/
theorem C11_complete (w : World) (fresh : Nat) (content : Str) (chunks : List Str) (h : chunks.flatten = content) :
    Calls content fresh (.mkdir :: .creat fresh :: chunks.map .write ++ [.fsync, .rename]) ∧
    (w.run (.mkdir :: .creat fresh :: chunks.map .write ++ [.fsync, .rename])).reads = some content := by
  obtain ⟨i, h3, h4, _⟩ := run_full w fresh chunks
  exact ⟨.ok chunks h, by simp only [World.reads, h3, Option.map_some, h4, h]⟩

/-- Together with the round trip: a reader that comes after a crash gets the complete old or the complete new set of names. -/
theorem C11_sets (w : World) (fresh : Nat) (hb : Before w fresh) (old new : List Str)
    (hold : w.reads = some (writeList old)) (ho : old.Pairwise (· < ·)) (hn : new.Pairwise (· < ·))
    (ho' : ∀ f ∈ old, f ≠ [] ∧ '\n' ∉ f) (hn' : ∀ f ∈ new, f ≠ [] ∧ '\n' ∉ f) (t t0 t1 : List SysCall)
    (hc : Calls (writeList new) fresh t) (h1 : t1 <+: t) (h0 : t0 <+: t1) (w' : World) (hl : PowerLoss (w.run t0) (w.run t1) w') :
    w'.reads.map readList = some old ∨ w'.reads.map readList = some new := by
  rcases C11_power_loss_atomic w fresh hb _ t t0 t1 hc h1 h0 w' hl with h | h
  · left; rw [h, hold]; simp [C12_roundtrip old ho ho']
  · right; rw [h]; simp [C12_roundtrip new hn hn']

/-- A directory with the list `a`, and a temporary file left over from an earlier crash. -/
def wEx : World :=
  { dir := true, files := some 0, tmp := some 1, data := fun n => if n = 0 then "a\n".toList else "junk".toList, synced := fun n => n = 0 }

example : Before wEx 2 := ⟨by intro i h; cases h; rfl, by intro i h; cases h; decide⟩
example : wEx.reads = some (writeList ["a".toList]) := by decide
-- killed while writing the new list
example : ((wEx.run [.mkdir, .creat 2, .write "a\nb".toList]).reads) = some "a\n".toList := by decide
example : ((wEx.run [.mkdir, .creat 2, .write "a\nb".toList, .write "\n".toList, .fsync, .rename]).reads) = some "a\nb\n".toList := by decide

/-- Nothing pending: `files`, if it is there, is on disk and is not the temporary file. -/
def Ready (w : World) : Prop := ∀ i, w.files = some i → w.synced i = true ∧ w.tmp ≠ some i

/-- Any number of updates of the list, one after the other, each ended by success, by a failing call, by a kill or by a power loss (after which
what is on disk is what there is). -/
inductive Updates : World → List Str → World → Prop
  | none (w : World) : Updates w [] w
  | ended {w w' : World} {cs : List Str} (fresh : Nat) (content : Str) (t t' : List SysCall) : w.files ≠ some fresh → Calls content fresh t →
      t' <+: t → Updates (w.run t') cs w' → Updates w (content :: cs) w'
  | powerLoss {w w1 w' : World} {cs : List Str} (fresh : Nat) (content : Str) (t t0 t1 : List SysCall) : w.files ≠ some fresh →
      Calls content fresh t → t1 <+: t → t0 <+: t1 → PowerLoss (w.run t0) (w.run t1) w1 → (∀ n, w1.synced n = true) → Updates w1 cs w' →
      Updates w (content :: cs) w'

theorem ready_run {w : World} (h : Ready w) {fresh : Nat} (hf : w.files ≠ some fresh) {content : Str} {t t' : List SysCall}
    (hc : Calls content fresh t) (hp : t' <+: t) : Ready (w.run t') := by
  have hb : Before w fresh := ⟨fun i hi => (h i hi).1, fun i hi => ⟨(h i hi).2, by rintro rfl; exact hf hi⟩⟩
  rcases calls_prefix hc hp with h' | ⟨chunks, _, h2, _⟩
  · have hs := same_run hb t' (same_refl hb) h' (fun n hn => calls_fresh hc n (hp.subset hn))
    intro i hi
    rw [hs.files] at hi
    exact ⟨(hs.data i hi).2, hs.apart i hi⟩
  · obtain ⟨j, h3, _, h5, h6⟩ := run_full w fresh chunks
    intro i hi
    rw [h2] at hi ⊢
    rw [h3] at hi; injection hi with hi; subst hi
    exact ⟨h5, by rw [h6]; simp⟩

/-- **C11, histories.** After any number of updates, each successful, failed, killed or cut by a power loss, a reader finds the list of the beginning
or the complete text of one of the updates. -/
theorem C11_history (w w' : World) (cs : List Str) (hr : Ready w) (h : Updates w cs w') :
    Ready w' ∧ (w'.reads = w.reads ∨ ∃ c ∈ cs, w'.reads = some c) := by
  induction h with
  | none => exact ⟨hr, Or.inl rfl⟩
  | @ended w w' cs fresh content t t' hf hc hp _ ih =>
    have hb : Before w fresh := ⟨fun i hi => (hr i hi).1, fun i hi => ⟨(hr i hi).2, by rintro rfl; exact hf hi⟩⟩
    obtain ⟨h1, h2⟩ := ih (ready_run hr hf hc hp)
    refine ⟨h1, ?_⟩
    rcases h2 with h2 | ⟨c, hcm, h2⟩
    · rcases C11_kill_atomic w fresh hb content t t' hc hp with h3 | h3
      · exact Or.inl (h2.trans h3)
      · exact Or.inr ⟨content, by simp, h2.trans h3⟩
    · exact Or.inr ⟨c, by simp [hcm], h2⟩
  | @powerLoss w w1 w' cs fresh content t t0 t1 hf hc hp1 hp0 hl hsync _ ih =>
    have hb : Before w fresh := ⟨fun i hi => (hr i hi).1, fun i hi => ⟨(hr i hi).2, by rintro rfl; exact hf hi⟩⟩
    have hr1 : Ready w1 := by
      intro i hi
      refine ⟨hsync i, ?_⟩
      rw [hl.2.2.1]
      rw [hl.2.1] at hi
      exact (ready_run hr hf hc (hp0.trans hp1) i hi).2
    obtain ⟨h1, h2⟩ := ih hr1
    refine ⟨h1, ?_⟩
    rcases h2 with h2 | ⟨c, hcm, h2⟩
    · rcases C11_power_loss_atomic w fresh hb content t t0 t1 hc hp1 hp0 w1 hl with h3 | h3
      · exact Or.inl (h2.trans h3)
      · exact Or.inr ⟨content, by simp, h2.trans h3⟩
    · exact Or.inr ⟨c, by simp [hcm], h2⟩

example : Ready wEx := by intro i h; cases h; decide
example : Updates wEx ["x\n".toList, "y\n".toList] ((wEx.run [.mkdir, .creat 2]).run [.mkdir, .creat 3, .write "y\n".toList, .fsync, .rename]) :=
  .ended 2 _ [.mkdir, .creat 2, .write "x\n".toList, .fsync, .rename] _ (by decide) (.ok ["x\n".toList] rfl) (by simp)
    (.ended 3 _ [.mkdir, .creat 3, .write "y\n".toList, .fsync, .rename] _ (by decide) (.ok ["y\n".toList] rfl) (List.prefix_refl _) (.none _))

/-! ## C45 -/

/-- Package directory `n` has no file list. -/
def Broken (raw : RawDb) : Prop := ∃ n d, (n, d) ∈ raw ∧ d.files = none

theorem loadRaw_none_iff (raw : RawDb) : loadRaw raw = none ↔ Broken raw := by
  induction raw with
  | nil => simp [loadRaw, Broken]
  | cons p raw ih =>
    obtain ⟨n, d⟩ := p
    simp only [loadRaw]
    cases hf : d.files with
    | none => simp only [true_iff]; exact ⟨n, d, by simp, hf⟩
    | some f =>
      cases hr : loadRaw raw with
      | none =>
        simp only [true_iff]
        obtain ⟨m, e, he, hn⟩ := ih.mp hr
        exact ⟨m, e, by simp [he], hn⟩
      | some db =>
        simp only [reduceCtorEq, false_iff]
        rintro ⟨m, e, he, hn⟩
        rcases List.mem_cons.mp he with he | he
        · cases he; rw [hf] at hn; cases hn
        · have := ih.mpr ⟨m, e, he, hn⟩; rw [hr] at this; cases this

/-- A database with a package directory without file list stops every later pkgadd and pkgrm command, so no history of these commands
repairs it. -/
theorem C45_broken_forever (cmds : List Cmd) (s : RawSys) (h : Broken s.raw) :
    (cmds.foldl (fun s c => (c.execRaw s).1) s) = s ∧ ∀ c : Cmd, (c.execRaw s).2 = some .cannotRead := by
  have hl := (loadRaw_none_iff s.raw).mpr h
  have h1 : ∀ c : Cmd, c.execRaw s = (s, some .cannotRead) := by
    intro c; unfold Cmd.execRaw; rw [hl]
  refine ⟨?_, fun c => by rw [h1]⟩
  induction cmds with
  | nil => rfl
  | cons c cs ih => simpa [h1] using ih

/-- Otherwise it is readable, with the recorded lists. -/
theorem C45_readable (db : Db) : loadRaw (unloadDb db) = some db := by
  induction db with
  | nil => rfl
  | cons p db ih =>
    obtain ⟨n, i⟩ := p
    simp only [unloadDb, List.map_cons] at ih ⊢
    simp only [loadRaw, ih, Option.getD_some]

/-- Wherever an install, an upgrade or a removal is interrupted, the directories of all other packages are as before. -/
theorem C45_others_intact (raw : RawDb) (name : Str) (d : PkgDir) (info : Info) (r : RawDb)
    (h : r ∈ removeRecordSteps raw name d ∨ r ∈ addRecordSteps raw name info ∨ r ∈ upgradeSteps raw name d info) (m : Str) (hm : m ≠ name) :
    mget r m = mget raw m := by
  have e1 : ∀ r, r ∈ removeRecordSteps raw name d → mget r m = mget raw m := by
    intro r hr
    simp only [removeRecordSteps, List.mem_cons, List.not_mem_nil, or_false] at hr
    rcases hr with rfl | rfl | rfl | rfl <;> simp [mget_mset, mget_merase, hm.symm]
  have e2 : ∀ raw r, r ∈ addRecordSteps raw name info → mget r m = mget raw m := by
    intro raw r hr
    simp only [addRecordSteps, List.mem_cons, List.not_mem_nil, or_false] at hr
    rcases hr with rfl | rfl | rfl | rfl <;> simp [mget_mset, hm.symm]
  rcases h with h | h | h
  · exact e1 r h
  · exact e2 raw r h
  · rcases List.mem_append.mp h with h | h
    · exact e1 r h
    · rw [e2 _ r h, mget_merase]; simp [hm.symm]

/-- Interrupting an install leaves a readable database exactly before the package directory is made and after its list is in place. -/
theorem C45_crash_partial (db : Db) (name : Str) (info : Info) (r : RawDb)
    (h : r ∈ addRecordSteps (unloadDb db) name info) :
    (loadRaw r = some db) ∨ (loadRaw r = none) ∨ (∃ db', loadRaw r = some db' ∧ mget db' name = some info ∧ ∀ m, m ≠ name → mget db' m = mget db m) := by
  have hmiss : ∀ d, d.files = none → loadRaw (mset name d (unloadDb db)) = none := by
    intro d hd
    rw [loadRaw_none_iff]
    refine ⟨name, d, ?_, hd⟩
    exact mget_some_mem (by simp [mget_mset])
  simp only [addRecordSteps, List.mem_cons, List.not_mem_nil, or_false] at h
  rcases h with rfl | rfl | rfl | rfl
  · exact .inl (C45_readable db)
  · exact .inr (.inl (hmiss _ rfl))
  · exact .inr (.inl (hmiss _ rfl))
  · right; right
    refine ⟨mset name info db, ?_, by simp [mget_mset], fun m hm => by simp [mget_mset, hm.symm]⟩
    have : mset name { md := some info.md, files := some info.files } (unloadDb db) = unloadDb (mset name info db) := by
      clear hmiss
      induction db with
      | nil => rfl
      | cons p db ih =>
        obtain ⟨n, i⟩ := p
        simp only [unloadDb, List.map_cons, mset] at ih ⊢
        split
        · rfl
        · split
          · rfl
          · simp only [List.map_cons]; rw [← ih]
    rw [this]; exact C45_readable _

/-- The full property fails: an install killed after the package directory is made leaves a database no command can read; so does a
removal killed before its directory is removed. -/
theorem C45_crash_counterexample :
    (∃ r ∈ addRecordSteps (unloadDb xSys.disk) "foo".toList { md := [], files := [] }, loadRaw r = none) ∧
    (∃ r ∈ removeRecordSteps [("foo".toList, ⟨some [], some []⟩)] "foo".toList ⟨some [], some []⟩, loadRaw r = none) := by
  constructor
  · exact ⟨_, List.mem_cons_of_mem _ (List.mem_cons_self ..), by
      rw [loadRaw_none_iff]; exact ⟨"foo".toList, ⟨none, none⟩, mget_some_mem (by simp [mget_mset]), rfl⟩⟩
  · exact ⟨[("foo".toList, ⟨none, none⟩)], by decide, by decide⟩

/-- And an upgrade killed between its two halves leaves a readable database in which the package is no longer installed. -/
theorem C45_upgrade_lost_counterexample :
    ∃ r ∈ upgradeSteps [("foo".toList, ⟨some [], some ["f".toList]⟩)] "foo".toList ⟨some [], some ["f".toList]⟩ { md := [], files := ["f".toList] },
      loadRaw r = some [] := ⟨[], by decide, by decide⟩

example : Broken [("foo".toList, ⟨some [], none⟩)] := ⟨_, _, List.mem_singleton.mpr rfl, rfl⟩

end Cards.Props
