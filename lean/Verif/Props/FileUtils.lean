import Mathlib.Tactic.Common
import Verif.Model.FileUtils
import Verif.Lemmas.Fs
import Verif.Lemmas.Names
import Verif.Props.Inside
/-!
# C104, C105: directories are made, files compared and copied
-/
namespace Cards.Props
open Cards

theorem isDir_iff {fs : Fs} {k : List Str} : fs.isDir k = true ↔ ∃ m, fs.get k = some (.dir m) := by
  unfold Fs.isDir
  split
  · rename_i m h; simp [h]
  · rename_i h
    constructor
    · intro x; cases x
    · rintro ⟨m, e⟩; exact absurd e (h m)

/-- All directories on the way to `k`, and `k` itself. -/
def DirsTo (fs : Fs) (k : List Str) : Prop := ∀ x, x ≠ [] → x <+: k → ∃ m, fs.get x = some (.dir m)

/-- Nothing else than directories on the way to `k`. -/
def NoFileOn (fs : Fs) (k : List Str) : Prop := ∀ x, x ≠ [] → x <+: k → ∀ c m, fs.get x ≠ some (.file c m)

/-- What a step may do: keep all there is, and add directories on the way to `k`. -/
structure OnlyDirs (fs fs' : Fs) (k : List Str) : Prop where
  keeps : ∀ x n, fs.get x = some n → fs'.get x = some n
  adds : ∀ x, fs.get x = none → fs'.get x = none ∨ (fs'.get x = some (.dir cardsMode) ∧ x ≠ [] ∧ x <+: k)

theorem OnlyDirs.refl (fs : Fs) (k : List Str) : OnlyDirs fs fs k := ⟨fun _ _ h => h, fun _ h => Or.inl h⟩

theorem OnlyDirs.trans {a b c : Fs} {k : List Str} (h1 : OnlyDirs a b k) (h2 : OnlyDirs b c k) : OnlyDirs a c k := by
  refine ⟨fun x n h => h2.keeps x n (h1.keeps x n h), fun x h => ?_⟩
  rcases h1.adds x h with h | ⟨h, h'⟩
  · exact h2.adds x h
  · exact Or.inr ⟨h2.keeps x _ h, h'⟩

theorem mkStep_only (fs : Fs) (p : Str) {k : List Str} (hp : comps p <+: k) : OnlyDirs fs (fs.mkStep p) k := by
  unfold Fs.mkStep
  split
  · exact OnlyDirs.refl fs k
  · unfold Fs.mkdir1
    split
    · rename_i h
      refine ⟨fun x n hx => ?_, fun x hx => ?_⟩
      · rw [Fs.get_set]
        split
        · rename_i e
          rw [← e, h.2.2.1] at hx
          cases hx
        · exact hx
      · rw [Fs.get_set]
        split
        · rename_i e
          right
          rw [← e]
          exact ⟨rfl, h.2.1, hp⟩
        · exact Or.inl hx
    · exact OnlyDirs.refl fs k

theorem mkStep_makes (fs : Fs) (p : Str) (hd : ∀ x, x ≠ [] → x <+: comps p → x ≠ comps p → ∃ m, fs.get x = some (.dir m)) (hn : NoFileOn fs (comps p)) :
    DirsTo (fs.mkStep p) (comps p) := by
  intro x hx hpre
  have only := mkStep_only fs p (k := comps p) List.prefix_rfl
  by_cases hxe : x = comps p
  · subst hxe
    by_cases hg : fs.get (comps p) = none
    · have hpne : p ≠ [] := by rintro rfl; exact hx rfl
      have hpar : (parents (comps p)).all fs.isDir = true := by
        rw [List.all_eq_true]
        intro y hy
        obtain ⟨y1, y2, y3⟩ := mem_parents.mp hy
        exact isDir_iff.mpr (hd y y1 y2 y3)
      refine ⟨cardsMode, ?_⟩
      unfold Fs.mkStep
      rw [if_neg, Fs.mkdir1, if_pos ⟨hpne, hx, hg, hpar⟩, Fs.get_set, if_pos rfl]
      intro ha
      unfold Fs.access at ha
      rw [Bool.and_eq_true, Bool.or_eq_true, Bool.and_eq_true] at ha
      rcases ha.2 with h | ⟨_, h⟩
      · exact hx (of_decide_eq_true h)
      · rw [Fs.lstat, hg] at h
        cases h
    · obtain ⟨n, hn'⟩ := Option.ne_none_iff_exists'.mp hg
      cases n with
      | file c m => exact absurd hn' (hn _ hx List.prefix_rfl c m)
      | dir m => exact ⟨m, only.keeps _ _ hn'⟩
  · obtain ⟨m, hm⟩ := hd x hx hpre hxe
    exact ⟨m, only.keeps _ _ hm⟩

theorem comps_noslash {w : Str} (h : '/' ∉ w) : comps w = if w = [] then [] else [w] := by
  split
  · rename_i e; subst e; rfl
  · rename_i e; exact comps_single ⟨e, h⟩

/-- Where the loop stands. -/
def Passed (fs : Fs) (d : Str) : Prop := '/' ∉ d ∨ ∃ a w, d = a ++ '/' :: w ∧ '/' ∉ w ∧ DirsTo fs (comps a)

theorem NoFileOn.mono {fs : Fs} {k k' : List Str} (h : NoFileOn fs k) (hk : k' <+: k) : NoFileOn fs k' := fun x hx hp => h x hx (hp.trans hk)

theorem Passed.makes {fs : Fs} {d : Str} (h : Passed fs d) (hn : NoFileOn fs (comps d)) : DirsTo (fs.mkStep d) (comps d) := by
  refine mkStep_makes fs d ?_ hn
  intro x hx hp hne
  have short : ∀ (ks : List Str) (w : Str), '/' ∉ w → x <+: ks ++ comps w → x ≠ ks ++ comps w → x <+: ks := by
    intro ks w hw hp hne
    rw [comps_noslash hw] at hp hne
    split at hp
    · rw [List.append_nil] at hp; exact hp
    · rename_i hw0
      rw [if_neg hw0] at hne
      rw [List.prefix_concat_iff] at hp
      exact hp.resolve_left hne
  rcases h with h | ⟨a, w, rfl, hw, hd⟩
  · have := short [] d h (by rw [List.nil_append]; exact hp) (by rw [List.nil_append]; exact hne)
    exact absurd (List.prefix_nil.mp this) hx
  · rw [Cards.Props.splitSlash_append] at hp hne
    exact hd x hx (short (comps a) w hw hp hne)

theorem NoFileOn.step {fs fs' : Fs} {k : List Str} (h : NoFileOn fs k) (ho : OnlyDirs fs fs' k) : NoFileOn fs' k := by
  intro x hx hp c m e
  cases hg : fs.get x with
  | none =>
    rcases ho.adds x hg with h1 | ⟨h1, _⟩
    · rw [h1] at e; cases e
    · rw [h1] at e; cases e
  | some n =>
    have := ho.keeps x n hg
    rw [this] at e
    cases e
    exact h x hx hp c m hg

theorem mkLoop_all : ∀ (r : Str) (fs : Fs) (d : Str), OnlyDirs fs (fs.mkLoop d r) (comps (d ++ r)) ∧
    (Passed fs d → NoFileOn fs (comps (d ++ r)) → DirsTo (fs.mkLoop d r) (comps (d ++ r))) := by
  intro r
  induction r with
  | nil =>
    intro fs d
    rw [List.append_nil, Fs.mkLoop]
    exact ⟨mkStep_only fs d List.prefix_rfl, fun h hn => h.makes hn⟩
  | cons c r ih =>
    intro fs d
    have e : d ++ c :: r = (d ++ [c]) ++ r := by simp
    rw [Fs.mkLoop]
    split
    · rename_i hc
      subst hc
      have hk : comps d <+: comps (d ++ '/' :: r) := by rw [Cards.Props.splitSlash_append]; exact List.prefix_append _ _
      have o1 := mkStep_only fs d hk
      obtain ⟨i1, i2⟩ := ih (fs.mkStep d) (d ++ ['/'])
      rw [← e] at i1 i2
      refine ⟨o1.trans i1, fun h hn => ?_⟩
      exact i2 (Or.inr ⟨d, [], rfl, by simp, h.makes (hn.mono hk)⟩) (hn.step o1)
    · rename_i hc
      obtain ⟨i1, i2⟩ := ih fs (d ++ [c])
      rw [← e] at i1 i2
      refine ⟨i1, fun h hn => i2 ?_ hn⟩
      rcases h with h | ⟨a, w, rfl, hw, hd⟩
      · left
        rw [List.mem_append, List.mem_singleton]
        rintro (x | x)
        · exact h x
        · exact hc x.symm
      · right
        refine ⟨a, w ++ [c], by simp, ?_, hd⟩
        rw [List.mem_append, List.mem_singleton]
        rintro (x | x)
        · exact hw x
        · exact hc x.symm

theorem comps_trimmed (p : Str) : comps (if endsSlash p then p.dropLast else p) = comps p := by
  split
  · rename_i h
    have hl : p.getLast? = some '/' := of_decide_eq_true h
    obtain ⟨q, rfl⟩ : ∃ q, p = q ++ ['/'] := by
      obtain ⟨q, hq⟩ := List.getLast?_eq_some_iff.mp hl
      exact ⟨q, hq⟩
    rw [List.dropLast_concat, Cards.Props.splitSlash_append]
    simp [comps, splitSlash]
  · rfl

/-- **C104**: nothing that is there is touched, and nothing is made but directories on the way (with the mode 755). -/
theorem C104_nothing_else (fs fs' : Fs) (p : Str) (ok : Bool) (h : createRecursiveDirs fs p = some (fs', ok)) : OnlyDirs fs fs' (comps p) := by
  unfold createRecursiveDirs at h
  split at h
  · cases h
  · split at h
    · cases h
      have := (mkLoop_all (if endsSlash p then p.dropLast else p) fs []).1
      rw [List.nil_append, comps_trimmed] at this
      exact this
    · cases h
      exact OnlyDirs.refl fs _

/-- **C104**: the directory and all those on the way to it are there afterwards exactly if no file was in the way. -/
theorem C104_made_iff (fs : Fs) (p : Str) (h1 : 1 < p.length) (h2 : p.length < 4096) : ∃ fs', createRecursiveDirs fs p = some (fs', true) ∧
    (DirsTo fs' (comps p) ↔ NoFileOn fs (comps p)) := by
  refine ⟨_, by rw [createRecursiveDirs, if_neg (by unfold maxPathLen; omega), if_pos h1], ?_, ?_⟩
  · intro hd x hx hp c m e
    have o := (mkLoop_all (if endsSlash p then p.dropLast else p) fs []).1
    obtain ⟨m', hm⟩ := hd x hx hp
    rw [o.keeps x _ e] at hm
    cases hm
  · intro hn
    have := (mkLoop_all (if endsSlash p then p.dropLast else p) fs []).2 (Or.inl (by simp))
    rw [List.nil_append, comps_trimmed] at this
    exact this hn

/-- **C104**: making it again changes nothing. -/
theorem C104_again (fs fs' : Fs) (p : Str) (ok : Bool) (h : createRecursiveDirs fs p = some (fs', ok)) (hn : NoFileOn fs (comps p)) (h1 : 1 < p.length) :
    ∃ fs'', createRecursiveDirs fs' p = some (fs'', true) ∧ ∀ x, fs''.get x = fs'.get x := by
  have h2 : p.length < 4096 := by
    unfold createRecursiveDirs maxPathLen at h
    split at h
    · cases h
    · omega
  obtain ⟨g, hg, hiff⟩ := C104_made_iff fs p h1 h2
  rw [hg] at h
  cases h
  obtain ⟨g', hg', _⟩ := C104_made_iff fs' p h1 h2
  refine ⟨g', hg', fun x => ?_⟩
  have o := C104_nothing_else _ _ _ _ hg'
  cases hx : fs'.get x with
  | some n => exact o.keeps x n hx
  | none =>
    rcases o.adds x hx with h | ⟨_, h3, h4⟩
    · exact h
    · obtain ⟨m, hm⟩ := hiff.mpr hn x h3 h4
      rw [hx] at hm
      cases hm

example : (createRecursiveDirs [(["var".toList], .dir 0o755)] "/var/log//cards/".toList).map (fun r => (r.1.get ["var".toList, "log".toList, "cards".toList], r.2)) =
    some (some (.dir 0o755), true) := by decide +kernel

/-- **C104, counterexample**: a file is in the way: nothing is made, and success is reported. -/
theorem C104_counterexample_file : createRecursiveDirs [(["log".toList], .file [] 0o644)] "/log/cards".toList = some ([(["log".toList], .file [] 0o644)], true) := by decide +kernel

/-- **C104, counterexample**: `/` is always there, and failure is reported. -/
theorem C104_counterexample_root (fs : Fs) : createRecursiveDirs fs "/".toList = some (fs, false) := rfl

/-- **C104, counterexample**: a directory of a relative name of one letter is not made. -/
theorem C104_counterexample_letter (fs : Fs) (c : Char) : createRecursiveDirs fs [c] = some (fs, false) := rfl

/-- **C104, counterexample**: a name of 4096 characters or more is written behind the buffer. -/
theorem C104_counterexample_long (fs : Fs) (p : Str) (h : 4096 ≤ p.length) : createRecursiveDirs fs p = none := by
  unfold createRecursiveDirs maxPathLen
  rw [if_pos h]

/-! ## Comparing and copying -/

theorem sameLoop_iff (n : Nat) (a b : Str) : sameLoop n a b = true ↔ a = b := by
  induction hk : a.length using Nat.strongRecOn generalizing a b with
  | _ k ih =>
    rw [sameLoop]
    split
    · rename_i h
      constructor
      · intro x; cases x
      · rintro rfl
        simp at h
    · rename_i h
      rw [not_or, not_or, not_not, not_not, not_not] at h
      obtain ⟨h1, h2, h3⟩ := h
      rw [decide_eq_decide] at h3
      split
      · rename_i hl
        have hb := h3.mp hl
        rw [List.take_of_length_le (by omega), List.take_of_length_le (by omega)] at h2
        simp [h2]
      · rename_i hl
        rw [ih (a.drop (n + 1)).length (by rw [List.length_drop]; omega) _ _ rfl]
        constructor
        · intro e
          rw [← List.take_append_drop (n + 1) a, ← List.take_append_drop (n + 1) b, h2, e]
        · rintro rfl; rfl

/-- **C105**: two regular files, of any size, are taken for equal exactly if their contents are. -/
theorem C105_regular (a b : Str) : checkFilesEqual (some (.reg a)) (some (.reg b)) = true ↔ a = b := sameLoop_iff _ a b

/-- **C105**: two symbolic links are taken for equal exactly if they point to the same place (a target has at most 4095 characters, and no NUL). -/
theorem C105_links (a b : Str) (ha : a.length < 4096 ∧ '\x00' ∉ a) (hb : b.length < 4096 ∧ '\x00' ∉ b) : checkFilesEqual (some (.link a)) (some (.link b)) = true ↔ a = b := by
  have h : ∀ t : Str, t.length < 4096 ∧ '\x00' ∉ t → linkText t = t := by
    intro t ht
    unfold linkText maxPathLen
    rw [List.take_of_length_le (by omega)]
    have := ht.2
    clear ht
    induction t with
    | nil => rfl
    | cons c t ih =>
      have hc : c ≠ '\x00' := by rintro rfl; exact this (List.mem_cons_self ..)
      rw [List.takeWhile_cons, if_pos (by simp [hc]), ih fun hm => this (List.mem_cons_of_mem _ hm)]
  rw [checkFilesEqual, h a ha, h b hb, decide_eq_true_eq]

/-- Regular files and links. -/
def FileKind.Usual : FileKind → Prop
  | .reg _ => True
  | .link t => t.length < 4096 ∧ '\x00' ∉ t
  | .dir => True
  | _ => False

/-- **C105**: in general: for files and links, equal exactly if of the same kind with the same contents; a directory is never equal to anything. -/
theorem C105_equal (x y : Option FileKind) (hx : ∀ k, x = some k → FileKind.Usual k) (hy : ∀ k, y = some k → FileKind.Usual k) :
    checkFilesEqual x y = true ↔ ∃ k, x = some k ∧ y = some k ∧ k ≠ .dir := by
  cases x with
  | none => simp [checkFilesEqual]
  | some k =>
    cases y with
    | none => cases k <;> simp [checkFilesEqual]
    | some k' =>
      have h1 := hx k rfl
      have h2 := hy k' rfl
      cases k with
      | reg a =>
        cases k' with
        | reg b => rw [C105_regular]; simp [eq_comm]
        | link b => simp [checkFilesEqual]
        | chr _ _ => exact h2.elim
        | blk _ _ => exact h2.elim
        | dir => simp [checkFilesEqual]
        | special _ => exact h2.elim
      | link a =>
        cases k' with
        | reg b => simp [checkFilesEqual]
        | link b => rw [C105_links a b h1 h2]; simp [eq_comm]
        | chr _ _ => exact h2.elim
        | blk _ _ => exact h2.elim
        | dir => simp [checkFilesEqual]
        | special _ => exact h2.elim
      | chr _ _ => exact h1.elim
      | blk _ _ => exact h1.elim
      | dir => cases k' <;> simp [checkFilesEqual]
      | special _ => exact h1.elim

theorem copyLoop_eq (n : Nat) (a : Str) : copyLoop n a = a := by
  induction hk : a.length using Nat.strongRecOn generalizing a with
  | _ k ih =>
    rw [copyLoop]
    split
    · rename_i h
      exact List.take_of_length_le (by omega)
    · rename_i h
      rw [ih (a.drop (n + 1)).length (by rw [List.length_drop]; omega) _ rfl, List.take_append_drop]

/-- **C105**: a copy has the contents of the file, of any size. -/
theorem C105_copy (a : Str) : copyFile (some a) = some (a, 0) := by
  rw [copyFile, Option.map_some, copyLoop_eq]

example : sameLoop 1 "abcd".toList "abcd".toList = true ∧ sameLoop 1 "abcd".toList "abce".toList = false ∧ sameLoop 1 "abcd".toList "abcde".toList = false := by decide +kernel

/-- **C105, counterexample**: two devices of one file system are taken for equal, whatever they stand for (`/dev/null` and `/dev/sda`-like nodes): `st_dev` is compared. -/
theorem C105_counterexample_device (dev r r' : Nat) : checkFilesEqual (some (.chr dev r)) (some (.chr dev r')) = true ∧ checkFilesEqual (some (.blk dev r)) (some (.blk dev r')) = true := by
  simp [checkFilesEqual]

/-- **C105, counterexample**: and the same device on two file systems is taken for two. -/
theorem C105_counterexample_same_device (r : Nat) : checkFilesEqual (some (.chr 1 r)) (some (.chr 2 r)) = false := rfl

/-- **C105, counterexample**: two pipes or sockets are never equal. -/
theorem C105_counterexample_special (k : Str) : checkFilesEqual (some (.special k)) (some (.special k)) = false := rfl

/-- **C105, counterexample**: copying a file that is not there is undefined. -/
theorem C105_counterexample_missing : copyFile none = none := rfl

end Cards.Props
