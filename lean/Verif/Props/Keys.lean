import Verif.Model.Keys
import Verif.Lemmas.Trans
/-!
# C84: `cards keys`
-/
namespace Cards.Props
open Cards

/-! ## Specification -/

/-- Somebody else than the owner may read the file. -/
def OthersRead (f : KeyFile) : Prop := f.mode &&& 0o044 ≠ 0

/-- The private key was where somebody else could read it. -/
def Exposed (sk path : Str) (states : List KeyFs) : Prop := ∃ w ∈ states, ∃ f, mget w path = some f ∧ f.content = sk ∧ OthersRead f

/-- The files hold the pair. -/
def HasPair (w : KeyFs) (path sk pk : Str) : Prop :=
  (∃ f, mget w path = some f ∧ f.content = sk) ∧ ∃ g, mget w publicPath = some g ∧ g.content = pk

/-- The directory name is one that can be used: not the one that makes the two names the same. -/
theorem paths_differ (keypath : Str) : keypath ++ privateName ≠ publicPath := by
  intro h
  have := congrArg (fun l => l.getLast?) h
  have h1 : privateName.getLast? = some 'y' := by decide
  have h2 : publicPath.getLast? = some 'Y' := by decide
  rw [List.getLast?_append, h1, h2] at this
  exact absurd (Option.some.inj this) (by decide)

section
variable {E : KeyEnv} {keypath sk pk : Str} {w : KeyFs}

theorem mget_open {u : Nat} {p q : Str} {w : KeyFs} : mget (openTrunc u p w) q =
    if p = q then some { content := [], mode := match mget w p with | some f => f.mode | none => 0o666 &&& (0o777 ^^^ u) } else mget w q := by
  unfold openTrunc
  split <;> rename_i h <;> rw [mget_mset, h]

theorem mget_close {t : Str} {k : Option Nat} {p q : Str} {w : KeyFs} : mget (closeFile t k p w) q =
    if p = q then (mget w p).map (fun f => { f with content := match k with | none => t | some k => t.take k }) else mget w q := by
  unfold closeFile
  split
  · rename_i h; rw [mget_mset, h]; rfl
  · rename_i h
    split
    · rename_i hpq; rw [← hpq, h]; rfl
    · rfl

theorem mget_chmod {m : Nat} {p q : Str} {w : KeyFs} : mget (chmodFile p m w) q =
    if p = q then (mget w p).map (fun f => { f with mode := m }) else mget w q := by
  unfold chmodFile
  split
  · rename_i h; rw [mget_mset, h]; rfl
  · rename_i h
    split
    · rename_i hpq; rw [← hpq, h]; rfl
    · rfl

/-- Only the two key files ever change, at whatever moment the command ends or is killed; a file is not touched before the one opened first. -/
theorem C84_only_keys (E : KeyEnv) (keypath : Str) (w : KeyFs) : ∀ w' ∈ (makeKeys E keypath w).1, ∀ p, p ≠ keypath ++ privateName → p ≠ publicPath →
    mget w' p = mget w p := by
  intro w' hw' p h1 h2
  unfold makeKeys writePublic at hw'
  simp only at hw'
  (repeat' split at hw') <;>
    simp only [List.append_nil, List.cons_append, List.nil_append, List.mem_cons, List.not_mem_nil, or_false] at hw' <;>
    (repeat' rcases hw' with rfl | hw') <;> (try subst hw') <;>
    simp [mget_open, mget_close, mget_chmod, Ne.symm h1, Ne.symm h2]

/-- Without a configured key path, or when no key can be made, nothing is changed and the command fails. -/
theorem C84_refused (E : KeyEnv) (keypath : Str) (w : KeyFs) (h : keypath = [] ∨ E.pair = none) :
    keysEnd E keypath w = w ∧ (makeKeys E keypath w).1 = [w] ∧ (makeKeys E keypath w).2 ≠ none := by
  unfold keysEnd makeKeys
  rcases h with h | h
  · simp [h]
  · by_cases hk : keypath = [] <;> simp [hk, h]

/-- **C84.** After a success of a run in which everything written reached the disk the two files hold the new pair, the private key can be read and written by its
owner only, and every other file is as before. -/
theorem C84_pair_partial (h : (makeKeys E keypath w).2 = none) (hf : E.flushPriv = none) (hg : E.flushPub = none) :
    ∃ sk pk, E.pair = some (sk, pk) ∧ HasPair (keysEnd E keypath w) (keypath ++ privateName) sk pk ∧
      (∃ f, mget (keysEnd E keypath w) (keypath ++ privateName) = some f ∧ f.mode = 0o600) ∧
      ∀ p, p ≠ keypath ++ privateName → p ≠ publicPath → mget (keysEnd E keypath w) p = mget w p := by
  have hd := paths_differ keypath
  have hend : ∀ p, p ≠ keypath ++ privateName → p ≠ publicPath → mget (keysEnd E keypath w) p = mget w p := by
    intro p h1 h2
    refine C84_only_keys E keypath w _ ?_ p h1 h2
    unfold keysEnd
    have : (makeKeys E keypath w).1 ≠ [] := by
      unfold makeKeys
      simp only
      repeat' split
      all_goals simp
    rw [List.getLastD_eq_getLast?, List.getLast?_eq_some_getLast this]
    exact List.getLast_mem this
  revert hend
  unfold keysEnd
  revert h
  unfold makeKeys writePublic
  simp only
  by_cases hk : keypath = []
  · simp [hk]
  · rw [if_neg hk]
    cases hp : E.pair with
    | none => simp
    | some pr =>
      obtain ⟨sk, pk⟩ := pr
      simp only
      cases E.openPriv <;> cases E.pemPriv <;> cases E.chmodOk <;> cases E.openPub <;> cases E.pemPub <;> simp
      intro hend
      refine ⟨sk, pk, ⟨rfl, rfl⟩, ?_, ?_, hend⟩
      · refine ⟨?_, ?_⟩
        · simp [mget_open, mget_close, mget_chmod, hf, Ne.symm hd]
        · simp [mget_open, mget_close, mget_chmod, hg]
      · simp [mget_open, mget_close, mget_chmod, Ne.symm hd]

/-- The permissions of the private key file while it is written. -/
def whileWritten (E : KeyEnv) (w : KeyFs) (path : Str) : Nat :=
  match mget w path with | some f => f.mode | none => 0o666 &&& (0o777 ^^^ E.umask)

/-- **C84, secrecy.** When the key file is new and the umask takes the permissions of the others away, or it was there with safe permissions, nobody else can read
the private key at any moment, however the command ends or is killed. -/
theorem C84_secret_partial (hp : E.pair = some (sk, pk)) (hnew : ∀ f, mget w (keypath ++ privateName) = some f → f.content ≠ sk)
    (hsafe : whileWritten E w (keypath ++ privateName) &&& 0o044 = 0) : ¬ Exposed sk (keypath ++ privateName) (makeKeys E keypath w).1 := by
  have hd := paths_differ keypath
  rintro ⟨w', hw', f, hf, hc, hr⟩
  have hz : (0o600 : Nat) &&& 0o044 = 0 := by decide
  unfold whileWritten at hsafe
  unfold makeKeys writePublic at hw'
  rw [hp] at hw'
  simp only at hw'
  have key : f.mode &&& 0o044 = 0 := by
    (repeat' split at hw') <;>
      simp only [List.append_nil, List.cons_append, List.nil_append, List.mem_cons, List.not_mem_nil, or_false] at hw' <;>
      (repeat' rcases hw' with rfl | hw') <;> (try subst hw') <;>
      (try exact absurd hc (hnew f hf)) <;>
      (simp [mget_open, mget_close, mget_chmod, Ne.symm hd] at hf; subst hf; assumption)
  exact hr key

/-- **C84 fails with an ordinary umask**: whoever makes a new key with a umask that leaves the others a read permission, or over a file the others can read, has the
private key readable for them while it is already in the file. -/
theorem C84_exposed_counterexample (hk : keypath ≠ []) (hp : E.pair = some (sk, pk)) (ho : E.openPriv = true) (hpem : E.pemPriv = true) (hf : E.flushPriv = none)
    (hread : whileWritten E w (keypath ++ privateName) &&& 0o044 ≠ 0) : Exposed sk (keypath ++ privateName) (makeKeys E keypath w).1 := by
  refine ⟨closeFile sk E.flushPriv (keypath ++ privateName) (openTrunc E.umask (keypath ++ privateName) w), ?_,
    { content := sk, mode := whileWritten E w (keypath ++ privateName) }, ?_, rfl, hread⟩
  · unfold makeKeys
    simp only [hk, if_false, hp, ho, hpem, Bool.not_true, Bool.false_eq_true]
    cases E.chmodOk <;> simp
  · rw [mget_close, if_pos rfl, mget_open, if_pos rfl, hf]; rfl

/-- **C84, an existing key is not kept**: once the private key file has been opened, the old key is gone, also when the command then fails - here, when the public key
file cannot be opened. The public key that is published still belongs to the old one. -/
theorem C84_old_key_counterexample (hk : keypath ≠ []) (hp : E.pair = some (sk, pk)) (ho : E.openPriv = true) (hpem : E.pemPriv = true)
    (hf : E.flushPriv = none) (hc : E.chmodOk = true) (hpub : E.openPub = false) :
    (makeKeys E keypath w).2 = some (.openFile publicPath) ∧ mget (keysEnd E keypath w) (keypath ++ privateName) = some { content := sk, mode := 0o600 } ∧
      mget (keysEnd E keypath w) publicPath = mget w publicPath := by
  have hd := paths_differ keypath
  unfold keysEnd makeKeys writePublic
  simp only [hk, if_false, hp, ho, hpem, hc, hpub, Bool.not_true, Bool.not_false, if_true, Bool.false_eq_true]
  refine ⟨trivial, ?_, ?_⟩
  · simp [mget_open, mget_close, mget_chmod, hf]
  · simp [mget_open, mget_close, mget_chmod, hd]

/-- What the two files hold at any moment: the old content, part of the new one (also none), or the new one; the public key is only touched when the private
one is complete, as far as it reached the disk. -/
theorem C84_moments (hk : keypath ≠ []) (hp : E.pair = some (sk, pk)) : ∀ w' ∈ (makeKeys E keypath w).1,
    mget w' publicPath = mget w publicPath ∧
      (mget w' (keypath ++ privateName) = mget w (keypath ++ privateName) ∨ ∃ f, mget w' (keypath ++ privateName) = some f ∧ f.content <+: sk) ∨
    (∃ f g, mget w' (keypath ++ privateName) = some f ∧ f.mode = 0o600 ∧ f.content <+: sk ∧ (E.flushPriv = none → f.content = sk) ∧
      mget w' publicPath = some g ∧ g.content <+: pk) := by
  have hd := paths_differ keypath
  have ht : ∀ (k : Option Nat) (t : Str), (match k with | none => t | some k => t.take k) <+: t := by
    intro k t; cases k with
    | none => exact List.prefix_refl t
    | some k => exact List.take_prefix k t
  intro w' hw'
  unfold makeKeys writePublic at hw'
  rw [hp] at hw'
  simp only [hk, if_false] at hw'
  (repeat' split at hw') <;>
    simp only [List.append_nil, List.cons_append, List.nil_append, List.mem_cons, List.not_mem_nil, or_false] at hw' <;>
    (repeat' rcases hw' with rfl | hw') <;> (try subst hw') <;>
    (try (left; simp [mget_open, mget_close, mget_chmod, hd]; done)) <;>
    (try (left; simp [mget_open, mget_close, mget_chmod, hd, ht]; done)) <;>
    (right; simp [mget_open, mget_close, mget_chmod, Ne.symm hd, ht]; try (intro h; rw [h]))

end

/-! ## Cases -/

def xKeys : KeyEnv where
  pair := some ("secret".toList, "public".toList)
  umask := 0o022
  openPriv := true
  pemPriv := true
  flushPriv := none
  chmodOk := true
  openPub := true
  pemPub := true
  flushPub := none

/-- A first pair of keys, with the usual umask: the command succeeds; the private key was readable for everybody for a moment. -/
example : (makeKeys xKeys "/k".toList []).2 = none ∧
    keysEnd xKeys "/k".toList [] = [("./.PKEY".toList, ⟨"public".toList, 0o644⟩), ("/k/.private.key".toList, ⟨"secret".toList, 0o600⟩)] ∧
    whileWritten xKeys [] ("/k".toList ++ privateName) &&& 0o044 ≠ 0 := by
  decide +kernel

/-- With a umask of 077 the hypotheses of `C84_secret_partial` hold. -/
example : whileWritten { xKeys with umask := 0o077 } [] ("/k".toList ++ privateName) &&& 0o044 = 0 ∧ mget ([] : KeyFs) ("/k".toList ++ privateName) = none := by
  decide +kernel

/-- Over an existing pair, without the right to write here: the hypotheses of `C84_old_key_counterexample`. -/
example : (makeKeys { xKeys with openPub := false } "/k".toList [("./.PKEY".toList, ⟨"old public".toList, 0o644⟩),
    ("/k/.private.key".toList, ⟨"old".toList, 0o600⟩)]).2 = some (.openFile publicPath) := by
  decide +kernel

/-- **C84 fails on a full disk**: nothing of the private key reaches the disk when the file is closed, and the command succeeds. -/
theorem C84_full_disk_counterexample : (makeKeys { xKeys with flushPriv := some 0 } "/k".toList []).2 = none ∧
    mget (keysEnd { xKeys with flushPriv := some 0 } "/k".toList []) ("/k".toList ++ privateName) = some ⟨[], 0o600⟩ := by
  decide +kernel

end Cards.Props
