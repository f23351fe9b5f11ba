import Verif.Props.Resolve
/-!
# C23: package files are verified before they are used
-/
namespace Cards.Props
open Cards

/-- The file of the package is on disk and the signature listed for it verifies. -/
def Verified (net : Net) (files : List (Str × Str)) (n : Str) : Prop :=
  ∃ p c, mget net.repo n = some p ∧ mget files p.path = some c ∧ net.verify p.dirName p.signature (net.hash c) = some true

/-- No two packages of the repository share a file. -/
def OwnFiles (net : Net) : Prop := ∀ n m p q, mget net.repo n = some p → mget net.repo m = some q → p.path = q.path → n = m

/-- A signed archive carries the name it is listed under. -/
def OwnNames (net : Net) : Prop := ∀ n p c a, mget net.repo n = some p → net.verify p.dirName p.signature (net.hash c) = some true →
  net.opens c = some a → a.name = n

section
variable {net : Net}

theorem verified_download (ho : OwnFiles net) {n m : Str} {p : RepoPkg} (hp : mget net.repo n = some p) (hne : m ≠ n) {s s' : ResSt}
    (h : download net p n s = .ok s') (hv : Verified net s.files m) : Verified net s'.files m := by
  unfold download at h
  split at h
  · simp at h
  · injection h with h; subst h; exact hv
  · injection h with h
    subst h
    obtain ⟨q, c, h1, h2, h3⟩ := hv
    refine ⟨q, c, h1, ?_, h3⟩
    simp only
    rw [mget_mset, if_neg (fun e => hne (ho m n q p h1 hp e.symm)), h2]

theorem download_same {n : Str} {p : RepoPkg} {s s' : ResSt} (h : download net p n s = .ok s') :
    s'.cached = s.cached ∧ s'.out = s.out ∧ s'.work = s.work := by
  unfold download at h
  split at h
  · simp at h
  · injection h with h; subst h; exact ⟨rfl, rfl, rfl⟩
  · injection h with h; subst h; exact ⟨rfl, rfl, rfl⟩

theorem checkSign_ok {n : Str} {p : RepoPkg} (hp : mget net.repo n = some p) {s s' : ResSt} (h : checkSign net p n s = .ok s') :
    s' = s ∧ Verified net s.files n := by
  unfold checkSign at h
  split at h
  · simp at h
  · rename_i c hc
    split at h
    · simp at h
    · rename_i hv
      injection h with h
      exact ⟨h.symm, p, c, hp, hc, hv⟩
    · simp at h

theorem except_bind {α β ε : Type} {e : Except ε α} {f : α → Except ε β} {b : β} (h : (e >>= f) = .ok b) : ∃ a, e = .ok a ∧ f a = .ok b := by
  cases e with
  | error e => simp [bind, Except.bind] at h
  | ok a => exact ⟨a, rfl, h⟩

/-- After the check, the file of the package is verified, and what was verified still is. -/
theorem fetch_verified (hu : net.url ≠ []) (ho : OwnFiles net) {n : Str} {p : RepoPkg} (hp : mget net.repo n = some p) {s s' : ResSt}
    (h : fetchAndCheck net p n s = .ok s') :
    Verified net s'.files n ∧ (∀ m, Verified net s.files m → Verified net s'.files m) ∧
      s'.cached = s.cached ∧ s'.out = s.out ∧ s'.work = s.work := by
  unfold fetchAndCheck at h
  rw [if_neg hu] at h
  obtain ⟨s2, h, h3⟩ := except_bind h
  obtain ⟨s1, h1, h2⟩ := except_bind h
  have k1 : (∀ m ≠ n, Verified net s.files m → Verified net s1.files m) ∧ s1.cached = s.cached ∧ s1.out = s.out ∧ s1.work = s.work := by
    unfold ensureFile at h1
    split at h1
    · exact ⟨fun m hm => verified_download ho hp hm h1, download_same h1⟩
    · injection h1 with h1; subst h1; exact ⟨fun _ _ h => h, rfl, rfl, rfl⟩
  have k2 : (∀ m ≠ n, Verified net s1.files m → Verified net s2.files m) ∧ s2.cached = s1.cached ∧ s2.out = s1.out ∧ s2.work = s1.work := by
    unfold recheckFile at h2
    split at h2
    · simp at h2
    · split at h2
      · injection h2 with h2; subst h2; exact ⟨fun _ _ h => h, rfl, rfl, rfl⟩
      · exact ⟨fun m hm => verified_download ho hp hm h2, download_same h2⟩
  obtain ⟨rfl, hv⟩ := checkSign_ok hp h3
  refine ⟨hv, ?_, by rw [k2.2.1, k1.2.1], by rw [k2.2.2.1, k1.2.2.1], by rw [k2.2.2.2, k1.2.2.2]⟩
  intro m hm
  by_cases e : m = n
  · rw [e]; exact hv
  · exact k2.1 m e (k1.1 m e hm)

/-- What is remembered or listed is verified. -/
def AllVerified (net : Net) (s : ResSt) : Prop := ∀ m, m ∈ s.cached ∨ m ∈ s.out.map (·.1) → Verified net s.files m

theorem directDeps_verified (hu : net.url ≠ []) (ho : OwnFiles net) (hn : OwnNames net) {n : Str} {s s' : ResSt} {deps : List (Str × Nat)}
    (h : directDeps net n s = .ok (s', deps)) (hv : AllVerified net s) :
    AllVerified net s' ∧ Verified net s'.files n ∧ (∀ m, Verified net s.files m → Verified net s'.files m) ∧ s'.out = s.out := by
  unfold directDeps at h
  split at h
  · rename_i hc
    injection h with h
    injection h with h _
    subst h
    exact ⟨hv, hv n (Or.inl (by simpa using hc)), fun _ h => h, rfl⟩
  · split at h
    · simp at h
    · rename_i p hp
      obtain ⟨s1, h1, h⟩ := except_bind h
      obtain ⟨a1, a2, a3, a4, a5⟩ := fetch_verified hu ho hp h1
      have av : AllVerified net s1 := by
        intro m hm
        rw [a3, a4] at hm
        exact a2 m (hv m hm)
      unfold packageDependencies at h
      split at h
      · simp at h
      · rename_i c hc
        split at h
        · simp at h
        · rename_i a ha
          split at h
          · injection h with h; injection h with h _; subst h
            exact ⟨av, a1, a2, a4⟩
          · injection h with h; injection h with h _; subst h
            refine ⟨?_, a1, a2, a4⟩
            have hname : a.name = n := by
              obtain ⟨q, c', b1, b2, b3⟩ := a1
              rw [hp] at b1
              injection b1 with b1
              subst b1
              rw [hc] at b2
              injection b2 with b2
              subst b2
              exact hn n p c a hp b3 ha
            intro m hm
            simp only at hm
            rw [mem_sinsert, hname] at hm
            rcases hm with (rfl | hm) | hm
            · exact a1
            · exact av m (Or.inl hm)
            · exact av m (Or.inr hm)

theorem resolveStep_verified (hu : net.url ≠ []) (ho : OwnFiles net) (hn : OwnNames net) {x : Str × Nat} {s s' : ResSt}
    (h : resolveStep net x s = .ok s') (hv : AllVerified net s) :
    AllVerified net s' ∧ (∀ m, Verified net s.files m → Verified net s'.files m) := by
  unfold resolveStep at h
  obtain ⟨⟨s1, deps⟩, h1, h⟩ := except_bind h
  obtain ⟨a1, a2, a3, a4⟩ := directDeps_verified hu ho hn h1 hv
  simp only at h
  injection h with h
  subst h
  refine ⟨?_, a3⟩
  intro m hm
  simp only at hm ⊢
  rcases hm with hm | hm
  · exact a1 m (Or.inl hm)
  · split at hm
    · exact a1 m (Or.inr hm)
    · rw [List.map_append, List.mem_append] at hm
      rcases hm with hm | hm
      · exact a1 m (Or.inr hm)
      · simp only [List.map_cons, List.map_nil, List.mem_singleton] at hm
        rw [hm]; exact a2

theorem depLoop_verified (hu : net.url ≠ []) (ho : OwnFiles net) (hn : OwnNames net) (fuel : Nat) {s s' : ResSt}
    (h : depLoop net fuel s = .ok s') (hv : AllVerified net s) :
    AllVerified net s' ∧ (∀ m, Verified net s.files m → Verified net s'.files m) := by
  induction fuel generalizing s with
  | zero => simp [depLoop] at h
  | succ fuel ih =>
    cases hw : s.work with
    | nil =>
      rw [depLoop, hw] at h
      injection h with h
      subst h
      exact ⟨hv, fun _ h => h⟩
    | cons x w =>
      rw [depLoop_cons fuel hw] at h
      obtain ⟨s1, h1, h⟩ := except_bind h
      obtain ⟨a1, a2⟩ := resolveStep_verified hu ho hn h1 (s := { s with work := w }) (by intro m hm; exact hv m hm)
      obtain ⟨b1, b2⟩ := ih h a1
      exact ⟨b1, fun m hm => b2 m (a2 m hm)⟩

/-- Everything the session has listed or remembers is verified. -/
def SessVerified (net : Net) (r : RepoSess) : Prop := ∀ m, m ∈ r.cached ∨ m ∈ r.list.map (·.1) → Verified net r.files m

/-- **C23.** With a global URL, distinct files and archives signed under their own names, whatever was on disk and whatever the downloads deliver: if
resolution succeeds, the file of every package handed to the installer is on disk and its signature verifies with the key of its collection. -/
theorem C23_verified_partial (hu : net.url ≠ []) (ho : OwnFiles net) (hn : OwnNames net) (fuel : Nat) (root : Str) (r r' : RepoSess)
    (hr : SessVerified net r) (h : generateDeps net fuel root r = .ok r') : SessVerified net r' := by
  unfold generateDeps at h
  cases hs : depLoop net fuel { work := [(root, 0)], cached := r.cached, out := [], files := r.files, clock := r.clock } with
  | error e => rw [hs] at h; simp at h
  | ok s =>
    rw [hs] at h
    injection h with h
    subst h
    obtain ⟨a, b⟩ := depLoop_verified hu ho hn fuel hs (by
      intro m hm
      rcases hm with hm | hm
      · exact hr m (Or.inl hm)
      · simp at hm)
    intro m hm
    simp only at hm ⊢
    rcases hm with hm | hm
    · exact a m (Or.inl hm)
    · obtain ⟨new, e, _, h3⟩ := merge_step r.list s.out.reverse
      unfold mergeDeps at hm
      rw [e, h3, List.map_reverse, List.mem_reverse] at hm
      rcases hm with hm | hm
      · exact b m (hr m (Or.inr hm))
      · exact a m (Or.inr hm)

/-- **C23, hash.** When the signature listed for a package is valid for the hash listed for it and for no other, the files also have the listed hash. -/
theorem C23_hash_partial (hsig : ∀ n p h, mget net.repo n = some p → net.verify p.dirName p.signature h = some true → hashEq h p.hash = true)
    (r : RepoSess) (hr : SessVerified net r) (m : Str) (hm : m ∈ r.list.map (·.1)) :
    ∃ p c, mget net.repo m = some p ∧ mget r.files p.path = some c ∧ hashEq (net.hash c) p.hash = true := by
  obtain ⟨p, c, h1, h2, h3⟩ := hr m (Or.inr hm)
  exact ⟨p, c, h1, h2, hsig m p _ h1 h3⟩

/-- **C23** is false without the global `url` line: nothing is downloaded or verified, even for a collection that has its own URL. -/
theorem C23_no_global_url_counterexample (hu : net.url = []) (p : RepoPkg) (n : Str) (s : ResSt) : fetchAndCheck net p n s = .ok s := by
  unfold fetchAndCheck
  rw [if_pos hu]

end

/-! ### A concrete repository -/

/-- The signature of a file is valid when it is the content with `!` in front. -/
def sNet (files : List (Str × Str)) (fetch : Nat → Str → Fetch) : Net :=
  { url := "https://x".toList, db := xDb, hash := id, verify := fun _ sig h => some (decide (sig = '!' :: h)),
    repo := files.map (fun p => (p.1, { xPkg p.1 [] with origin := "https://x".toList, hash := p.2, signature := '!' :: p.2 })),
    opens := fun c => some ⟨c.takeWhile (fun x => x ≠ ' '), "1".toList, 1, 5, [],
      if c = "tool wants libz".toList then [("libz".toList, 5)] else if c = "libz wants".toList then [("aaaa".toList, 5)] else []⟩,
    fetch := fetch }

def sFiles : List (Str × Str) := [("libz".toList, "libz".toList), ("tool".toList, "tool wants libz".toList)]
/-- The server delivers the right files. -/
def sServer (_ : Nat) (n : Str) : Fetch := match mget sFiles n with | some c => .got c | none => .failed
/-- The server delivers something else. -/
def sBadServer (_ : Nat) (_ : Str) : Fetch := .got "libz rootkit".toList

/-- A damaged file on disk is replaced; a damaged download makes the command fail. -/
example : resolved (sNet sFiles sServer) 10 "tool".toList ⟨[], [], [("/r/libz".toList, "libz rootkit".toList)], 0⟩ =
    some ["libz".toList, "tool".toList] := by decide +kernel
example : resolved (sNet sFiles sBadServer) 10 "libz".toList ⟨[], [], [], 0⟩ = none := by decide +kernel

theorem sNet_repo {files : List (Str × Str)} {fetch : Nat → Str → Fetch} {n : Str} {p : RepoPkg} (h : mget (sNet files fetch).repo n = some p) :
    ∃ c, (n, c) ∈ files ∧ p = { xPkg n [] with origin := "https://x".toList, hash := c, signature := '!' :: c } := by
  have hm := mget_some_mem h
  obtain ⟨x, hx, e⟩ := List.mem_map.mp hm
  injection e with e1 e2
  refine ⟨x.2, ?_, ?_⟩
  · rw [← e1]; exact hx
  · rw [← e2, ← e1]

theorem sFiles_names : ∀ x ∈ sFiles, x.2.takeWhile (fun y => y ≠ ' ') = x.1 := by decide +kernel
theorem sFiles_paths : ∀ x ∈ sFiles, ∀ y ∈ sFiles, (xPkg x.1 []).path = (xPkg y.1 []).path → x.1 = y.1 := by decide +kernel

example : OwnFiles (sNet sFiles sServer) ∧ OwnNames (sNet sFiles sServer) ∧ SessVerified (sNet sFiles sServer) ⟨[], [], [], 0⟩ := by
  refine ⟨?_, ?_, ?_⟩
  · intro n m p q hp hq e
    obtain ⟨c, h1, rfl⟩ := sNet_repo hp
    obtain ⟨d, h2, rfl⟩ := sNet_repo hq
    exact sFiles_paths _ h1 _ h2 e
  · intro n p c a hp hv ha
    obtain ⟨d, h1, rfl⟩ := sNet_repo hp
    have hd : ('!' :: d) = '!' :: c := of_decide_eq_true (Option.some.inj hv)
    have hc : d = c := (List.cons.inj hd).2
    have hn := sFiles_names _ h1
    rw [← Option.some.inj ha]
    simp only at hn
    rw [← hc]
    exact hn
  · intro m hm; simp at hm

/-- An archive signed as `aaaa` whose own name is `libz`. -/
def sLiar : List (Str × Str) := [("aaaa".toList, "libz".toList), ("libz".toList, "libz".toList), ("tool".toList, "tool".toList)]

/-- **C23** is false when a signed archive carries the name of another package: that one is then handed to the installer unverified. Here the file
of `libz` on disk was never checked. -/
theorem C23_other_name_counterexample :
    (generateDeps (sNet sLiar (fun _ _ => .failed)) 10 "aaaa".toList
      ⟨[], [], [("/r/aaaa".toList, "libz".toList), ("/r/libz".toList, "rootkit".toList)], 0⟩).toOption.map (fun r => (r.list.map (·.1), r.files)) =
      some (["libz".toList, "aaaa".toList], [("/r/aaaa".toList, "libz".toList), ("/r/libz".toList, "rootkit".toList)]) := by decide +kernel

end Cards.Props
