import Verif.Model.Conf
import Verif.Spec.Conf
import Verif.Props.LineFile
import Verif.Props.Strings
/-!
# C32: configuration precedence
-/
namespace Cards.Props
open Cards Cards.Spec

theorem cut_at (c : Char) (s : Str) :
    (c ∉ s ∧ s.takeWhile (fun x => x ≠ c) = s ∧ s.dropWhile (fun x => x ≠ c) = []) ∨
    (∃ b r, s = b ++ c :: r ∧ c ∉ b ∧ s.takeWhile (fun x => x ≠ c) = b ∧ s.dropWhile (fun x => x ≠ c) = c :: r) := by
  induction s with
  | nil => simp
  | cons x s ih =>
    by_cases hx : x = c
    · subst hx
      exact Or.inr ⟨[], s, by simp⟩
    · rcases ih with ⟨h1, h2, h3⟩ | ⟨b, r, h1, h2, h3, h4⟩
      · refine Or.inl ⟨?_, ?_, ?_⟩
        · simp only [List.mem_cons, not_or]; exact ⟨fun e => hx e.symm, h1⟩
        · rw [List.takeWhile_cons, if_pos (by simpa using hx), h2]
        · rw [List.dropWhile_cons, if_pos (by simpa using hx), h3]
      · refine Or.inr ⟨x :: b, r, by rw [h1]; rfl, ?_, ?_, ?_⟩
        · simp only [List.mem_cons, not_or]; exact ⟨fun e => hx e.symm, h2⟩
        · rw [List.takeWhile_cons, if_pos (by simpa using hx), h3]
        · rw [List.dropWhile_cons, if_pos (by simpa using hx), h4]

theorem cut_unique {c : Char} {b b' r r' : Str} (h : b ++ c :: r = b' ++ c :: r') (hb : c ∉ b) (hb' : c ∉ b') : b = b' ∧ r = r' := by
  induction b generalizing b' with
  | nil =>
    cases b' with
    | nil => simpa using h
    | cons x b' => simp at h hb'; exact absurd h.1 hb'.1
  | cons x b ih =>
    cases b' with
    | nil => simp at h hb; exact absurd h.1.symm hb.1
    | cons y b' =>
      simp only [List.cons_append, List.cons.injEq, List.mem_cons, not_or] at h hb hb'
      obtain ⟨h1, h2⟩ := ih h.2 hb.2 hb'.2
      exact ⟨by rw [h.1, h1], h2⟩

theorem strip_cons_white (c : Char) (s : Str) (h : isSpaceC c = true) : stripWhiteSpace (c :: s) = stripWhiteSpace s := by
  unfold stripWhiteSpace
  rw [List.dropWhile_cons, if_pos h]

/-- The reader of a line finds the setting of the line, and nothing else. -/
theorem confSplit_iff (l : Str) (_hnl : '\n' ∉ l) (hnul : '\x00' ∉ l) (k v : Str) :
    confSplit (l ++ ['\n']) = some (k, v) ↔ Setting l k v := by
  have e1 : (l ++ ['\n']).takeWhile (fun c => c ≠ '\x00') = l ++ ['\n'] := by
    rcases cut_at '\x00' (l ++ ['\n']) with ⟨-, h, -⟩ | ⟨b, r, h, -⟩
    · exact h
    · exfalso
      have : '\x00' ∈ l ++ ['\n'] := by rw [h]; simp
      rcases List.mem_append.mp this with h | h
      · exact hnul h
      · simp at h
  have e2 : (if (l ++ ['\n']).getLast? = some '\n' then (l ++ ['\n']).dropLast else l ++ ['\n']) = l := by
    rw [if_pos (by simp), List.dropLast_concat]
  unfold confSplit
  simp only [e1, e2]
  -- the body
  have hbody : (l = l.takeWhile (fun c => c ≠ '#') ∧ '#' ∉ l.takeWhile (fun c => c ≠ '#')) ∨
      (∃ comment, l = l.takeWhile (fun c => c ≠ '#') ++ '#' :: comment ∧ '#' ∉ l.takeWhile (fun c => c ≠ '#')) := by
    rcases cut_at '#' l with ⟨h1, h2, -⟩ | ⟨b, r, h1, h2, h3, -⟩
    · rw [h2]; exact Or.inl ⟨rfl, h1⟩
    · rw [h3]; exact Or.inr ⟨r, h1, h2⟩
  have huniq : ∀ body, ((l = body ∧ '#' ∉ body) ∨ (∃ comment, l = body ++ '#' :: comment ∧ '#' ∉ body)) →
      body = l.takeWhile (fun c => c ≠ '#') := by
    rintro body (⟨h1, h2⟩ | ⟨r, h1, h2⟩)
    · subst h1
      rcases cut_at '#' l with ⟨-, h3, -⟩ | ⟨b, r, h3, -⟩
      · exact h3.symm
      · exact absurd (by rw [h3]; simp) h2
    · rcases cut_at '#' l with ⟨h3, -⟩ | ⟨b, r', h3, h4, h5, -⟩
      · exact absurd (by rw [h1]; simp) h3
      · rw [h5]
        exact (cut_unique (h1.symm.trans h3) h2 h4).1
  generalize hB : l.takeWhile (fun c => c ≠ '#') = B at *
  constructor
  · intro h
    split at h
    · rename_i hs
      simp only [Option.some.injEq, Prod.mk.injEq] at h
      obtain ⟨rfl, rfl⟩ := h
      rcases cut_at ' ' B with ⟨h1, -⟩ | ⟨b, r, h1, h2, h3, h4⟩
      · exact absurd hs h1
      · refine ⟨B, r, hbody, Or.inl ⟨by rw [h3]; exact h2, by rw [h3]; exact h1⟩, ?_⟩
        rw [h4, strip_cons_white _ _ (by decide)]
        exact (strip_iff _ _).mp rfl
    · rename_i hs
      split at h
      · rename_i ht
        simp only [Option.some.injEq, Prod.mk.injEq] at h
        obtain ⟨rfl, rfl⟩ := h
        rcases cut_at '\t' B with ⟨h1, -⟩ | ⟨b, r, h1, h2, h3, h4⟩
        · exact absurd ht h1
        · refine ⟨B, r, hbody, Or.inr ⟨hs, by rw [h3]; exact h2, by rw [h3]; exact h1⟩, ?_⟩
          rw [h4, strip_cons_white _ _ (by decide)]
          exact (strip_iff _ _).mp rfl
      · cases h
  · rintro ⟨body, rest, hb, hkey, hv⟩
    have := huniq body hb
    subst this
    have hv' := (strip_iff _ _).mpr hv
    rcases hkey with ⟨h1, h2⟩ | ⟨h0, h1, h2⟩
    · have hs : ' ' ∈ body := by rw [h2]; simp
      rw [if_pos hs]
      rcases cut_at ' ' body with ⟨h, -⟩ | ⟨b, r, k1, k2, k3, k4⟩
      · exact absurd hs h
      · obtain ⟨rfl, rfl⟩ := cut_unique (h2.symm.trans k1) h1 k2
        rw [k3, k4, strip_cons_white _ _ (by decide), hv']
    · have hs : '\t' ∈ body := by rw [h2]; simp
      rw [if_neg h0, if_pos hs]
      rcases cut_at '\t' body with ⟨h, -⟩ | ⟨b, r, k1, k2, k3, k4⟩
      · exact absurd hs h
      · obtain ⟨rfl, rfl⟩ := cut_unique (h2.symm.trans k1) h1 k2
        rw [k3, k4, strip_cons_white _ _ (by decide), hv']

/-- The lines a configuration file may have: no NUL, and short enough for the buffer. -/
def PlainLines (ls : List Str) : Prop := ∀ l ∈ ls, '\n' ∉ l ∧ '\x00' ∉ l ∧ l.length ≤ 8190

/-- Applying settings one after the other. -/
def applySettings (c : Conf) (S : List (Str × Str)) : Conf := S.foldl (fun c p => c.set p.1 p.2) c

theorem parse_settings (c : Conf) (ls : List Str) (S : List (Str × Str)) (hl : PlainLines ls) (h : Settings ls S) :
    c.parse (some (writeList ls)) = (applySettings c S).fill := by
  unfold Conf.parse
  simp only
  rw [fgetsAll_writeList ls _ (Nat.le_refl _) (fun l hx => ⟨(hl l hx).1, (hl l hx).2.2⟩)]
  congr 1
  induction h generalizing c with
  | nil => rfl
  | @set l ls k v S hs r ih =>
    rw [List.map_cons, List.foldl_cons, ih _ (fun x hx => hl x (by simp [hx]))]
    have := (confSplit_iff l (hl l (by simp)).1 (hl l (by simp)).2.1 k v).mpr hs
    unfold Conf.line
    rw [this]
    rfl
  | @skip l ls S hs r ih =>
    rw [List.map_cons, List.foldl_cons, ih _ (fun x hx => hl x (by simp [hx]))]
    unfold Conf.line
    cases hc : confSplit (l ++ ['\n']) with
    | none => rfl
    | some p => exact absurd ((confSplit_iff l (hl l (by simp)).1 (hl l (by simp)).2.1 p.1 p.2).mp hc) (hs p.1 p.2)

/-- Every file has settings, so the theorems below speak about every file of plain lines. -/
theorem settings_exist (ls : List Str) : ∃ S, Settings ls S := by
  induction ls with
  | nil => exact ⟨[], .nil⟩
  | cons l ls ih =>
    obtain ⟨S, hS⟩ := ih
    by_cases h : ∃ k v, Setting l k v
    · obtain ⟨k, v, h⟩ := h; exact ⟨_, .set h hS⟩
    · exact ⟨S, .skip (fun k v hk => h ⟨k, v, hk⟩) hS⟩

/-! ### Single values -/

theorem set_url (c : Conf) (k v : Str) : (c.set k v).url = if k = "url".toList then (if c.url = [] then v else c.url) else c.url := by
  simp only [Conf.set, apply_ite Conf.url, ite_self]
theorem set_depot (c : Conf) (k v : Str) :
    (c.set k v).depot = if k = "depot".toList then (if c.depot = [] then v else c.depot) else c.depot := by
  simp only [Conf.set, apply_ite Conf.depot, ite_self]
theorem set_version (c : Conf) (k v : Str) :
    (c.set k v).version = if k = "version".toList then (if c.version = [] then v else c.version) else c.version := by
  simp only [Conf.set, apply_ite Conf.version, ite_self]
theorem set_logdir (c : Conf) (k v : Str) : (c.set k v).logdir = if k = "logdir".toList then v else c.logdir := by
  simp only [Conf.set, apply_ite Conf.logdir, ite_self]
theorem set_keypath (c : Conf) (k v : Str) : (c.set k v).keypath = if k = "keypath".toList then v else c.keypath := by
  simp only [Conf.set, apply_ite Conf.keypath, ite_self]
theorem set_name (c : Conf) (k v : Str) : (c.set k v).name = if k = "name".toList then v else c.name := by
  simp only [Conf.set, apply_ite Conf.name, ite_self]
theorem set_hostname (c : Conf) (k v : Str) : (c.set k v).hostname = if k = "hostname".toList then v else c.hostname := by
  simp only [Conf.set, apply_ite Conf.hostname, ite_self]
theorem set_username (c : Conf) (k v : Str) : (c.set k v).username = if k = "username".toList then v else c.username := by
  simp only [Conf.set, apply_ite Conf.username, ite_self]
theorem set_database (c : Conf) (k v : Str) : (c.set k v).database = if k = "database".toList then v else c.database := by
  simp only [Conf.set, apply_ite Conf.database, ite_self]
theorem set_password (c : Conf) (k v : Str) : (c.set k v).password = if k = "password".toList then v else c.password := by
  simp only [Conf.set, apply_ite Conf.password, ite_self]
theorem set_groups (c : Conf) (k v : Str) :
    (c.set k v).groups = if k = "locale".toList ∨ k = "group".toList then c.groups ++ [v] else c.groups := by
  simp only [Conf.set, apply_ite Conf.groups, ite_self]
theorem set_archs (c : Conf) (k v : Str) : (c.set k v).archs = if k = "arch".toList then c.archs ++ [v] else c.archs := by
  simp only [Conf.set, apply_ite Conf.archs, ite_self]
theorem set_dirUrl (c : Conf) (k v : Str) : (c.set k v).dirUrl =
    if k = "dir".toList then c.dirUrl ++ [dirEntry v]
    else if k = "collection".toList then
      (if c.dirUrl.any (fun i => i.collection = v) then c.dirUrl else c.dirUrl ++ [{ collection := v }])
    else c.dirUrl := by
  simp only [Conf.set, apply_ite Conf.dirUrl, ite_self]
  by_cases h1 : k = "dir".toList
  · have h2 : k ≠ "collection".toList := by rw [h1]; decide
    rw [if_neg h2, if_pos h1, if_pos h1]
  · rw [if_neg h1, if_neg h1]

/-- Filling changes only the collections. -/
theorem fill_other (c : Conf) : c.fill = { c with dirUrl := c.fill.dirUrl } := by
  unfold Conf.fill
  by_cases h1 : c.url ≠ [] <;> by_cases h2 : c.depot ≠ [] <;> simp [h1, h2]

/-- The state after the two files: all settings in order, with the filling after each file. -/
theorem loadConf_settings (ls1 ls2 : List Str) (S1 S2 : List (Str × Str)) (h1 : PlainLines ls1) (h2 : PlainLines ls2)
    (k1 : Settings ls1 S1) (k2 : Settings ls2 S2) :
    loadConf (some (writeList ls1)) (some (writeList ls2)) = (applySettings (applySettings {} S1).fill S2).fill := by
  unfold loadConf
  rw [parse_settings _ ls1 S1 h1 k1, parse_settings _ ls2 S2 h2 k2]

theorem member_total {α : Type} (f : Conf → α) (g : α → Str → Str → α) (hset : ∀ c k v, f (c.set k v) = g (f c) k v)
    (hfill : ∀ c : Conf, f c.fill = f c) (S1 S2 : List (Str × Str)) :
    f (applySettings (applySettings {} S1).fill S2).fill = (S1 ++ S2).foldl (fun a p => g a p.1 p.2) (f {}) := by
  have key : ∀ (S : List (Str × Str)) (c : Conf), f (applySettings c S) = S.foldl (fun a p => g a p.1 p.2) (f c) := by
    intro S
    induction S with
    | nil => intro c; rfl
    | cons p S ih => intro c; rw [List.foldl_cons, ← hset]; exact ih _
  rw [hfill, key, hfill, key, List.foldl_append]

theorem firstWins_fold (key : Str) (S : List (Str × Str)) :
    FirstWins key S (S.foldl (fun a p => if p.1 = key then (if a = [] then p.2 else a) else a) []) := by
  have stay : ∀ (S : List (Str × Str)) (a : Str), a ≠ [] →
      S.foldl (fun a p => if p.1 = key then (if a = [] then p.2 else a) else a) a = a := by
    intro S
    induction S with
    | nil => intro a _; rfl
    | cons p S ih =>
      intro a ha
      rw [List.foldl_cons, if_neg ha, ite_self]
      exact ih a ha
  induction S with
  | nil => exact Or.inl ⟨rfl, by simp⟩
  | cons p S ih =>
    obtain ⟨k, v⟩ := p
    rw [List.foldl_cons]
    by_cases hk : k = key
    · subst hk
      simp only [if_true]
      by_cases hv : v = []
      · subst hv
        rcases ih with ⟨h1, h2⟩ | ⟨h1, A, B, h2, h3⟩
        · refine Or.inl ⟨h1, ?_⟩
          intro w hw
          rcases List.mem_cons.mp hw with h | h
          · simpa using h
          · exact h2 w h
        · refine Or.inr ⟨h1, (k, []) :: A, B, congrArg (List.cons _) h2, ?_⟩
          intro w hw
          rcases List.mem_cons.mp hw with h | h
          · simpa using h
          · exact h3 w h
      · rw [stay S v hv]
        exact Or.inr ⟨hv, [], S, rfl, by simp⟩
    · simp only [if_neg hk]
      rcases ih with ⟨h1, h2⟩ | ⟨h1, A, B, h2, h3⟩
      · refine Or.inl ⟨h1, ?_⟩
        intro w hw
        rcases List.mem_cons.mp hw with h | h
        · simp at h; exact absurd h.1.symm hk
        · exact h2 w h
      · refine Or.inr ⟨h1, (k, v) :: A, B, congrArg (List.cons _) h2, ?_⟩
        intro w hw
        rcases List.mem_cons.mp hw with h | h
        · simp at h; exact absurd h.1.symm hk
        · exact h3 w h

theorem lastWins_fold (key : Str) (S : List (Str × Str)) :
    LastWins key S (S.foldl (fun a p => if p.1 = key then p.2 else a) []) := by
  have stay : ∀ (S : List (Str × Str)) (a : Str), (∀ w, (key, w) ∉ S) →
      S.foldl (fun a p => if p.1 = key then p.2 else a) a = a := by
    intro S
    induction S with
    | nil => intro a _; rfl
    | cons p S ih =>
      intro a ha
      rw [List.foldl_cons, if_neg (by rintro rfl; exact ha p.2 (by simp))]
      exact ih a (fun w hw => ha w (by simp [hw]))
  have split : ∀ S : List (Str × Str), (∀ w, (key, w) ∉ S) ∨ ∃ A v B, S = A ++ (key, v) :: B ∧ ∀ w, (key, w) ∉ B := by
    intro S
    induction S with
    | nil => exact Or.inl (by simp)
    | cons p S ih =>
      rcases ih with h | ⟨A, v, B, h1, h2⟩
      · by_cases hp : p.1 = key
        · exact Or.inr ⟨[], p.2, S, by rw [← hp]; rfl, h⟩
        · refine Or.inl ?_
          intro w hw
          rcases List.mem_cons.mp hw with e | e
          · exact hp (by rw [← e])
          · exact h w e
      · exact Or.inr ⟨p :: A, v, B, by rw [h1]; rfl, h2⟩
  rcases split S with h | ⟨A, v, B, rfl, h⟩
  · exact Or.inl ⟨stay S [] h, h⟩
  · refine Or.inr ⟨A, B, ?_, h⟩
    rw [List.foldl_append, List.foldl_cons]
    simp only [if_true]
    rw [stay B v h]

/-- **C32, single values.** The configuration read from the two files, for every text of either: the first url, depot and version win
(the first that is not empty), the last of every other single value wins, groups and architectures are collected in order. -/
theorem C32_values (ls1 ls2 : List Str) (S1 S2 : List (Str × Str)) (h1 : PlainLines ls1) (h2 : PlainLines ls2)
    (k1 : Settings ls1 S1) (k2 : Settings ls2 S2) :
    let c := loadConf (some (writeList ls1)) (some (writeList ls2))
    FirstWins "url".toList (S1 ++ S2) c.url ∧ FirstWins "depot".toList (S1 ++ S2) c.depot ∧
    FirstWins "version".toList (S1 ++ S2) c.version ∧
    LastWins "logdir".toList (S1 ++ S2) c.logdir ∧ LastWins "keypath".toList (S1 ++ S2) c.keypath ∧
    LastWins "name".toList (S1 ++ S2) c.name ∧ LastWins "hostname".toList (S1 ++ S2) c.hostname ∧
    LastWins "username".toList (S1 ++ S2) c.username ∧ LastWins "database".toList (S1 ++ S2) c.database ∧
    LastWins "password".toList (S1 ++ S2) c.password ∧
    c.groups = valuesOf ["locale".toList, "group".toList] (S1 ++ S2) ∧ c.archs = valuesOf ["arch".toList] (S1 ++ S2) := by
  intro c
  have hc : c = (applySettings (applySettings {} S1).fill S2).fill := loadConf_settings ls1 ls2 S1 S2 h1 h2 k1 k2
  clear_value c
  subst hc
  have vals : ∀ (keys : List Str) (S : List (Str × Str)) (a : List Str),
      S.foldl (fun a p => if p.1 ∈ keys then a ++ [p.2] else a) a = a ++ valuesOf keys S := by
    intro keys S
    induction S with
    | nil => intro a; simp [valuesOf]
    | cons p S ih =>
      intro a
      rw [List.foldl_cons, ih]
      unfold valuesOf
      by_cases hp : p.1 ∈ keys
      · rw [List.filter_cons_of_pos (by simpa using hp)]; simp [hp]
      · rw [List.filter_cons_of_neg (by simpa using hp)]; simp [hp]
  refine ⟨?_, ?_, ?_, ?_, ?_, ?_, ?_, ?_, ?_, ?_, ?_, ?_⟩
  · rw [member_total Conf.url (fun a k v => if k = "url".toList then (if a = [] then v else a) else a) set_url (fun c => by rw [fill_other])]
    exact firstWins_fold _ _
  · rw [member_total Conf.depot (fun a k v => if k = "depot".toList then (if a = [] then v else a) else a) set_depot (fun c => by rw [fill_other])]
    exact firstWins_fold _ _
  · rw [member_total Conf.version (fun a k v => if k = "version".toList then (if a = [] then v else a) else a) set_version (fun c => by rw [fill_other])]
    exact firstWins_fold _ _
  · rw [member_total Conf.logdir (fun a k v => if k = "logdir".toList then v else a) set_logdir (fun c => by rw [fill_other])]
    exact lastWins_fold _ _
  · rw [member_total Conf.keypath (fun a k v => if k = "keypath".toList then v else a) set_keypath (fun c => by rw [fill_other])]
    exact lastWins_fold _ _
  · rw [member_total Conf.name (fun a k v => if k = "name".toList then v else a) set_name (fun c => by rw [fill_other])]
    exact lastWins_fold _ _
  · rw [member_total Conf.hostname (fun a k v => if k = "hostname".toList then v else a) set_hostname (fun c => by rw [fill_other])]
    exact lastWins_fold _ _
  · rw [member_total Conf.username (fun a k v => if k = "username".toList then v else a) set_username (fun c => by rw [fill_other])]
    exact lastWins_fold _ _
  · rw [member_total Conf.database (fun a k v => if k = "database".toList then v else a) set_database (fun c => by rw [fill_other])]
    exact lastWins_fold _ _
  · rw [member_total Conf.password (fun a k v => if k = "password".toList then v else a) set_password (fun c => by rw [fill_other])]
    exact lastWins_fold _ _
  · rw [member_total Conf.groups (fun a k v => if k = "locale".toList ∨ k = "group".toList then a ++ [v] else a) set_groups (fun c => by rw [fill_other])]
    have := vals ["locale".toList, "group".toList] (S1 ++ S2) []
    simp only [List.mem_cons, List.not_mem_nil, or_false, List.nil_append] at this
    exact this
  · rw [member_total Conf.archs (fun a k v => if k = "arch".toList then a ++ [v] else a) set_archs (fun c => by rw [fill_other])]
    have := vals ["arch".toList] (S1 ++ S2) []
    simp only [List.mem_cons, List.not_mem_nil, or_false, List.nil_append] at this
    exact this

/-! ### Collections -/

/-- The names of the collections, in order. -/
def collNames (c : Conf) : List Str := c.dirUrl.map (·.collection)

/-- The collections the settings name, in order, with repetitions. -/
def named (S : List (Str × Str)) : List Str :=
  S.filterMap (fun p => if p.1 = "dir".toList then some (dirEntry p.2).collection
    else if p.1 = "collection".toList then some p.2 else none)

theorem fill_names (c : Conf) : collNames c.fill = collNames c := by
  have key : ∀ (l : List DirUrl) (f : DirUrl → DirUrl), (∀ i, (f i).collection = i.collection) →
      (l.map f).map (·.collection) = l.map (·.collection) := by
    intro l f h
    rw [List.map_map]
    exact List.map_congr_left (fun i _ => h i)
  unfold collNames Conf.fill
  by_cases h1 : c.url ≠ [] <;> by_cases h2 : c.depot ≠ [] <;> simp only [h1, h2, if_true, if_false, not_false_eq_true, ne_eq]
  · rw [key _ _ (fun i => by split <;> rfl), key _ _ (fun i => by split <;> rfl)]
  · rw [key _ _ (fun i => by split <;> rfl)]
  · rw [key _ _ (fun i => by split <;> rfl)]

theorem set_names (c : Conf) (k v : Str) : collNames (c.set k v) =
    if k = "dir".toList then collNames c ++ [(dirEntry v).collection]
    else if k = "collection".toList then (if v ∈ collNames c then collNames c else collNames c ++ [v]) else collNames c := by
  unfold collNames
  rw [set_dirUrl]
  by_cases h1 : k = "dir".toList
  · rw [if_pos h1, if_pos h1, List.map_append]; rfl
  · rw [if_neg h1, if_neg h1]
    by_cases h2 : k = "collection".toList
    · rw [if_pos h2, if_pos h2]
      by_cases h3 : c.dirUrl.any (fun i => i.collection = v) = true
      · rw [if_pos h3, if_pos]
        simp only [List.any_eq_true, decide_eq_true_eq] at h3
        obtain ⟨i, hi, rfl⟩ := h3
        exact List.mem_map_of_mem hi
      · rw [if_neg h3, if_neg, List.map_append]; · rfl
        intro hm
        obtain ⟨i, hi, he⟩ := List.mem_map.mp hm
        exact h3 (List.any_eq_true.mpr ⟨i, hi, by simpa using he⟩)
    · rw [if_neg h2, if_neg h2]

theorem names_fold (S : List (Str × Str)) (a : List Str) :
    let r := S.foldl (fun a p => if p.1 = "dir".toList then a ++ [(dirEntry p.2).collection]
      else if p.1 = "collection".toList then (if p.2 ∈ a then a else a ++ [p.2]) else a) a
    (∃ t, r = a ++ t ∧ t.Sublist (named S) ∧ ∀ n, n ∈ r ↔ n ∈ a ∨ n ∈ named S) ∧
    ((∀ p ∈ S, p.1 ≠ "dir".toList) → a.Nodup → r.Nodup) := by
  induction S generalizing a with
  | nil =>
    refine ⟨⟨[], (List.append_nil a).symm, List.nil_sublist _, ?_⟩, fun _ h => h⟩
    intro n
    show n ∈ a ↔ n ∈ a ∨ n ∈ ([] : List Str)
    rw [List.mem_nil_iff, or_false]
  | cons p S ih =>
    simp only [List.foldl_cons]
    by_cases h1 : p.1 = "dir".toList
    · rw [if_pos h1]
      obtain ⟨⟨t, e1, e2, e3⟩, -⟩ := ih (a ++ [(dirEntry p.2).collection])
      have hn : named (p :: S) = (dirEntry p.2).collection :: named S := by
        unfold named
        rw [List.filterMap_cons_some (b := (dirEntry p.2).collection) (by rw [if_pos h1])]
      refine ⟨⟨(dirEntry p.2).collection :: t, by rw [e1]; simp, ?_, ?_⟩, ?_⟩
      · rw [hn]; exact e2.cons₂ _
      · intro n; rw [e3, hn]; simp only [List.mem_append, List.mem_cons, List.not_mem_nil, or_false]; tauto
      · intro h; exact absurd h1 (h p (by simp))
    · rw [if_neg h1]
      by_cases h2 : p.1 = "collection".toList
      · rw [if_pos h2]
        have hn : named (p :: S) = p.2 :: named S := by
          unfold named
          rw [List.filterMap_cons_some (b := p.2) (by rw [if_neg h1, if_pos h2])]
        by_cases h3 : p.2 ∈ a
        · rw [if_pos h3]
          obtain ⟨⟨t, e1, e2, e3⟩, e4⟩ := ih a
          refine ⟨⟨t, e1, ?_, ?_⟩, fun h hd => e4 (fun q hq => h q (by simp [hq])) hd⟩
          · rw [hn]; exact e2.cons _
          · intro n; rw [e3, hn]; simp only [List.mem_cons]
            constructor
            · rintro (h | h)
              · exact Or.inl h
              · exact Or.inr (Or.inr h)
            · rintro (h | rfl | h)
              · exact Or.inl h
              · exact Or.inl h3
              · exact Or.inr h
        · rw [if_neg h3]
          obtain ⟨⟨t, e1, e2, e3⟩, e4⟩ := ih (a ++ [p.2])
          refine ⟨⟨p.2 :: t, by rw [e1]; simp, ?_, ?_⟩, ?_⟩
          · rw [hn]; exact e2.cons₂ _
          · intro n; rw [e3, hn]; simp only [List.mem_append, List.mem_cons, List.not_mem_nil, or_false]; tauto
          · intro h hd
            refine e4 (fun q hq => h q (by simp [hq])) ?_
            rw [List.nodup_append]
            refine ⟨hd, by simp, ?_⟩
            intro x hx y hy
            simp only [List.mem_cons, List.not_mem_nil, or_false] at hy
            subst hy
            rintro rfl
            exact h3 hx
      · rw [if_neg h2]
        have hn : named (p :: S) = named S := by
          unfold named
          rw [List.filterMap_cons_none (by rw [if_neg h1, if_neg h2])]
        rw [hn]
        obtain ⟨e, e4⟩ := ih a
        exact ⟨e, fun h hd => e4 (fun q hq => h q (by simp [hq])) hd⟩

/-- **C32, collections.** The collections are those named, in the order of their first mention, and when they are named with
`collection` none is taken twice. -/
theorem C32_collections (ls1 ls2 : List Str) (S1 S2 : List (Str × Str)) (h1 : PlainLines ls1) (h2 : PlainLines ls2)
    (k1 : Settings ls1 S1) (k2 : Settings ls2 S2) :
    let c := loadConf (some (writeList ls1)) (some (writeList ls2))
    (collNames c).Sublist (named (S1 ++ S2)) ∧ (∀ n, n ∈ collNames c ↔ n ∈ named (S1 ++ S2)) ∧
    ((∀ v, ("dir".toList, v) ∉ S1 ++ S2) → (collNames c).Nodup) := by
  intro c
  have hc : c = (applySettings (applySettings {} S1).fill S2).fill := loadConf_settings ls1 ls2 S1 S2 h1 h2 k1 k2
  clear_value c
  subst hc
  rw [member_total collNames (fun a k v => if k = "dir".toList then a ++ [(dirEntry v).collection]
      else if k = "collection".toList then (if v ∈ a then a else a ++ [v]) else a) set_names fill_names]
  obtain ⟨⟨t, e1, e2, e3⟩, e4⟩ := names_fold (S1 ++ S2) (collNames {})
  refine ⟨?_, ?_, ?_⟩
  · rw [e1]; simpa [collNames] using e2
  · intro n; rw [e3]; simp [collNames]
  · intro h
    exact e4 (fun p hp hd => h p.2 (by rw [← hd]; exact hp)) (by simp [collNames])

/-- Every entry has the global url and depot, or none yet. -/
def Uniform (c : Conf) : Prop := ∀ i ∈ c.dirUrl, (i.url = [] ∨ i.url = c.url) ∧ (i.depot = [] ∨ i.depot = c.depot)

theorem uniform_set (c : Conf) (k v : Str) (hk : k ≠ "dir".toList) (h : Uniform c) : Uniform (c.set k v) := by
  have keep : ∀ a b w : Str, (a = [] ∨ a = b) → (a = [] ∨ a = if b = [] then w else b) := by
    intro a b w h
    rcases h with h | h
    · exact Or.inl h
    · by_cases hb : b = []
      · left; rw [h, hb]
      · right; rw [if_neg hb, h]
  intro i hi
  rw [set_dirUrl, if_neg hk] at hi
  have hi' : i ∈ c.dirUrl ∨ i = { collection := v } := by
    split at hi
    · split at hi
      · exact Or.inl hi
      · rcases List.mem_append.mp hi with h | h
        · exact Or.inl h
        · simp at h; exact Or.inr h
    · exact Or.inl hi
  rcases hi' with hi | rfl
  · obtain ⟨a, b⟩ := h i hi
    rw [set_url, set_depot]
    refine ⟨?_, ?_⟩
    · split
      · exact keep _ _ _ a
      · exact a
    · split
      · exact keep _ _ _ b
      · exact b
  · exact ⟨Or.inl rfl, Or.inl rfl⟩

theorem fill_dirUrl (c : Conf) : c.fill.dirUrl = c.dirUrl.map (fun i =>
    ⟨i.collection, if i.depot = [] then c.depot else i.depot, if i.url = [] then c.url else i.url⟩) := by
  unfold Conf.fill
  by_cases h1 : c.url ≠ [] <;> by_cases h2 : c.depot ≠ [] <;>
    simp only [h1, h2, if_true, if_false, not_false_eq_true, ne_eq]
  · rw [List.map_map]
    apply List.map_congr_left
    intro i _
    obtain ⟨a, b, d⟩ := i
    by_cases hd : d = [] <;> by_cases hb : b = [] <;> simp [hd, hb]
  · simp only [ne_eq, not_not] at h2
    apply List.map_congr_left
    intro i _
    obtain ⟨a, b, d⟩ := i
    by_cases hd : d = [] <;> by_cases hb : b = [] <;> simp [hd, hb, h2]
  · simp only [ne_eq, not_not] at h1
    apply List.map_congr_left
    intro i _
    obtain ⟨a, b, d⟩ := i
    by_cases hd : d = [] <;> by_cases hb : b = [] <;> simp [hd, hb, h1]
  · simp only [ne_eq, not_not] at h1 h2
    conv_lhs => rw [← List.map_id c.dirUrl]
    apply List.map_congr_left
    intro i _
    obtain ⟨a, b, d⟩ := i
    by_cases hd : d = [] <;> by_cases hb : b = [] <;> simp [hd, hb, h1, h2]

/-- Collections named with `collection` lie in the depot of the configuration and come from its url. -/
theorem C32_depot_url (ls1 ls2 : List Str) (S1 S2 : List (Str × Str)) (h1 : PlainLines ls1) (h2 : PlainLines ls2)
    (k1 : Settings ls1 S1) (k2 : Settings ls2 S2) (hd : ∀ v, ("dir".toList, v) ∉ S1 ++ S2) :
    let c := loadConf (some (writeList ls1)) (some (writeList ls2))
    ∀ i ∈ c.dirUrl, i.depot = c.depot ∧ i.url = c.url := by
  intro c
  have hc : c = (applySettings (applySettings {} S1).fill S2).fill := loadConf_settings ls1 ls2 S1 S2 h1 h2 k1 k2
  clear_value c
  subst hc
  have app : ∀ (S : List (Str × Str)) (c : Conf), (∀ p ∈ S, p.1 ≠ "dir".toList) → Uniform c → Uniform (applySettings c S) := by
    intro S
    induction S with
    | nil => intro c _ h; exact h
    | cons p S ih => intro c h hu; exact ih _ (fun q hq => h q (by simp [hq])) (uniform_set c _ _ (h p (by simp)) hu)
  have fil : ∀ c : Conf, Uniform c → ∀ i ∈ c.fill.dirUrl, i.depot = c.fill.depot ∧ i.url = c.fill.url := by
    intro c h i hi
    rw [fill_dirUrl] at hi
    rw [fill_other c]
    obtain ⟨j, hj, rfl⟩ := List.mem_map.mp hi
    obtain ⟨a, b⟩ := h j hj
    refine ⟨?_, ?_⟩
    · show (if j.depot = [] then c.depot else j.depot) = c.depot
      rcases b with b | b
      · rw [if_pos b]
      · rw [b, ite_self]
    · show (if j.url = [] then c.url else j.url) = c.url
      rcases a with a | a
      · rw [if_pos a]
      · rw [a, ite_self]
  have nd1 : ∀ p ∈ S1, p.1 ≠ "dir".toList := fun p hp e => hd p.2 (by rw [← e]; simp [hp])
  have nd2 : ∀ p ∈ S2, p.1 ≠ "dir".toList := fun p hp e => hd p.2 (by rw [← e]; simp [hp])
  have u0 : Uniform ({} : Conf) := by intro i hi; simp at hi
  apply fil
  apply app _ _ nd2
  intro i hi
  obtain ⟨a, b⟩ := fil _ (app S1 {} nd1 u0) i hi
  exact ⟨Or.inr b, Or.inr a⟩

/-- What a `dir` setting names: a collection inside a depot, with its own url when one follows a `|`. -/
theorem C32_dir_entry (d n u : Str) (hd : '|' ∉ d) (hn : '|' ∉ n ∧ '/' ∉ n)
    (hs : stripWhiteSpace (d ++ '/' :: n) = d ++ '/' :: n) (hsn : stripWhiteSpace n = n) :
    dirEntry (d ++ '/' :: n) = ⟨n, d, []⟩ ∧
    dirEntry (d ++ '/' :: n ++ '|' :: u) = ⟨n, d, stripWhiteSpace u⟩ := by
  have nb : '|' ∉ d ++ '/' :: n := by simp [hd, hn.1]
  have last : ((d ++ '/' :: n).reverse.takeWhile (fun c => c ≠ '/')).reverse = n := by
    rw [List.reverse_append, List.reverse_cons, List.append_assoc, List.singleton_append]
    rcases cut_at '/' (n.reverse ++ '/' :: d.reverse) with ⟨h, -⟩ | ⟨b, r, h1, h2, h3, -⟩
    · exact absurd (by simp) h
    · rw [h3, ← (cut_unique h1 (by simpa using hn.2) h2).1, List.reverse_reverse]
  have before : getValueBeforeLast (d ++ '/' :: n) '/' = d := by
    unfold getValueBeforeLast
    rw [if_pos (by simp), List.reverse_append, List.reverse_cons, List.append_assoc, List.singleton_append]
    rcases cut_at '/' (n.reverse ++ '/' :: d.reverse) with ⟨h, -⟩ | ⟨b, r, h1, h2, -, h4⟩
    · exact absurd (by simp) h
    · rw [h4, ← (cut_unique h1 (by simpa using hn.2) h2).2, List.drop_succ_cons, List.drop_zero, List.reverse_reverse]
  have hm : '/' ∈ d ++ '/' :: n := by simp
  constructor
  · unfold dirEntry
    simp only [if_neg nb, hs, if_pos hm, last, before, hsn]
  · have hb : '|' ∈ d ++ '/' :: n ++ '|' :: u := by simp
    have v1 : getValueBefore (d ++ '/' :: n ++ '|' :: u) '|' = d ++ '/' :: n := by
      unfold getValueBefore
      rcases cut_at '|' (d ++ '/' :: n ++ '|' :: u) with ⟨h, -⟩ | ⟨b, r, h1, h2, h3, -⟩
      · exact absurd hb h
      · rw [h3, ← (cut_unique h1 nb h2).1]
    have v2 : getValue (d ++ '/' :: n ++ '|' :: u) '|' = u := by
      unfold getValue
      rcases cut_at '|' (d ++ '/' :: n ++ '|' :: u) with ⟨h, -⟩ | ⟨b, r, h1, h2, -, h4⟩
      · exact absurd hb h
      · rw [h4, ← (cut_unique h1 nb h2).2]; rfl
    unfold dirEntry
    simp only [if_pos hb, v1, v2, hs, if_pos hm, last, before, hsn]

/-- A collection named with `dir` is taken twice when it is listed twice. -/
theorem C32_dir_twice_counterexample :
    collNames (loadConf (some (writeList ["dir /d/base".toList, "dir /d/base".toList])) none) = ["base".toList, "base".toList] := by
  decide

/-- A local directory (no url of its own) gets the global url. -/
theorem C32_local_dir_gets_url :
    (loadConf (some (writeList ["url http://m/x".toList, "dir /home/me/own".toList])) none).dirUrl =
      [⟨"own".toList, "/home/me".toList, "http://m/x".toList⟩] := by decide

set_option maxRecDepth 20000 in
/-- Non-trivial instance: comments, a tab, a repeated collection, and the version file. -/
example : loadConf
    (some (writeList ["# cards.conf".toList, "depot /var/d # the depot".toList, "collection cli".toList, "collection	base".toList,
      "collection cli".toList, "url http://a".toList, "url http://b".toList, "logdir /x".toList, "logdir /y".toList, "group fr".toList]))
    (some (writeList ["version 24".toList, "name nutyx".toList])) =
    { depot := "/var/d".toList, url := "http://a".toList, version := "24".toList, logdir := "/y".toList, name := "nutyx".toList,
      groups := ["fr".toList],
      dirUrl := [⟨"cli".toList, "/var/d".toList, "http://a".toList⟩, ⟨"base".toList, "/var/d".toList, "http://a".toList⟩] } := by
  decide

end Cards.Props
