import Verif.Spec.Trans
import Verif.Lemmas.Fs
namespace Cards
open Spec

/-! ### Rules -/

theorem find_reverse_some {α} (p : α → Bool) (l : List α) (r : α) :
    l.reverse.find? p = some r ↔ ∃ b a, l = b ++ r :: a ∧ p r = true ∧ ∀ x ∈ a, p x = false := by
  rw [List.find?_eq_some_iff_append]
  constructor
  · rintro ⟨hp, as, bs, h, hall⟩
    refine ⟨bs.reverse, as.reverse, ?_, hp, ?_⟩
    · have := congrArg List.reverse h; simpa using this
    · intro x hx; have := hall x (by simpa using hx); simpa using this
  · rintro ⟨b, a, rfl, hp, hall⟩
    refine ⟨hp, a.reverse, b.reverse, by simp, ?_⟩
    intro x hx; have := hall x (by simpa using hx); simp [this]

theorem lastApplying_some (rx : Matcher) (rules : List Rule) (ev : Event) (f : Str) (r : Rule) :
    lastApplying rx (rulesOf rules ev) f = some r ↔ LastRule rx rules ev f r := by
  unfold lastApplying rulesOf LastRule
  rw [← List.filter_reverse]
  rw [List.find?_filter]
  rw [find_reverse_some]
  constructor
  · rintro ⟨b, a, h, hr, hall⟩
    simp only [decide_eq_true_eq, Bool.and_eq_true] at hr
    refine ⟨b, a, h, hr.1, hr.2, ?_⟩
    intro r' hr' he
    have := hall r' hr'
    simp only [decide_eq_true_eq, he, decide_true, Bool.true_and] at this
    simpa using this
  · rintro ⟨b, a, h, he, hr, hall⟩
    refine ⟨b, a, h, by simp [he, hr], ?_⟩
    intro x hx
    by_cases hxe : x.event = ev
    · simp [hxe, hall x hx hxe]
    · simp [hxe]

theorem lastApplying_unique {rx : Matcher} {rules : List Rule} {ev : Event} {f : Str} {r r' : Rule}
    (h : LastRule rx rules ev f r) (h' : LastRule rx rules ev f r') : r = r' := by
  have h1 := (lastApplying_some rx rules ev f r).mpr h
  have h2 := (lastApplying_some rx rules ev f r').mpr h'
  rw [h1] at h2; exact Option.some.inj h2

theorem installFile_iff (rx : Matcher) (rules : List Rule) (f : Str) :
    installFile rx rules f = false ↔ Excluded rx rules f := by
  unfold installFile Excluded
  constructor
  · intro h
    split at h
    · rename_i r hr
      exact ⟨r, (lastApplying_some ..).mp hr, h⟩
    · simp at h
  · rintro ⟨r, hr, ha⟩
    rw [(lastApplying_some ..).mpr hr]; exact ha

theorem mem_keepFileList {rx : Matcher} {files : List Str} {rules : List Rule} {f : Str} :
    f ∈ keepFileList rx files rules ↔ f ∈ files ∧ Protected rx rules f := by
  have key : ∀ (l acc : List Str), f ∈ l.foldl (fun keep f =>
      match lastApplying rx (rulesOf rules .UPGRADE) f with
      | some r => if r.action then keep else sinsert f keep
      | none => keep) acc ↔ f ∈ acc ∨ (f ∈ l ∧ Protected rx rules f) := by
    intro l
    induction l with
    | nil => simp
    | cons a l ih =>
      intro acc
      simp only [List.foldl_cons, ih, List.mem_cons]
      unfold Protected
      cases h : lastApplying rx (rulesOf rules .UPGRADE) a with
      | none =>
        have hn : ∀ r, ¬ LastRule rx rules .UPGRADE a r := by
          intro r hr; rw [(lastApplying_some ..).mpr hr] at h; simp at h
        grind
      | some r =>
        have hr := (lastApplying_some ..).mp h
        by_cases hra : r.action = true
        · have : ∀ r', LastRule rx rules .UPGRADE a r' → r'.action = true := by
            intro r' hr'; rw [lastApplying_unique hr' hr]; exact hra
          simp only [hra, if_true]; grind
        · simp only [hra, Bool.false_eq_true, if_false, mem_sinsert]; grind
  have := key files []
  simp only [List.not_mem_nil, false_or] at this
  exact this

theorem mem_applyInstallRules {rx : Matcher} {files : List Str} {rules : List Rule} {f : Str} :
    (f ∈ (applyInstallRules rx files rules).1 ↔ f ∈ files ∧ ¬ Excluded rx rules f) ∧
    (f ∈ (applyInstallRules rx files rules).2 ↔ f ∈ files ∧ Excluded rx rules f) := by
  have key : ∀ (l : List Str) (acc : List Str × List Str),
      (f ∈ (l.foldl (fun (acc : List Str × List Str) f =>
        if installFile rx rules f then (sinsert f acc.1, acc.2) else (acc.1, sinsert f acc.2)) acc).1 ↔
          f ∈ acc.1 ∨ (f ∈ l ∧ ¬ Excluded rx rules f)) ∧
      (f ∈ (l.foldl (fun (acc : List Str × List Str) f =>
        if installFile rx rules f then (sinsert f acc.1, acc.2) else (acc.1, sinsert f acc.2)) acc).2 ↔
          f ∈ acc.2 ∨ (f ∈ l ∧ Excluded rx rules f)) := by
    intro l
    induction l with
    | nil => simp
    | cons a l ih =>
      intro acc
      simp only [List.foldl_cons, ih, List.mem_cons]
      have hx := installFile_iff rx rules a
      cases h : installFile rx rules a with
      | true => rw [h] at hx; simp at hx; simp; grind
      | false => rw [h] at hx; simp at hx; simp; grind
  simpa [applyInstallRules] using key files ([], [])

theorem sorted_applyInstallRules {rx : Matcher} {files : List Str} {rules : List Rule} :
    Sorted (applyInstallRules rx files rules).1 := by
  have key : ∀ (l : List Str) (acc : List Str × List Str), Sorted acc.1 →
      Sorted (l.foldl (fun (acc : List Str × List Str) f =>
        if installFile rx rules f then (sinsert f acc.1, acc.2) else (acc.1, sinsert f acc.2)) acc).1 := by
    intro l
    induction l with
    | nil => intro acc h; exact h
    | cons a l ih =>
      intro acc h
      simp only [List.foldl_cons]
      apply ih
      split
      · exact sorted_sinsert h
      · exact h
  exact key files ([], []) List.Pairwise.nil

/-! ### Names -/

theorem mget_isSome_iff {α} {m : List (Str × α)} {k : Str} : (mget m k).isSome ↔ k ∈ keys m := by
  have := @mget_none_iff α m k
  cases h : mget m k <;> simp_all

theorem foldl_mset_isSome {α} (l : List Str) (v : α) (m : List (Str × α)) (x : Str) :
    (mget (l.foldl (fun m a => mset a v m) m) x).isSome ↔ x ∈ l ∨ (mget m x).isSome := by
  induction l generalizing m with
  | nil => simp
  | cons a l ih =>
    simp only [List.foldl_cons, ih, mget_mset, List.mem_cons]
    by_cases h : a = x <;> grind

theorem loadAlias_isSome (db : Db) (x : Str) :
    (mget (loadAlias db) x).isSome ↔ x ∈ keys db ∨ ∃ p ∈ db, x ∈ p.2.aliases := by
  have key : ∀ (l : Db) (m : List (Str × Str)),
      (mget (l.foldl (fun m p => p.2.aliases.foldl (fun m a => mset a p.1 m) (mset p.1 p.1 m)) m) x).isSome ↔
        (mget m x).isSome ∨ x ∈ keys l ∨ ∃ p ∈ l, x ∈ p.2.aliases := by
    intro l
    induction l with
    | nil => simp [keys]
    | cons p l ih =>
      intro m
      simp only [List.foldl_cons, ih, foldl_mset_isSome, mget_mset, keys, List.map_cons, List.mem_cons]
      by_cases h : p.1 = x <;> grind
  have := key db []
  simpa [loadAlias, mget] using this

theorem nameExists_load (s : Sys) (d : Bool) (x : Str) :
    (load s d).nameExists x = true ↔ x ∈ keys s.disk ∨ ∃ p ∈ s.disk, x ∈ p.2.aliases := by
  simp only [St.nameExists, load]; exact loadAlias_isSome _ _

/-! ### Conflicts -/

theorem endsSlash_iff {f : Str} : endsSlash f = true ↔ IsDirName f := by
  unfold endsSlash IsDirName
  simp only [decide_eq_true_eq]
  constructor
  · intro h
    obtain ⟨ys, rfl⟩ := List.getLast?_eq_some_iff.mp h
    exact ⟨ys, rfl⟩
  · rintro ⟨g, rfl⟩; simp

theorem exist_iff {fs : Fs} {f : Str} : fs.exist f = true ↔ Present fs f := by
  unfold Fs.exist Fs.lstat Present
  cases h : fs.get (comps f) with
  | none => simp
  | some n =>
    cases n with
    | file c m =>
      simp only [Option.some.injEq, exists_eq_left', reduceCtorEq, exists_false, imp_false, ← endsSlash_iff]
      by_cases hs : endsSlash f = true <;> simp [hs]
    | dir m => simp

theorem mem_phase1 {name : Str} {files : List Str} {f : Str} (mem : Db) (acc : List Str) :
    f ∈ mem.foldl (fun acc p =>
      if p.1 ≠ name then (files.filter (fun f => p.2.files.contains f)).foldl (fun s x => sinsert x s) acc
      else acc) acc ↔ f ∈ acc ∨ (f ∈ files ∧ ∃ p ∈ mem, p.1 ≠ name ∧ f ∈ p.2.files) := by
  induction mem generalizing acc with
  | nil => simp
  | cons p m ih =>
    rw [List.foldl_cons, ih]
    split
    · simp only [mem_foldl_sinsert, List.mem_filter, List.contains_iff_mem, List.mem_cons]; grind
    · grind

theorem mem_phase2 {fs : Fs} {f : Str} (files acc : List Str) :
    f ∈ files.foldl (fun acc f => if fs.exist f && !acc.contains f then sinsert f acc else acc) acc ↔
      f ∈ acc ∨ (f ∈ files ∧ fs.exist f = true) := by
  induction files generalizing acc with
  | nil => simp
  | cons a l ih =>
    rw [List.foldl_cons, ih]
    split
    · rename_i h; simp at h; simp; grind
    · rename_i h; simp at h; simp; grind

theorem mem_phase3 {f : Str} (l acc : List Str) :
    f ∈ l.foldl (fun acc f => if endsSlash f then serase f acc else acc) acc ↔
      f ∈ acc ∧ ¬ (f ∈ l ∧ endsSlash f = true) := by
  induction l generalizing acc with
  | nil => simp
  | cons a l ih =>
    rw [List.foldl_cons, ih]
    split
    · simp; grind
    · simp; grind

theorem mem_conflicts {st : St} {name : Str} {files : List Str} {f : Str} :
    f ∈ conflicts st name files ↔
      f ∈ files ∧ endsSlash f = false ∧
      ((∃ p ∈ st.mem, p.1 ≠ name ∧ f ∈ p.2.files) ∨ st.fs.exist f = true) ∧
      (∀ i, mget st.mem name = some i → f ∉ i.files) := by
  unfold conflicts
  have h2 := fun (c1 : List Str) => @mem_phase2 st.fs f files c1
  cases h : mget st.mem name with
  | none =>
    simp only [mem_phase3, h2, mem_phase1]
    simp; grind
  | some i =>
    simp only [mem_seraseAll, mem_phase3, h2, mem_phase1]
    simp; grind

theorem owns_iff_mget {db : Db} (h : WF db) {n f : Str} : Owns db n f ↔ ∃ i, mget db n = some i ∧ f ∈ i.files := by
  have hs : MSorted db := h.1
  unfold Owns
  constructor
  · rintro ⟨i, hm, hf⟩; exact ⟨i, (mget_iff_mem hs).mpr hm, hf⟩
  · rintro ⟨i, hm, hf⟩; exact ⟨i, (mget_iff_mem hs).mp hm, hf⟩

/-- The conflict set of a freshly loaded process is exactly the set of shipped files that are in the way. -/
theorem mem_conflicts_spec {st : St} (h : WF st.mem) {name : Str} {files : List Str} {f : Str} :
    f ∈ conflicts st name files ↔ f ∈ files ∧ InTheWay st.mem st.fs name f := by
  rw [mem_conflicts]
  unfold InTheWay
  rw [← endsSlash_iff, ← exist_iff, owns_iff_mget h]
  have : (∃ p ∈ st.mem, p.1 ≠ name ∧ f ∈ p.2.files) ↔ ∃ n', n' ≠ name ∧ Owns st.mem n' f := by
    unfold Owns
    constructor
    · rintro ⟨⟨n, i⟩, hp, hn, hf⟩; exact ⟨n, hn, i, hp, hf⟩
    · rintro ⟨n, hn, i, hp, hf⟩; exact ⟨(n, i), hp, hn, hf⟩
  rw [this]
  simp

theorem mem_files {a : Archive} {f : Str} : f ∈ a.files ↔ f ∈ a.mtree ∧ f.head? ≠ some '.' := by
  simp [Archive.files]

theorem mem_shipped {rx : Matcher} {rules : List Rule} {a : Archive} {f : Str} :
    f ∈ (applyInstallRules rx a.files rules).1 ↔ Ships rx rules a f := by
  rw [mem_applyInstallRules.1, mem_files]; unfold Ships; grind

end Cards
