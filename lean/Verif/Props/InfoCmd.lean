import Verif.Model.InfoCmd
import Verif.Props.Report
import Verif.Props.RepoQuery
/-!
# C86: what cards info --binaries tells
-/
namespace Cards.Props
open Cards

/-- All labels. -/
def infoLabels : List String :=
  ["Name           : ", "Alias          :", "Description    : ", "Archive name   : ", "Group          : ", "Categories     :", "Collection     : ",
   "Sets           :", "URL            : ", "License        : ", "Version        : ", "Release        : ", "Build date     : ", "Hashsum        : ",
   "Signature      : ", "Archive Size   : ", "Installed Size : ", "Maintainer(s)  : ", "Packager       : ", "Contributor(s) : ", "Arch           : ",
   "Binary URL     : ", "Local folder   : ", "Dependencies   : "]

theorem labels_apart : (infoLabels.map (fun l => l.toList.take 16)).Pairwise (· ≠ ·) ∧ ∀ l ∈ infoLabels, 16 ≤ l.toList.length := by decide +kernel

theorem pre_apart {h t : Str} (x : Str) (hn : h.take 16 ≠ t.take 16) (h2 : 16 ≤ h.length) (t2 : 16 ≤ t.length) : h.isPrefixOf (t ++ x) = false := by
  rw [Bool.eq_false_iff]
  intro hc
  rw [List.isPrefixOf_iff_prefix] at hc
  obtain ⟨y, hy⟩ := hc
  apply hn
  have := congrArg (List.take 16) hy
  rwa [List.take_append_of_le_length h2, List.take_append_of_le_length t2] at this

theorem apart_of {α β : Type} (f : α → β) (l : List α) (h : (l.map f).Pairwise (· ≠ ·)) {a b : α} (ha : a ∈ l) (hb : b ∈ l) (hne : a ≠ b) :
    f a ≠ f b := by
  induction l with
  | nil => simp at ha
  | cons x l ih =>
    rw [List.map_cons, List.pairwise_cons] at h
    rcases List.mem_cons.mp ha with h1 | h1 <;> rcases List.mem_cons.mp hb with h2 | h2
    · exact absurd (h1.trans h2.symm) hne
    · rw [h1]; exact h.1 _ (List.mem_map_of_mem h2)
    · rw [h2]; exact fun e => h.1 _ (List.mem_map_of_mem h1) e.symm
    · exact ih h.2 h1 h2

theorem labelled_pairs (lab : String) (hl : lab ∈ infoLabels) (ps : List (String × Str)) (h : ∀ p ∈ ps, p.1 ∈ infoLabels) :
    labelled lab.toList (ps.map (fun x => x.1.toList ++ x.2)) = (ps.filter (fun p => p.1 = lab)).map (·.2) := by
  induction ps with
  | nil => rfl
  | cons p ps ih =>
    have hp := h p (by simp)
    have ih := ih (fun q hq => h q (by simp [hq]))
    unfold labelled at ih ⊢
    rw [List.map_cons, List.filterMap_cons, List.filter_cons]
    by_cases he : p.1 = lab
    · subst he
      rw [pre_self, ih]
      simp
    · rw [pre_apart _ (fun e => he (by
        apply Classical.byContradiction
        intro hne
        exact apart_of (fun l : String => l.toList.take 16) infoLabels labels_apart.1 hp hl hne e.symm)) (labels_apart.2 _ hl) (labels_apart.2 _ hp), ih]
      simp [he]

theorem of_ite_nil {α : Type} {c : Prop} [Decidable c] {l : List α} {x : α} (h : x ∈ if c then l else []) : x ∈ l := by
  split at h
  · exact h
  · simp at h

theorem labels_of {l : List (String × Str)} (h : ∀ y ∈ l.map (·.1), y ∈ infoLabels) {x : String × Str} (hx : x ∈ l) : x.1 ∈ infoLabels :=
  h _ (List.mem_map_of_mem hx)

theorem infoPairs_labels (date : Nat → Str) (cats : List Str) (name : Str) (p : RepoPkg) : ∀ x ∈ infoPairs date cats name p, x.1 ∈ infoLabels := by
  intro x hx
  simp only [infoPairs, List.mem_append] at hx
  rcases hx with (((((((h | h) | h) | h) | h) | h) | h) | h) | h
  · exact labels_of (by simp only [List.map_cons, List.map_nil]; decide +kernel) h
  · exact labels_of (by simp only [List.map_cons, List.map_nil]; decide +kernel) (of_ite_nil h)
  · exact labels_of (by simp only [List.map_cons, List.map_nil]; decide +kernel) h
  · exact labels_of (by simp only [List.map_cons, List.map_nil]; decide +kernel) (of_ite_nil h)
  · exact labels_of (by simp only [List.map_cons, List.map_nil]; decide +kernel) (of_ite_nil h)
  · exact labels_of (by simp only [List.map_cons, List.map_nil]; decide +kernel) h
  · exact labels_of (by simp only [List.map_cons, List.map_nil]; decide +kernel) (of_ite_nil h)
  · exact labels_of (by simp only [List.map_cons, List.map_nil]; decide +kernel) h
  · exact labels_of (by simp only [List.map_cons, List.map_nil]; decide +kernel) (of_ite_nil h)

theorem info_labelled (date : Nat → Str) (cats : Str → List Str) (m : List (Str × RepoPkg)) {name : Str} {p : RepoPkg} (hm : mget m name = some p)
    (lab : String) (hl : lab ∈ infoLabels) :
    labelled lab.toList (infoBinaries date cats m name) = ((infoPairs date (cats name) name p).filter (fun q => q.1 = lab)).map (·.2) := by
  unfold infoBinaries
  rw [hm]
  exact labelled_pairs lab hl _ (infoPairs_labels _ _ _ _)

theorem filter_ite_nil {α : Type} {c : Prop} [Decidable c] (l : List α) (f : α → Bool) :
    (if c then l else []).filter f = if c then l.filter f else [] := by split <;> rfl

set_option maxHeartbeats 1000000 in
theorem info_values (date : Nat → Str) (cats : List Str) (name : Str) (p : RepoPkg) :
    let v := fun lab : String => ((infoPairs date cats name p).filter (fun q => q.1 = lab)).map (·.2)
    v "Name           : " = [name] ∧ v "Description    : " = [p.description] ∧ v "Archive name   : " = [p.fileName] ∧
    v "Collection     : " = [p.collection] ∧ v "URL            : " = [p.url] ∧ v "License        : " = [p.license] ∧
    v "Version        : " = [p.version] ∧ v "Release        : " = [itos p.release] ∧ v "Build date     : " = [date p.build] ∧
    v "Hashsum        : " = [p.hash] ∧ v "Signature      : " = [p.signature] ∧ v "Archive Size   : " = [sizeHumanRead p.size ++ "bytes".toList] ∧
    v "Installed Size : " = [sizeHumanRead p.space ++ "bytes".toList] ∧ v "Maintainer(s)  : " = [p.maintainer] ∧
    v "Packager       : " = [p.packager] ∧ v "Contributor(s) : " = [p.contributors] ∧ v "Arch           : " = [p.arch] ∧
    v "Binary URL     : " = [p.origin] ∧ v "Local folder   : " = [p.dirName] ∧
    v "Group          : " = (if p.group.length > 0 then [p.group] else []) ∧
    v "Alias          :" = (if p.aliases.length > 0 then [p.aliases.flatMap (fun i => ' ' :: i)] else []) ∧
    v "Sets           :" = (if p.sets.length > 0 then [p.sets.flatMap (fun i => ' ' :: i)] else []) ∧
    v "Dependencies   : " = (if p.deps.length > 0 then [p.deps.flatMap (fun d => d.1 ++ [' '])] else []) := by
  intro v
  simp only [v, infoPairs, List.filter_append, filter_ite_nil, List.map_append]
  refine ⟨?_, ?_, ?_, ?_, ?_, ?_, ?_, ?_, ?_, ?_, ?_, ?_, ?_, ?_, ?_, ?_, ?_, ?_, ?_, ?_, ?_, ?_, ?_⟩ <;>
    (simp only [List.filter_cons, List.filter_nil, String.reduceEq, decide_false, decide_true, Bool.false_eq_true, if_true, if_false, List.map_nil, List.map_cons,
      ite_self, List.append_nil, List.nil_append]; try (split <;> rfl))

/-- The output tells what the package file `r` of the collection `c`, of a package called `n`, says about itself. -/
structure Tells (date : Nat → Str) (out : List Str) (n : Str) (r : Rec) (c : Coll) : Prop where
  name : labelled "Name           : ".toList out = [n]
  file : labelled "Archive name   : ".toList out = [r.file]
  folder : labelled "Local folder   : ".toList out = [c.dir ++ '/' :: c.name]
  origin : labelled "Binary URL     : ".toList out = [c.origin]
  hash : labelled "Hashsum        : ".toList out = [r.hash]
  sign : labelled "Signature      : ".toList out = [r.sign]
  size : r.size < 2 ^ 31 → labelled "Archive Size   : ".toList out = [sizeHumanRead r.size ++ "bytes".toList]
  space : ∀ k, k < 2 ^ 31 → r.Has 'S' (dec k) → labelled "Installed Size : ".toList out = [sizeHumanRead k ++ "bytes".toList]
  version : ∀ v, r.Has 'V' v → labelled "Version        : ".toList out = [v]
  release : ∀ k, k < 65536 → r.Has 'r' (dec k) → labelled "Release        : ".toList out = [dec k]
  build : ∀ t, 0 < t → t < 2 ^ 64 → r.Has 'B' (dec t) → labelled "Build date     : ".toList out = [date t]
  description : ∀ v, r.Has 'D' v → labelled "Description    : ".toList out = [v]
  collection : ∀ v, r.Has 'c' v → labelled "Collection     : ".toList out = [v]
  url : ∀ v, r.Has 'U' v → labelled "URL            : ".toList out = [v]
  license : ∀ v, r.Has 'L' v → labelled "License        : ".toList out = [v]
  maintainer : ∀ v, r.Has 'M' v → labelled "Maintainer(s)  : ".toList out = [v]
  packager : ∀ v, r.Has 'P' v → labelled "Packager       : ".toList out = [v]
  contributors : ∀ v, r.Has 'C' v → labelled "Contributor(s) : ".toList out = [v]
  arch : ∀ v, r.Has 'a' v → labelled "Arch           : ".toList out = [v]
  group : ∀ v, v ≠ [] → r.Has 'g' v → labelled "Group          : ".toList out = [v]
  noGroup : (∀ v, ¬ r.Has 'g' v) → labelled "Group          : ".toList out = []
  aliases : ∃ xs, (∀ x, x ∈ xs ↔ r.Has 'A' x) ∧ labelled "Alias          :".toList out = if xs = [] then [] else [xs.flatMap (fun x => ' ' :: x)]
  sets : ∃ xs, (∀ x, x ∈ xs ↔ r.Has 's' x) ∧ labelled "Sets           :".toList out = if xs = [] then [] else [xs.flatMap (fun x => ' ' :: x)]
  deps : ∃ xs : List (Str × Nat), (∀ n t, 10 ^ 9 ≤ t → t < 10 ^ 10 → ((n, t) ∈ xs ↔ r.Has 'R' (n ++ dec t) ∧ 4 ≤ n.length)) ∧
    labelled "Dependencies   : ".toList out = if xs = [] then [] else [xs.flatMap (fun x => x.1 ++ [' '])]

theorem ite_len {α β : Type} (xs : List α) (a : List β) : (if xs.length > 0 then a else []) = if xs = [] then [] else a := by
  cases xs <;> simp

theorem tells_of (date : Nat → Str) (cats : Str → List Str) {m : List (Str × RepoPkg)} {n : Str} {p : RepoPkg} {r : Rec} {c : Coll} (hm : mget m n = some p)
    (hd : Describes p r c) : Tells date (infoBinaries date cats m n) n r c := by
  have hv := info_values date (cats n) n p
  simp only at hv
  obtain ⟨v1, v2, v3, v4, v5, v6, v7, v8, v9, v10, v11, v12, v13, v14, v15, v16, v17, v18, v19, v20, v21, v22, v23⟩ := hv
  have L : ∀ lab, lab ∈ infoLabels → _ := fun lab hl => info_labelled date cats m hm lab hl
  exact
    { name := by rw [L _ (by decide +kernel), v1]
      file := by rw [L _ (by decide +kernel), v3, hd.file]
      folder := by rw [L _ (by decide +kernel), v19, hd.dir]
      origin := by rw [L _ (by decide +kernel), v18, hd.origin]
      hash := by rw [L _ (by decide +kernel), v10, hd.hash]
      sign := by rw [L _ (by decide +kernel), v11, hd.signature]
      size := fun h => by rw [L _ (by decide +kernel), v12, hd.size h]
      space := fun k h1 h2 => by rw [L _ (by decide +kernel), v13, hd.space k h1 h2]
      version := fun v h => by rw [L _ (by decide +kernel), v7, hd.version v h]
      release := fun k h1 h2 => by rw [L _ (by decide +kernel), v8, hd.release k h1 h2, itos_short h1]
      build := fun t h1 h2 h3 => by rw [L _ (by decide +kernel), v9, hd.build t h1 h2 h3]
      description := fun v h => by rw [L _ (by decide +kernel), v2, hd.description v h]
      collection := fun v h => by rw [L _ (by decide +kernel), v4, hd.collection v h]
      url := fun v h => by rw [L _ (by decide +kernel), v5, hd.url v h]
      license := fun v h => by rw [L _ (by decide +kernel), v6, hd.license v h]
      maintainer := fun v h => by rw [L _ (by decide +kernel), v14, hd.maintainer v h]
      packager := fun v h => by rw [L _ (by decide +kernel), v15, hd.packager v h]
      contributors := fun v h => by rw [L _ (by decide +kernel), v16, hd.contributors v h]
      arch := fun v h => by rw [L _ (by decide +kernel), v17, hd.arch v h]
      group := fun v h1 h2 => by rw [L _ (by decide +kernel), v20, hd.group v h2, if_pos (List.length_pos_iff.mpr h1)]
      noGroup := fun h => by rw [L _ (by decide +kernel), v20, hd.noGroup h]; rfl
      aliases := ⟨p.aliases, hd.aliases, by rw [L _ (by decide +kernel), v21, ite_len]⟩
      sets := ⟨p.sets, hd.sets, by rw [L _ (by decide +kernel), v22, ite_len]⟩
      deps := ⟨p.deps, hd.deps, by rw [L _ (by decide +kernel), v23, ite_len]⟩ }

/-- **C86** (part). For every repository written by `cards repo`, `cards info --binaries` prints for a name exactly the fields of the (last) package file of
that name, each on the line of its label; for other names it prints nothing. Missing: fields the package file does not have, dependencies on packages whose
name has less than four characters, archives of 2 GiB and more (all false, see below). -/
theorem C86_info_partial (init : RepoPkg) (date : Nat → Str) (cats : Str → List Str) (cs : List (Coll × List Rec))
    (h : ∀ x ∈ cs, x.1.repo = some (writeRepo x.2) ∧ x.1.name ≠ [] ∧ ∀ r ∈ x.2, RecOk r) :
    ∃ m, parseRepo init (cs.map (·.1)) = some m ∧
      (∀ a c r b, allRecs cs = a ++ (c, r) :: b → ∀ n, r.Has 'N' n → (∀ x ∈ b, ¬ x.2.Has 'N' n) → Tells date (infoBinaries date cats m n) n r c) ∧
      (∀ n, (∀ x ∈ allRecs cs, ¬ x.2.Has 'N' n) → infoBinaries date cats m n = []) := by
  obtain ⟨m, h0, h1, h2⟩ := C26_roundtrip_partial init cs h
  refine ⟨m, h0, ?_, ?_⟩
  · intro a c r b e n hn hb
    obtain ⟨p, hp, hd⟩ := h1 a c r b e n hn hb
    exact tells_of date cats hp hd
  · intro n hn
    have : mget m n = none := mget_none_iff.mpr (fun hk => by
      obtain ⟨x, hx, hk⟩ := (h2 n).mp hk
      exact hn x hx hk)
    unfold infoBinaries
    rw [this]

/-- **C86 fails** for fields a package does not have: those of another package are shown. `zstd.ca` has no description, and gets that of `zlib`. -/
theorem C86_leak_counterexample (date : Nat → Str) (cats : Str → List Str) : RecOk rZlib ∧ RecOk rSub ∧ (∀ v, ¬ rSub.Has 'D' v) ∧
    ∃ m, parseRepo defaultPkg [xColl [rZlib, rSub]] = some m ∧
      labelled "Description    : ".toList (infoBinaries date cats m "zstd.ca".toList) = ["compression".toList] := by
  obtain ⟨h1, h2, h3, m, p, h4, h5, h6, _, _⟩ := C26_leak_counterexample
  refine ⟨h1, h2, h3, m, h4, ?_⟩
  rw [info_labelled date cats m h5 _ (by decide +kernel)]
  have hv := info_values date (cats "zstd.ca".toList) "zstd.ca".toList p
  simp only at hv
  rw [hv.2.1, h6]

/-- **C86 fails** for archives of 2 GiB: the size of the entry is the one of `C26_big_size_counterexample`, shown as 16 million million Gbytes. -/
theorem C86_big_size_counterexample : ((atoi32 (itos (2 ^ 31))) % 2 ^ 64).toNat = 2 ^ 31 + (2 ^ 64 - 2 ^ 32) ∧
    sizeHumanRead (2 ^ 31 + (2 ^ 64 - 2 ^ 32)) = "17179869182.00 G".toList := by
  refine ⟨C26_big_size_counterexample _ (by decide) (by decide), by decide +kernel⟩

/-- **C86, sets.** `cards info --sets` prints one line for each member of the set, or when the set has no member for each package of the collection. -/
theorem C86_sets (init : RepoPkg) (cs : List (Coll × List Rec))
    (h : ∀ x ∈ cs, x.1.repo = some (writeRepo x.2) ∧ x.1.name ≠ [] ∧ ∀ r ∈ x.2, RecOk r) (hd : DistinctNames cs)
    (hc : ∀ x ∈ allRecs cs, ∃ v, x.2.Has 'c' v) :
    ∃ m, parseRepo init (cs.map (·.1)) = some m ∧ ∀ arg,
      let member := fun n => ∃ x ∈ allRecs cs, x.2.Has 'N' n ∧ x.2.Has 's' arg ∧ ¬ Rec.IsGroup x.2
      ((∃ n, member n) → ∀ l, l ∈ infoSets m arg ↔ ∃ n, member n ∧ l = '(' :: arg ++ ')' :: ' ' :: n) ∧
      ((¬ ∃ n, member n) → ∀ l, l ∈ infoSets m arg ↔
        ∃ n, (∃ x ∈ allRecs cs, x.2.Has 'N' n ∧ x.2.Has 'c' arg ∧ ¬ Rec.IsGroup x.2 ∧ ¬ Rec.IsNls x.2) ∧ l = '(' :: arg ++ ')' :: ' ' :: n) := by
  obtain ⟨m, h0, h1⟩ := C27_set_members init cs h hd
  obtain ⟨m', h0', h2⟩ := C27_collection_members init cs h hd hc
  rw [h0] at h0'
  simp only [Option.some.injEq] at h0'
  subst h0'
  refine ⟨m, h0, fun arg => ?_⟩
  intro member
  constructor
  · rintro ⟨n, hn⟩ l
    have hne : (packagesOfSet m arg).length ≠ 0 := fun h0 => by
      have := (h1 arg n).mpr hn
      rw [List.length_eq_zero_iff.mp h0] at this
      simp at this
    unfold infoSets
    rw [if_neg hne, List.mem_map]
    constructor
    · rintro ⟨a, ha, rfl⟩; exact ⟨a, (h1 arg a).mp ha, rfl⟩
    · rintro ⟨a, ha, rfl⟩; exact ⟨a, (h1 arg a).mpr ha, rfl⟩
  · intro hn l
    have hz : (packagesOfSet m arg).length = 0 := by
      rw [List.length_eq_zero_iff, List.eq_nil_iff_forall_not_mem]
      exact fun a ha => hn ⟨a, (h1 arg a).mp ha⟩
    unfold infoSets
    rw [if_pos hz, List.mem_map]
    constructor
    · rintro ⟨a, ha, rfl⟩; exact ⟨a, (h2 arg a).mp ha, rfl⟩
    · rintro ⟨a, ha, rfl⟩; exact ⟨a, (h2 arg a).mpr ha, rfl⟩

/-- An entry with everything. -/
def fullPkg : RepoPkg := { defaultPkg with version := "1.3".toList, release := 2, aliases := ["libz".toList], deps := [("glibc".toList, 5), ("make".toList, 6)], sets := ["libs".toList, "std".toList], size := 1152, space := 400 }

/-- The hypotheses of `C86_info_partial` and `C86_sets` hold for the repository of the examples (see Props/Repo and Props/RepoQuery); this is its output for an
entry with everything. -/
example : infoBinaries (fun _ => "Tue Nov 14 22:13:20 2023".toList) (fun _ => []) [("zlib".toList, fullPkg)] "zlib".toList =
    ["Name           : zlib", "Alias          : libz", "Description    : ", "Archive name   : ", "Collection     : ", "Sets           : libs std",
     "URL            : ", "License        : ", "Version        : 1.3", "Release        : 2", "Build date     : Tue Nov 14 22:13:20 2023",
     "Hashsum        : ", "Signature      : ", "Archive Size   :  1.12 Kbytes", "Installed Size : 400bytes", "Maintainer(s)  : ", "Packager       : ",
     "Contributor(s) : ", "Arch           : ", "Binary URL     : ", "Local folder   : ", "Dependencies   : glibc make "].map (·.toList) := by
  decide +kernel

end Cards.Props
