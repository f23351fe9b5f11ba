import Verif.Model.PkgmkDeps
import Verif.Props.WebPkgs
import Verif.Lemmas.Base
/-!
# `pkgmk`: what a build leaves on the machine, the collections, the categories, the stripped files
-/
namespace Cards.Props

/-! ## C187: the packages on the machine -/

/-- A file holds the package its name says. -/
def HonestFiles (files : Str → List (Str × Str)) (holds : Str → Option (Str × Nat)) : Prop :=
  ∀ c, ∀ f ∈ files c, ∀ p, holds f.1 = some p → p.1 = getPackageName f.2

theorem mem_getDependencies {db : OnMachine} {files : Str → List (Str × Str)} {colls depends : List Str} {d : Str × Str} :
    d ∈ getDependencies db files colls depends ↔
      ∃ c ∈ colls, ∃ n ∈ depends, ∃ f ∈ files c, mkDepFile n f.2 = true ∧ builtAt db (getPackageName f.2) = 0 ∧ d = (getPackageName f.2, f.1) := by
  simp only [getDependencies, List.mem_flatMap, List.mem_filterMap, List.mem_filter]
  constructor
  · rintro ⟨c, hc, n, hn, f, ⟨hf, hm⟩, h⟩
    split at h
    · simp at h
    · rename_i h0
      exact ⟨c, hc, n, hn, f, hf, hm, by simpa using h0, by simpa using h.symm⟩
  · rintro ⟨c, hc, n, hn, f, hf, hm, h0, h⟩
    exact ⟨c, hc, n, hn, f, ⟨hf, hm⟩, by simp [h0, h]⟩

theorem builtAt_ne {db : OnMachine} (hd : ∀ p ∈ db, p.2 ≠ 0) {p : Str × Nat} (hp : p ∈ db) : builtAt db p.1 ≠ 0 := by
  unfold builtAt
  cases h : db.find? (fun q => q.1 = p.1) with
  | none => exact absurd (List.find?_eq_none.mp h p hp) (by simp)
  | some q => simpa using hd q (List.mem_of_find?_eq_some h)

theorem addPkg_append (holds : Str → Option (Str × Nat)) (db : OnMachine) (f : Str) :
    ∃ e, addPkg holds db f = db ++ e ∧ ∀ p ∈ e, holds f = some p := by
  unfold addPkg
  split
  · exact ⟨[], by simp, by simp⟩
  · rename_i p hp
    split
    · exact ⟨[], by simp, by simp⟩
    · exact ⟨[p], rfl, by simp [hp]⟩

theorem addDependencies_append (holds : Str → Option (Str × Nat)) (ds : List (Str × Str)) : ∀ db : OnMachine,
    ∃ e, addDependencies holds db ds = db ++ e ∧ ∀ p ∈ e, ∃ d ∈ ds, holds d.2 = some p := by
  induction ds with
  | nil => exact fun db => ⟨[], by simp [addDependencies], by simp⟩
  | cons d ds ih =>
    intro db
    obtain ⟨e, he, hp⟩ := addPkg_append holds db d.2
    obtain ⟨e', he', hp'⟩ := ih (addPkg holds db d.2)
    refine ⟨e ++ e', ?_, ?_⟩
    · show addDependencies holds (addPkg holds db d.2) ds = _
      rw [he', he, List.append_assoc]
    · intro p hm
      rcases List.mem_append.mp hm with h | h
      · exact ⟨d, List.mem_cons_self, hp p h⟩
      · obtain ⟨x, hx, hh⟩ := hp' p h
        exact ⟨x, List.mem_cons_of_mem _ hx, hh⟩

theorem removeDependencies_eq (ds : List (Str × Str)) : ∀ db : OnMachine,
    removeDependencies db ds = db.filter (fun q => decide (∀ d ∈ ds, q.1 ≠ d.1)) := by
  induction ds with
  | nil => intro db; simp [removeDependencies]
  | cons d ds ih =>
    intro db
    show removeDependencies (rmPkg db d.1) ds = _
    rw [ih, rmPkg, List.filter_filter]
    congr 1
    funext q
    rw [Bool.eq_iff_iff]
    simp only [Bool.and_eq_true, decide_eq_true_eq, List.forall_mem_cons]
    exact and_comm

theorem removed_again (ds : List (Str × Str)) (db : OnMachine) (n : Nat) (h : removeDependencies db ds = db) :
    (List.replicate n ()).foldl (fun m _ => removeDependencies m ds) db = db := by
  induction n with
  | zero => rfl
  | succ n ih => simpa [List.replicate_succ, h] using ih

/-- However a build ends, and however often the packages are removed, the machine has the packages it had. What is missing for the whole property: a package with the build date 0
(see below), and a build that is interrupted. -/
theorem C187_as_before_partial {holds : Str → Option (Str × Nat)} {db : OnMachine} {files : Str → List (Str × Str)} (colls depends : List Str) (again : Nat)
    (hd : ∀ p ∈ db, p.2 ≠ 0) (hh : HonestFiles files holds) : afterBuild holds db files colls depends again = db := by
  have key : removeDependencies (whileBuilding holds db files colls depends) (getDependencies db files colls depends) = db := by
    obtain ⟨e, he, hp⟩ := addDependencies_append holds (getDependencies db files colls depends) db
    rw [whileBuilding, he, removeDependencies_eq, List.filter_append, List.filter_eq_self.mpr, List.filter_eq_nil_iff.mpr, List.append_nil]
    · intro p hpe hc
      obtain ⟨d, hm, hs⟩ := hp p hpe
      obtain ⟨c, -, n, -, f, hf, -, -, rfl⟩ := mem_getDependencies.mp hm
      exact (of_decide_eq_true hc) _ hm (hh c f hf p hs)
    · intro p hpd
      refine decide_eq_true ?_
      intro d hm he
      obtain ⟨c, -, n, -, f, -, -, h0, rfl⟩ := mem_getDependencies.mp hm
      exact builtAt_ne hd hpd (by rw [he]; exact h0)
  have same : removeDependencies db (getDependencies db files colls depends) = db := by
    have hidem : ∀ m ds, removeDependencies (removeDependencies m ds) ds = removeDependencies m ds := by
      intro m ds
      rw [removeDependencies_eq, removeDependencies_eq, List.filter_filter]
      simp only [Bool.and_self]
    calc _ = removeDependencies (removeDependencies (whileBuilding holds db files colls depends) (getDependencies db files colls depends)) (getDependencies db files colls depends) := by rw [key]
      _ = db := by rw [hidem, key]
  rw [afterBuild, List.replicate_succ, List.foldl_cons, key]
  exact removed_again _ db again same

/-- What was there stays there during the build, in its place. -/
theorem C187_kept (holds : Str → Option (Str × Nat)) (db : OnMachine) (files : Str → List (Str × Str)) (colls depends : List Str) :
    db <+: whileBuilding holds db files colls depends := by
  obtain ⟨e, he, -⟩ := addDependencies_append holds (getDependencies db files colls depends) db
  exact ⟨e, he.symm⟩

theorem addPkg_has {holds : Str → Option (Str × Nat)} {db : OnMachine} {f : Str} {p : Str × Nat} (h : holds f = some p) :
    ∃ q ∈ addPkg holds db f, q.1 = p.1 := by
  unfold addPkg
  simp only [h]
  split
  · rename_i hc
    obtain ⟨q, hq, he⟩ := List.any_eq_true.mp hc
    exact ⟨q, hq, by simpa using he⟩
  · exact ⟨p, by simp, rfl⟩

theorem addDependencies_has {holds : Str → Option (Str × Nat)} {ds : List (Str × Str)} {d : Str × Str} {p : Str × Nat} (hm : d ∈ ds) (h : holds d.2 = some p) :
    ∀ db : OnMachine, ∃ q ∈ addDependencies holds db ds, q.1 = p.1 := by
  induction ds with
  | nil => simp at hm
  | cons x ds ih =>
    intro db
    rcases List.mem_cons.mp hm with rfl | hm
    · obtain ⟨q, hq, he⟩ := addPkg_has (db := db) h
      obtain ⟨e, hx, -⟩ := addDependencies_append holds ds (addPkg holds db d.2)
      refine ⟨q, ?_, he⟩
      show q ∈ addDependencies holds (addPkg holds db d.2) ds
      rw [hx]
      exact List.mem_append_left _ hq
    · exact ih hm (addPkg holds db x.2)

/-- Every package of the collections that a port asks for, and that can be installed, is there while it is built. Missing: nothing is said when there is no such package (see below). -/
theorem C187_present_partial {holds : Str → Option (Str × Nat)} {db : OnMachine} {files : Str → List (Str × Str)} {colls depends : List Str} (hh : HonestFiles files holds)
    {c n : Str} {f : Str × Str} {p : Str × Nat} (hc : c ∈ colls) (hn : n ∈ depends) (hf : f ∈ files c) (hm : mkDepFile n f.2 = true) (hp : holds f.1 = some p) :
    ∃ q ∈ whileBuilding holds db files colls depends, q.1 = getPackageName f.2 := by
  by_cases h0 : builtAt db (getPackageName f.2) = 0
  · have := addDependencies_has (mem_getDependencies.mpr ⟨c, hc, n, hn, f, hf, hm, h0, rfl⟩) hp db
    rwa [hh c f hf p hp] at this
  · unfold builtAt at h0
    cases h : db.find? (fun q => q.1 = getPackageName f.2) with
    | none => simp [h] at h0
    | some q =>
      refine ⟨q, (C187_kept holds db files colls depends).subset (List.mem_of_find?_eq_some h), ?_⟩
      simpa using List.find?_some h

/-- A name of the form `NAME.cards-…` or `NAME.GROUP.cards-…` is a file of `NAME`. -/
theorem mkDepFile_iff (n b : Str) : mkDepFile n b = true ↔ ∃ x y, b = n ++ '.' :: (x ++ "cards-".toList ++ y) := by
  simp only [mkDepFile, Bool.and_eq_true, isSome_infix, List.isPrefixOf_iff_prefix]
  generalize "cards-".toList = k
  constructor
  · rintro ⟨⟨r, rfl⟩, x, y, h⟩
    have : (n ++ ['.'] ++ r).drop (n.length + 1) = r := by
      rw [show n.length + 1 = (n ++ ['.']).length by simp, List.drop_left]
    rw [this] at h
    exact ⟨x, y, by simp [← h]⟩
  · rintro ⟨x, y, rfl⟩
    refine ⟨⟨x ++ k ++ y, by simp⟩, x, y, ?_⟩
    rw [show n ++ '.' :: (x ++ k ++ y) = (n ++ ['.']) ++ (x ++ k ++ y) by simp, show n.length + 1 = (n ++ ['.']).length by simp, List.drop_left]

def c187Files : Str → List (Str × Str) := fun c =>
  if c = "base".toList then [("/b/gcc.cards-1".toList, "gcc.cards-1".toList), ("/b/gcc.devel.cards-1".toList, "gcc.devel.cards-1".toList), ("/b/make.cards-4".toList, "make.cards-4".toList)] else []

def c187Holds : Str → Option (Str × Nat) := fun f =>
  if f = "/b/gcc.cards-1".toList then some ("gcc".toList, 7)
  else if f = "/b/gcc.devel.cards-1".toList then some ("gcc.devel".toList, 7)
  else if f = "/b/make.cards-4".toList then some ("make".toList, 8) else none

example : HonestFiles c187Files c187Holds := by
  intro c f hf p hp
  unfold c187Files at hf
  split at hf
  · simp only [List.mem_cons, List.not_mem_nil, or_false] at hf
    rcases hf with rfl | rfl | rfl
    · have : c187Holds "/b/gcc.cards-1".toList = some ("gcc".toList, 7) := by decide +kernel
      rw [this] at hp; cases hp; decide +kernel
    · have : c187Holds "/b/gcc.devel.cards-1".toList = some ("gcc.devel".toList, 7) := by decide +kernel
      rw [this] at hp; cases hp; decide +kernel
    · have : c187Holds "/b/make.cards-4".toList = some ("make".toList, 8) := by decide +kernel
      rw [this] at hp; cases hp; decide +kernel
  · simp at hf

/-- A port that asks for `gcc`, where `make` is there: two packages come and go. -/
example : whileBuilding c187Holds [("make".toList, 8)] c187Files ["base".toList] ["gcc".toList, "make".toList] = [("make".toList, 8), ("gcc".toList, 7), ("gcc.devel".toList, 7)] ∧
    afterBuild c187Holds [("make".toList, 8)] c187Files ["base".toList] ["gcc".toList, "make".toList] 0 = [("make".toList, 8)] := by decide +kernel

/-- A package that is installed with the build date 0 is taken for one that is not there, and it is removed after the build. -/
theorem C187_date_counterexample :
    afterBuild c187Holds [("make".toList, 0)] c187Files ["base".toList] ["make".toList] 0 = [] := by decide +kernel

/-- A port that asks for a package that no collection has is built without it. -/
theorem C187_missing_counterexample : whileBuilding c187Holds [] c187Files ["base".toList] ["cmake".toList] = [] := by decide +kernel

/-! ## C188: the collections -/

/-- The level of a collection: `base`, then `cli`, then `cli-extra` and `gui`, then all others. -/
def collLevel (c : Str) : Nat :=
  if c = "base".toList then 0 else if c = "cli".toList then 1 else if c = "cli-extra".toList ∨ c = "gui".toList then 2 else 3

/-- `base` comes first. -/
theorem C188_base_first (own : Str) : ∃ r, defaultCollections own = "base".toList :: r := by
  unfold defaultCollections
  split_ifs with h1 h2 h3 h4
  · exact ⟨_, rfl⟩
  · exact ⟨_, rfl⟩
  · exact ⟨_, rfl⟩
  · exact ⟨_, rfl⟩
  · exact ⟨[], by rw [not_ne_iff.mp h1]⟩

/-- The collection of the port is one of them. -/
theorem C188_own (own : Str) : own ∈ defaultCollections own := by
  unfold defaultCollections
  split_ifs with h1 h2 h3 h4 <;> simp_all

/-- All others are of a lower level. -/
theorem C188_below (own c : Str) (h : c ∈ defaultCollections own) : c = own ∨ collLevel c < collLevel own := by
  have e0 : collLevel "base".toList = 0 := by decide
  have e1 : collLevel "cli".toList = 1 := by decide
  have e2 : collLevel "gui".toList = 2 := by decide
  have e3 : collLevel "cli-extra".toList = 2 := by decide
  unfold defaultCollections at h
  split_ifs at h with h1 h2 h3 h4
  · subst h2
    simp only [List.mem_cons, List.not_mem_nil, or_false] at h
    rcases h with rfl | rfl
    · right; rw [e0, e1]; decide
    · left; rfl
  · subst h3
    simp only [List.mem_cons, List.not_mem_nil, or_false] at h
    rcases h with rfl | rfl | rfl
    · right; rw [e0, e3]; decide
    · right; rw [e1, e3]; decide
    · left; rfl
  · subst h4
    simp only [List.mem_cons, List.not_mem_nil, or_false] at h
    rcases h with rfl | rfl | rfl
    · right; rw [e0, e2]; decide
    · right; rw [e1, e2]; decide
    · left; rfl
  · have e : collLevel own = 3 := by
      unfold collLevel
      rw [if_neg h1, if_neg h2, if_neg (by rintro (h | h); exacts [h3 h, h4 h])]
    simp only [List.mem_cons, List.not_mem_nil, or_false] at h
    rcases h with rfl | rfl | rfl | rfl
    · right; rw [e0, e]; decide
    · right; rw [e1, e]; decide
    · right; rw [e2, e]; decide
    · left; rfl
  · left; simpa using h

/-- Lower levels all come along: `base` for all but `base`, `cli` for all above it, and `gui` for the collections that are none of the four. -/
theorem C188_all_below (own : Str) : (collLevel own ≥ 2 → "cli".toList ∈ defaultCollections own) ∧ (collLevel own ≥ 3 → "gui".toList ∈ defaultCollections own) := by
  have e0 : collLevel "base".toList = 0 := by decide
  have e1 : collLevel "cli".toList = 1 := by decide
  have e2 : collLevel "gui".toList = 2 := by decide
  have e3 : collLevel "cli-extra".toList = 2 := by decide
  unfold defaultCollections
  split_ifs with h1 h2 h3 h4
  · subst h2; rw [e1]; constructor <;> intro h <;> omega
  · subst h3; rw [e3]; constructor
    · intro _; simp
    · intro h; omega
  · subst h4; rw [e2]; constructor
    · intro _; simp
    · intro h; omega
  · constructor <;> intro _ <;> simp
  · rw [not_ne_iff.mp h1, e0]; constructor <;> intro h <;> omega

example : defaultCollections "kde6".toList = ["base".toList, "cli".toList, "gui".toList, "kde6".toList] ∧ collLevel "kde6".toList = 3 := by decide

/-! ## C189: the categories -/

/-- A text that can be a category. -/
def CatWord (w : Str) : Prop := w ≠ [] ∧ ∀ c ∈ w, c ≠ ';' ∧ c ≠ '=' ∧ shBlank c = false

/-- The file has one line of categories, these, each with a `;` after it. -/
def DesktopWith (ls cats : List Str) : Prop :=
  ls.filter (fun l => "Categories".toList.isPrefixOf l) = ["Categories=".toList ++ cats.flatMap (fun w => w ++ [';'])] ∧ ∀ w ∈ cats, CatWord w

theorem semiParts_word {w s : Str} (h : ∀ c ∈ w, c ≠ ';') : semiParts (w ++ ';' :: s) = w :: semiParts s := by
  induction w with
  | nil => simp [semiParts]
  | cons c w ih =>
    rw [List.cons_append, semiParts, if_neg (h c List.mem_cons_self), ih (fun d hd => h d (List.mem_cons_of_mem _ hd))]

theorem semiWords_cats {cats : List Str} (h : ∀ w ∈ cats, CatWord w) (s : Str) : semiWords (cats.flatMap (fun w => w ++ [';']) ++ s) = cats ++ semiWords s := by
  induction cats with
  | nil => simp
  | cons w cats ih =>
    have hw := h w List.mem_cons_self
    have := ih (fun v hv => h v (List.mem_cons_of_mem _ hv))
    simp only [semiWords] at this ⊢
    rw [List.flatMap_cons, show w ++ [';'] ++ cats.flatMap (fun w => w ++ [';']) ++ s = w ++ ';' :: (cats.flatMap (fun w => w ++ [';']) ++ s) by simp,
      semiParts_word (fun c hc => (hw.2 c hc).1), List.filter_cons_of_pos (by simpa using hw.1), this, List.cons_append]

theorem cutEq_body {a b : Str} (ha : '=' ∉ a) (hb : '=' ∉ b) : cutEq (a ++ '=' :: b) = b := by
  unfold cutEq
  rw [if_pos (by simp)]
  have h1 : (a ++ '=' :: b).dropWhile (fun c => decide (c ≠ '=')) = '=' :: b := by
    induction a with
    | nil => simp
    | cons c a ih =>
      have : c ≠ '=' := fun h => ha (by simp [h])
      rw [List.cons_append, List.dropWhile_cons_of_pos (by simpa using this)]
      exact ih (fun h => ha (List.mem_cons_of_mem _ h))
  rw [h1]
  simp only [List.drop_succ_cons, List.drop_zero]
  clear h1
  induction b with
  | nil => rfl
  | cons c b ih =>
    have : c ≠ '=' := fun h => hb (by simp [h])
    rw [List.takeWhile_cons_of_pos (by simpa using this), ih (fun h => hb (List.mem_cons_of_mem _ h))]

theorem cats_chars {cats : List Str} (h : ∀ w ∈ cats, CatWord w) : ∀ c ∈ cats.flatMap (fun w => w ++ [';']), c ≠ '=' ∧ shBlank c = false := by
  intro c hc
  obtain ⟨w, hw, hc⟩ := List.mem_flatMap.mp hc
  rcases List.mem_append.mp hc with hc | hc
  · exact ((h w hw).2 c hc).2
  · rw [List.mem_singleton] at hc; subst hc; decide

theorem desktopCats_with {ls cats : List Str} (h : DesktopWith ls cats) : desktopCats ls = cats.flatMap (fun w => w ++ [';']) := by
  unfold desktopCats
  rw [h.1]
  have e : "Categories=".toList = "Categories".toList ++ ['='] := by decide
  have hn : '=' ∉ "Categories".toList := by decide
  rw [e]
  generalize "Categories".toList = k at hn
  simp only [List.map_cons, List.map_nil, List.intercalate, List.intersperse_singleton, List.flatten_cons, List.flatten_nil, List.append_nil]
  rw [List.append_assoc, List.singleton_append, cutEq_body hn (fun hc => (cats_chars h.2 _ hc).1 rfl)]

theorem flatten_cats {fs : List (List Str × List Str)} (h : ∀ f ∈ fs, DesktopWith f.1 f.2) :
    ((fs.map (·.1)).map desktopCats).flatten = (fs.flatMap (·.2)).flatMap (fun w => w ++ [';']) := by
  induction fs with
  | nil => rfl
  | cons f fs ih =>
    simp only [List.map_cons, List.flatten_cons, List.flatMap_cons, List.flatMap_append]
    rw [desktopCats_with (h f List.mem_cons_self), ← ih (fun g hg => h g (List.mem_cons_of_mem _ hg))]

/-- The categories of a package are those of its desktop files, each once, in order. Missing for the whole property: a file without `;` after the last category, with two lines of categories, or
with white space in the line (see below). -/
theorem C189_exact_partial {fs : List (List Str × List Str)} (h : ∀ f ∈ fs, DesktopWith f.1 f.2) :
    Sorted (getCategories (fs.map (·.1))) ∧ ∀ x, x ∈ getCategories (fs.map (·.1)) ↔ ∃ f ∈ fs, x ∈ f.2 := by
  have hall : ∀ w ∈ fs.flatMap (·.2), CatWord w := by
    intro w hw
    obtain ⟨f, hf, hw⟩ := List.mem_flatMap.mp hw
    exact (h f hf).2 w hw
  have hex : ∀ x, (∃ f ∈ fs, x ∈ f.2) ↔ x ∈ fs.flatMap (·.2) := fun x => by simp [List.mem_flatMap]
  simp only [hex]
  unfold getCategories
  rw [flatten_cats h]
  generalize fs.flatMap (·.2) = cats at hall
  have hb : (cats.flatMap (fun w => w ++ [';'])).any shBlank = false := by
    rw [List.any_eq_false]
    intro c hc
    simp [(cats_chars hall c hc).2]
  have hw : semiWords (cats.flatMap (fun w => w ++ [';'])) = cats := by
    have := semiWords_cats hall []
    simpa [semiWords, semiParts] using this
  simp only [hb, hw, Bool.or_false]
  by_cases he : cats.flatMap (fun w => w ++ [';']) = []
  · simp only [he, decide_true, if_true]
    have : cats = [] := by
      cases cats with
      | nil => rfl
      | cons w cats => simp [List.flatMap_cons] at he
    subst this
    exact ⟨List.Pairwise.nil, by simp⟩
  · simp only [he, decide_false, Bool.false_eq_true, if_false]
    exact ⟨sorted_sofList _, fun x => mem_sofList⟩

def c189A : List Str := ["[Desktop Entry]".toList, "Name=a".toList, "Categories=Qt;Game;".toList]
def c189B : List Str := ["Categories=Audio;Qt;".toList, "Exec=b".toList]

example : DesktopWith c189A ["Qt".toList, "Game".toList] ∧ DesktopWith c189B ["Audio".toList, "Qt".toList] := by
  refine ⟨⟨by decide, ?_⟩, ⟨by decide, ?_⟩⟩ <;>
    · intro w hw
      simp only [List.mem_cons, List.not_mem_nil, or_false] at hw
      rcases hw with rfl | rfl <;> exact ⟨by decide, by decide⟩

example : getCategories [c189A, c189B] = ["Audio".toList, "Game".toList, "Qt".toList] := by decide +kernel

/-- Without a `;` after the last category the first of the next file is glued to it. -/
theorem C189_glued_counterexample : getCategories [["Categories=Qt;Game".toList], ["Categories=Audio;".toList]] = ["GameAudio".toList, "Qt".toList] := by decide +kernel

/-- Two lines of categories in one file: there are none. -/
theorem C189_lines_counterexample : getCategories [["Categories=Qt;".toList, "Categories[fr]=Jeu;".toList]] = [] := by decide +kernel

/-! ## C190: the files that are stripped -/

/-- A name that `read` gives back as it is. -/
def PlainName (f : Str) : Prop := readName f = f

/-- A file is stripped when its kind asks for it and no pattern of `.nostrip` is in its name, and in the way of its kind. Missing: names that `read` changes, see below. -/
theorem C190_exact_partial {nostrip : Option (List Str)} {kind : Str → Option StripKind} {files : List Str} (hp : ∀ f ∈ files, PlainName f) (f : Str) (h : StripHow) :
    (f, h) ∈ stripFiles nostrip kind files ↔
      f ∈ files ∧ (∀ ps, nostrip = some ps → ∀ p ∈ ps, ¬ p <:+: f) ∧
        (h = .all ∧ kind f = some (.exe false) ∨ h = .unneeded ∧ kind f = some (.shared false) ∨ h = .debug ∧ kind f = some .ar) := by
  have hk : ((kind f).bind stripHow = some h) ↔
      (h = .all ∧ kind f = some (.exe false) ∨ h = .unneeded ∧ kind f = some (.shared false) ∨ h = .debug ∧ kind f = some .ar) := by
    cases hkf : kind f with
    | none => simp
    | some k =>
      cases k with
      | exe b => cases b <;> cases h <;> simp [stripHow]
      | shared b => cases b <;> cases h <;> simp [stripHow]
      | ar => cases h <;> simp [stripHow]
      | other => cases h <;> simp [stripHow]
  have hmem : ∀ l : List Str, (∀ g ∈ l, PlainName g) → ((f, h) ∈ (l.map readName).filterMap (fun f => ((kind f).bind stripHow).map (fun h => (f, h))) ↔ f ∈ l ∧ (kind f).bind stripHow = some h) := by
    intro l hl
    have : l.map readName = l := (List.map_congr_left (fun g hg => hl g hg)).trans (List.map_id l)
    rw [this]
    simp only [List.mem_filterMap, Option.map_eq_some_iff, Prod.mk.injEq]
    constructor
    · rintro ⟨g, hg, k, hkk, rfl, rfl⟩; exact ⟨hg, hkk⟩
    · rintro ⟨hg, hkk⟩; exact ⟨f, hg, h, hkk, rfl, rfl⟩
  unfold stripFiles
  cases nostrip with
  | none =>
    simp only []
    rw [hmem files hp, hk]
    simp
  | some ps =>
    simp only []
    rw [hmem _ (fun g hg => hp g (List.mem_filter.mp hg).1), hk, List.mem_filter]
    simp only [noStripped, Bool.not_eq_true', List.any_eq_false, Option.some.injEq, forall_eq', isSome_infix]
    tauto

/-- A file that `.nostrip` names is not stripped. -/
theorem C190_named_partial {ps : List Str} {kind : Str → Option StripKind} {files : List Str} (hp : ∀ f ∈ files, PlainName f) {f : Str} (hf : f ∈ ps) (h : StripHow) :
    (f, h) ∉ stripFiles (some ps) kind files := by
  intro hm
  exact ((C190_exact_partial hp f h).mp hm).2.1 ps rfl f hf (List.infix_refl _)

theorem plainName_of {f : Str} (h1 : '\\' ∉ f) (h2 : ∀ c, f.head? = some c → c ≠ ' ' ∧ c ≠ '\t') (h3 : ∀ c, f.getLast? = some c → c ≠ ' ' ∧ c ≠ '\t') : PlainName f := by
  have hd : ∀ l : Str, (∀ c, l.head? = some c → c ≠ ' ' ∧ c ≠ '\t') → l.dropWhile (fun c => c = ' ' || c = '\t') = l := by
    intro l hl
    cases l with
    | nil => rfl
    | cons c l => exact List.dropWhile_cons_of_neg (by simpa using hl c rfl)
  have hu : ∀ l : Str, '\\' ∉ l → unBackslash l = l := by
    intro l
    fun_induction unBackslash l with
    | case1 => simp
    | case2 => simp
    | case3 c s ih => simp
    | case4 c s h1 h2 ih => intro hn; rw [ih (fun h => hn (List.mem_cons_of_mem _ h))]
  unfold PlainName readName
  rw [hd f h2, hd f.reverse (fun c hc => h3 c (by rwa [List.head?_reverse] at hc)), List.reverse_reverse, hu f h1]

example : PlainName "usr/lib/lib a.so".toList := plainName_of (by decide) (by decide) (by decide)

def c190Kind : Str → Option StripKind := fun f =>
  if f = "bin/a".toList then some (.exe false)
  else if f = "bin/ab".toList then some (.exe false)
  else if f = "lib/x.so".toList then some (.shared false)
  else if f = "lib/x ".toList then some (.shared false) else none

example : stripFiles none c190Kind ["bin/a".toList, "etc/c".toList, "lib/x.so".toList] = [("bin/a".toList, .all), ("lib/x.so".toList, .unneeded)] := by decide +kernel

/-- A pattern of `.nostrip` is a part of a name: `bin/ab` is not stripped either. -/
theorem C190_part_counterexample : stripFiles (some ["bin/a".toList]) c190Kind ["bin/a".toList, "bin/ab".toList] = [] := by decide +kernel

/-- An empty line in `.nostrip`: nothing is stripped. -/
theorem C190_empty_line (kind : Str → Option StripKind) (files : List Str) (ps : List Str) (h : [] ∈ ps) : stripFiles (some ps) kind files = [] := by
  unfold stripFiles
  simp only []
  rw [List.filter_eq_nil_iff.mpr]
  · rfl
  · intro f _
    have : noStripped ps f = true := List.any_eq_true.mpr ⟨[], h, isSome_infix.mpr List.nil_infix⟩
    simp [this]

/-- A name that ends in a blank is not found, and the file is not stripped. -/
theorem C190_blank_counterexample : stripFiles none c190Kind ["lib/x ".toList] = [] := by decide +kernel

/-- A name with a backslash in it stands for another file: one that `.nostrip` names is stripped. -/
theorem C190_backslash_counterexample : ("bin/a".toList, StripHow.all) ∈ stripFiles (some ["bin/a".toList]) c190Kind ["bin/a".toList, "bin/\\a".toList] := by decide +kernel

end Cards.Props
