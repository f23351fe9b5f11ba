import Verif.Model.MybldPorts
import Verif.Props.Conf
import Verif.Props.Pkgfile
import Verif.Props.LineFile
/-!
# C182–C185: the configuration mybld writes, the ports it takes, new ports and commits
-/
namespace Cards.Props
open Cards Cards.Spec

/-! ### C182: cards.conf -/

/-- A name that can stand in cards.conf. -/
def PlainColl (n : Str) : Prop := n ≠ [] ∧ (∀ c ∈ n, ¬ White c ∧ c ≠ '#' ∧ c ≠ '\x00') ∧ n.length ≤ 8000

/-- The list without the repetitions. -/
def firsts : List Str → List Str
  | [] => []
  | a :: l => a :: (firsts l).filter (fun b => b ≠ a)

theorem stripped_self {n : Str} (h : ∀ c ∈ n, ¬ White c) : Stripped n n :=
  ⟨[], [], by simp, by simp, by simp, fun c hc => h c (List.mem_of_mem_head? hc), fun c hc => h c (List.mem_of_getLast? hc)⟩

theorem setting_plain {k n : Str} (hk : ' ' ∉ k ∧ '#' ∉ k) (hn : ∀ c ∈ n, ¬ White c ∧ c ≠ '#') : Setting (k ++ ' ' :: n) k n := by
  refine ⟨k ++ ' ' :: n, n, Or.inl ⟨rfl, ?_⟩, Or.inl ⟨hk.1, rfl⟩, stripped_self (fun c hc => (hn c hc).1)⟩
  intro h
  rcases List.mem_append.mp h with h | h
  · exact hk.2 h
  · rcases List.mem_cons.mp h with h | h
    · cases h
    · exact (hn _ h).2 rfl

/-- The line for a collection. -/
def collLine (n : Str) : Str := "collection ".toList ++ n

theorem setting_coll {n : Str} (h : PlainColl n) : Setting (collLine n) "collection".toList n :=
  setting_plain (k := "collection".toList) ⟨by decide, by decide⟩ (fun c hc => ⟨(h.2.1 c hc).1, (h.2.1 c hc).2.1⟩)

theorem set_collection (c : Conf) (v : Str) :
    c.set "collection".toList v = if v ∈ c.dirUrl.map (·.collection) then c else { c with dirUrl := c.dirUrl ++ [{ collection := v }] } := by
  have e : c.dirUrl.any (fun i => i.collection = v) = true ↔ v ∈ c.dirUrl.map (·.collection) := by
    simp only [List.any_eq_true, List.mem_map, decide_eq_true_eq]
  unfold Conf.set
  by_cases h : v ∈ c.dirUrl.map (·.collection)
  · simp (decide := true) only [if_pos h, e.mpr h, if_true, if_false, false_or]
  · have h' : c.dirUrl.any (fun i => i.collection = v) = false := by
      rw [Bool.eq_false_iff]; exact fun x => h (e.mp x)
    simp (decide := true) only [if_neg h, h', if_true, if_false, false_or, Bool.false_eq_true]

theorem apply_collections (L : List Str) (c : Conf) :
    applySettings c (L.map (fun n => ("collection".toList, n))) =
      { c with dirUrl := c.dirUrl ++ ((firsts L).filter (fun n => n ∉ c.dirUrl.map (·.collection))).map (fun n => ({ collection := n } : DirUrl)) } := by
  induction L generalizing c with
  | nil => simp [applySettings, firsts]
  | cons a L ih =>
    have hstep : applySettings c ((a :: L).map (fun n => ("collection".toList, n))) =
        applySettings (c.set "collection".toList a) (L.map (fun n => ("collection".toList, n))) := rfl
    rw [hstep, ih, set_collection]
    generalize hD : c.dirUrl.map (·.collection) = D
    by_cases h : a ∈ D
    · rw [if_pos h, hD]
      simp only [firsts, List.filter_cons, h, not_true_eq_false, decide_false, Bool.false_eq_true, if_false, List.filter_filter]
      have : (firsts L).filter (fun n => decide (n ∉ D)) = (firsts L).filter (fun n => decide (n ∉ D) && decide (n ≠ a)) := by
        apply List.filter_congr
        intro n _
        by_cases hn : n = a
        · subst hn; simp [h]
        · simp [hn]
      rw [this]
    · rw [if_neg h]
      have hD' : (c.dirUrl ++ [({ collection := a } : DirUrl)]).map (·.collection) = D ++ [a] := by rw [List.map_append, hD]; rfl
      simp only [hD']
      have : (firsts L).filter (fun n => decide (n ∉ D ++ [a])) = ((firsts L).filter (fun b => b ≠ a)).filter (fun n => decide (n ∉ D)) := by
        rw [List.filter_filter]
        apply List.filter_congr
        intro n _
        by_cases hn : n = a
        · subst hn; simp
        · simp [hn]
      rw [this]
      simp only [firsts, List.filter_cons, h, not_false_eq_true, decide_true, if_true, List.map_cons, List.append_assoc, List.singleton_append]

theorem confLoop_true (coll : Str) (is : List Str) (h : ∀ i ∈ is, i ≠ []) : confLoop coll true is = is.map collLine := by
  induction is with
  | nil => rfl
  | cons i is ih =>
    rw [confLoop, if_neg (h i (by simp)), if_pos rfl, ih (fun x hx => h x (by simp [hx]))]
    rfl

theorem confLoop_skip (coll : Str) (pre is : List Str) (h : ∀ i ∈ pre, i = [] ∨ coll ≠ i ∧ coll ≠ i ++ "-extra".toList) :
    confLoop coll false (pre ++ is) = confLoop coll false is := by
  induction pre with
  | nil => rfl
  | cons i pre ih =>
    have ih' := ih (fun x hx => h x (by simp [hx]))
    rw [List.cons_append, confLoop]
    rcases h i (by simp) with h | ⟨h1, h2⟩
    · rw [if_pos h, ih']
    · by_cases he : i = []
      · rw [if_pos he, ih']
      · rw [if_neg he, if_neg (by decide), if_neg h2, if_neg h1, ih']

theorem confLoop_found (coll b : Str) (post : List Str) (hb : b ≠ []) (h : coll = b ∨ coll = b ++ "-extra".toList) (hp : ∀ i ∈ post, i ≠ []) :
    confLoop coll false (b :: post) = ((if coll = b then [coll] else [coll, b]) ++ post).map collLine := by
  rw [confLoop, if_neg hb, if_neg (by decide), confLoop_true _ _ hp]
  rcases h with h | h
  · have hne : coll ≠ b ++ "-extra".toList := by
      intro e
      rw [h] at e
      have := congrArg List.length e
      simp at this
    rw [if_neg hne, if_pos h, if_pos h, h]
    rfl
  · have hne : coll ≠ b := by
      intro e
      rw [e] at h
      have := congrArg List.length h
      simp at this
    rw [if_pos h, if_neg hne, h]
    rfl

theorem stripExtra_ext (x : Str) : stripExtra (x ++ "-extra".toList) = x := by
  unfold stripExtra
  rw [if_pos (by rw [List.isSuffixOf_iff_suffix]; exact ⟨x, rfl⟩)]
  have : (x ++ "-extra".toList).length - 6 = x.length := by rw [List.length_append, show ("-extra".toList : Str).length = 6 from by decide]; omega
  rw [this, List.take_append_of_le_length (Nat.le_refl _), List.take_length]

theorem stripExtra_plain {x : Str} (h : ¬ "-extra".toList <:+ x) : stripExtra x = x := by
  unfold stripExtra
  rw [if_neg (by rw [List.isSuffixOf_iff_suffix]; exact h)]

/-- `x` is the collection that `coll` is, or is the `-extra` of. -/
def BaseOf (coll x : Str) : Prop := coll = x ++ "-extra".toList ∨ (coll = x ∧ ¬ "-extra".toList <:+ coll)

theorem stripExtra_base {coll x : Str} (h : BaseOf coll x) : stripExtra coll = x := by
  rcases h with rfl | ⟨rfl, h⟩
  · exact stripExtra_ext x
  · exact stripExtra_plain h

theorem conf_read (names : List Str) (h : ∀ n ∈ names, PlainColl n) :
    (loadConf (some (writeList ("group devel".toList :: "group lib".toList :: "depot /DEPOT".toList :: (names.map collLine ++ ["logdir /LOGS".toList])))) none) =
      { depot := "/DEPOT".toList, logdir := "/LOGS".toList, groups := ["devel".toList, "lib".toList],
        dirUrl := (firsts names).map (fun n => (⟨n, "/DEPOT".toList, []⟩ : DirUrl)) } := by
  have hset : Settings ("group devel".toList :: "group lib".toList :: "depot /DEPOT".toList :: (names.map collLine ++ ["logdir /LOGS".toList]))
      (("group".toList, "devel".toList) :: ("group".toList, "lib".toList) :: ("depot".toList, "/DEPOT".toList) ::
        (names.map (fun n => ("collection".toList, n)) ++ [("logdir".toList, "/LOGS".toList)])) := by
    have w : ∀ t ∈ ["devel".toList, "lib".toList, "/DEPOT".toList, "/LOGS".toList], ∀ c ∈ t, ¬ White c ∧ c ≠ '#' := by
      unfold White
      decide
    have hl : ∀ l : List Str, (∀ n ∈ l, PlainColl n) → Settings (l.map collLine ++ ["logdir /LOGS".toList])
        (l.map (fun n => ("collection".toList, n)) ++ [("logdir".toList, "/LOGS".toList)]) := by
      intro l
      induction l with
      | nil => exact fun _ => .set (setting_plain (k := "logdir".toList) ⟨by decide, by decide⟩ (w "/LOGS".toList (by decide))) .nil
      | cons n l ih => exact fun hl => .set (setting_coll (hl n (by simp))) (ih (fun x hx => hl x (by simp [hx])))
    exact .set (setting_plain (k := "group".toList) ⟨by decide, by decide⟩ (w "devel".toList (by decide)))
      (.set (setting_plain (k := "group".toList) ⟨by decide, by decide⟩ (w "lib".toList (by decide)))
        (.set (setting_plain (k := "depot".toList) ⟨by decide, by decide⟩ (w "/DEPOT".toList (by decide))) (hl names h)))
  have hplain : PlainLines ("group devel".toList :: "group lib".toList :: "depot /DEPOT".toList :: (names.map collLine ++ ["logdir /LOGS".toList])) := by
    intro l hl
    simp only [List.mem_cons, List.mem_append, List.mem_map, List.not_mem_nil, or_false] at hl
    rcases hl with rfl | rfl | rfl | ⟨n, hn, rfl⟩ | rfl
    · decide
    · decide
    · decide
    · obtain ⟨_, h2, h3⟩ := h n hn
      have hw : '\n' ∉ collLine n ∧ '\x00' ∉ collLine n := by
        unfold collLine
        constructor
        · intro hm
          rcases List.mem_append.mp hm with hm | hm
          · exact absurd hm (by decide)
          · exact (h2 _ hm).1 (by unfold White; simp)
        · intro hm
          rcases List.mem_append.mp hm with hm | hm
          · exact absurd hm (by decide)
          · exact (h2 _ hm).2.2 rfl
      refine ⟨hw.1, hw.2, ?_⟩
      unfold collLine
      rw [List.length_append, show ("collection ".toList : Str).length = 11 from by decide]
      omega
    · decide
  unfold loadConf
  rw [parse_settings _ _ _ hplain hset]
  have e0 : applySettings {} (("group".toList, "devel".toList) :: ("group".toList, "lib".toList) :: ("depot".toList, "/DEPOT".toList) ::
        (names.map (fun n => ("collection".toList, n)) ++ [("logdir".toList, "/LOGS".toList)])) =
      Conf.set (applySettings { depot := "/DEPOT".toList, groups := ["devel".toList, "lib".toList] } (names.map (fun n => ("collection".toList, n)))) "logdir".toList "/LOGS".toList := by
    unfold applySettings
    rw [List.foldl_cons, List.foldl_cons, List.foldl_cons, List.foldl_append]
    have : Conf.set (Conf.set (Conf.set {} "group".toList "devel".toList) "group".toList "lib".toList) "depot".toList "/DEPOT".toList =
        { depot := "/DEPOT".toList, groups := ["devel".toList, "lib".toList] } := by decide
    simp only [this]
    rfl
  rw [e0, apply_collections]
  have e1 : ∀ (D : List DirUrl), Conf.set ({ depot := "/DEPOT".toList, groups := ["devel".toList, "lib".toList], dirUrl := D } : Conf) "logdir".toList "/LOGS".toList =
      { depot := "/DEPOT".toList, logdir := "/LOGS".toList, groups := ["devel".toList, "lib".toList], dirUrl := D } := by
    intro D
    unfold Conf.set
    simp (decide := true) only [if_true, if_false, false_or]
  have e2 : ∀ (D : List DirUrl), ({ depot := "/DEPOT".toList, logdir := "/LOGS".toList, groups := ["devel".toList, "lib".toList], dirUrl := D } : Conf).fill =
      { depot := "/DEPOT".toList, logdir := "/LOGS".toList, groups := ["devel".toList, "lib".toList],
        dirUrl := D.map (fun i => if i.depot = [] then { i with depot := "/DEPOT".toList } else i) } := by
    intro D
    unfold Conf.fill
    simp (decide := true) only [if_true, if_false, ne_eq, not_false_eq_true]
  rw [e1, e2]
  unfold Conf.parse
  simp only [List.nil_append, List.map_nil, List.not_mem_nil, not_false_eq_true, decide_true, List.map_map]
  congr 1
  rw [List.filter_eq_self.mpr (fun _ _ => rfl)]
  rfl

/-- **C182.** From the cards.conf mybld writes for a collection of the user's list (or the -extra of one) cards reads: the groups devel and lib, the log directory, and as collections in /DEPOT the one to be built, the one it extends,
and those that come after in the list. -/
theorem C182_listed (coll b x : Str) (pre post : List Str) (hx : BaseOf coll x) (hin : x ∈ pre ++ b :: post) (hb : coll = b ∨ coll = b ++ "-extra".toList)
    (hpre : ∀ i ∈ pre, coll ≠ i ∧ coll ≠ i ++ "-extra".toList) (hpl : ∀ n ∈ coll :: (pre ++ b :: post), PlainColl n) :
    loadConf (some (writeList (mybldConf coll (pre ++ b :: post)))) none =
      { depot := "/DEPOT".toList, logdir := "/LOGS".toList, groups := ["devel".toList, "lib".toList],
        dirUrl := (firsts ((if coll = b then [coll] else [coll, b]) ++ post)).map (fun n => (⟨n, "/DEPOT".toList, []⟩ : DirUrl)) } := by
  have hbn : b ≠ [] := (hpl b (by simp)).1
  have e : mybldConf coll (pre ++ b :: post) = "group devel".toList :: "group lib".toList :: "depot /DEPOT".toList ::
      (((if coll = b then [coll] else [coll, b]) ++ post).map collLine ++ ["logdir /LOGS".toList]) := by
    unfold mybldConf
    rw [stripExtra_base hx, if_pos hin, ← confLoop_found coll b post hbn hb (fun i hi => (hpl i (by simp [hi])).1),
      show ([] : Str) :: (pre ++ b :: post) = ([] :: pre) ++ b :: post from rfl, confLoop_skip coll ([] :: pre) (b :: post) ?_]
    intro i hi
    rcases List.mem_cons.mp hi with hi | hi
    · exact Or.inl hi
    · exact Or.inr (hpre i hi)
  rw [e]
  apply conf_read
  intro n hn
  apply hpl
  rcases List.mem_append.mp hn with hn | hn
  · split at hn
    · simp only [List.mem_singleton] at hn; simp [hn]
    · simp only [List.mem_cons, List.not_mem_nil, or_false] at hn; rcases hn with rfl | rfl <;> simp
  · simp [hn]

/-- **C182**, for a collection whose name (without -extra) is not in the list: all those of the list come after it. -/
theorem C182_own (coll x : Str) (colls : List Str) (hx : BaseOf coll x) (hout : x ∉ colls) (hxn : PlainColl x) (hpl : ∀ n ∈ coll :: colls, PlainColl n) :
    loadConf (some (writeList (mybldConf coll colls))) none =
      { depot := "/DEPOT".toList, logdir := "/LOGS".toList, groups := ["devel".toList, "lib".toList],
        dirUrl := (firsts ((if coll = x then [coll] else [coll, x]) ++ colls)).map (fun n => (⟨n, "/DEPOT".toList, []⟩ : DirUrl)) } := by
  have e : mybldConf coll colls = "group devel".toList :: "group lib".toList :: "depot /DEPOT".toList ::
      (((if coll = x then [coll] else [coll, x]) ++ colls).map collLine ++ ["logdir /LOGS".toList]) := by
    unfold mybldConf
    rw [stripExtra_base hx, if_neg hout, confLoop_found coll x colls hxn.1 (hx.elim Or.inr (fun h => Or.inl h.1)) (fun i hi => (hpl i (by simp [hi])).1)]
  rw [e]
  apply conf_read
  intro n hn
  rcases List.mem_append.mp hn with hn | hn
  · split at hn
    · simp only [List.mem_singleton] at hn; exact hpl n (by simp [hn])
    · simp only [List.mem_cons, List.not_mem_nil, or_false] at hn
      rcases hn with rfl | rfl
      · exact hpl _ (by simp)
      · exact hxn
  · exact hpl n (by simp [hn])

example : BaseOf "cli-extra".toList "cli".toList ∧ (∀ n ∈ ["cli-extra".toList, "gui".toList, "cli".toList, "base".toList], PlainColl n) ∧
    mybldConf "cli-extra".toList ["gui".toList, "cli".toList, "base".toList] =
      ["group devel".toList, "group lib".toList, "depot /DEPOT".toList, "collection cli-extra".toList, "collection cli".toList, "collection base".toList, "logdir /LOGS".toList] := by
  refine ⟨Or.inl (by decide), ?_, by decide⟩
  unfold PlainColl White
  decide

/-! ### C183: the ports taken -/

/-- The ports of `g` in the collection `c`, those of the five mybld looks at. -/
def PortIn (g : BldGit) (c : Str) (p : BldPort) : Prop := p ∈ g.ports c

theorem myFirst_spec (g : BldGit) (want : BldPort → List Str) (pre post : List Str) (c : Str) (hpre : ∀ d ∈ pre, ∀ p, PortIn g d p → want p = [])
    (hc : ∃ p, PortIn g c p ∧ want p ≠ []) : myFirst g want (pre ++ c :: post) = some (c, (g.ports c).flatMap want) := by
  induction pre with
  | nil =>
    obtain ⟨p, hp, hw⟩ := hc
    rw [List.nil_append, myFirst, if_neg]
    intro h
    exact hw (List.flatMap_eq_nil_iff.mp h p hp)
  | cons d pre ih =>
    rw [List.cons_append, myFirst, if_pos (List.flatMap_eq_nil_iff.mpr (fun p hp => hpre d (by simp) p hp))]
    exact ih (fun d' hd' => hpre d' (by simp [hd']))

theorem myFirst_none (g : BldGit) (want : BldPort → List Str) (cs : List Str) (h : ∀ d ∈ cs, ∀ p, PortIn g d p → want p = []) : myFirst g want cs = none := by
  induction cs with
  | nil => rfl
  | cons c cs ih =>
    rw [myFirst, if_pos (List.flatMap_eq_nil_iff.mpr (fun p hp => h c (by simp) p hp))]
    exact ih (fun d hd => h d (by simp [hd]))

theorem wantVersion_ne {x : Str} {p : BldPort} (hx : x ≠ []) : wantVersion x p ≠ [] ↔ p.version = x := by
  unfold wantVersion
  by_cases h : p.version = x
  · rw [if_pos ⟨by rw [h]; exact hx, h⟩]; simp [h]
  · rw [if_neg (fun e => h e.2)]; simp [h]

theorem flatMap_version {x : Str} (hx : x ≠ []) (ps : List BldPort) : ps.flatMap (wantVersion x) = (ps.filter (fun p => p.version = x)).map (·.dir) := by
  induction ps with
  | nil => rfl
  | cons p ps ih =>
    rw [List.flatMap_cons, ih]
    by_cases h : p.version = x
    · rw [List.filter_cons_of_pos (by simp [h]), List.map_cons, wantVersion, if_pos ⟨by rw [h]; exact hx, h⟩]; rfl
    · rw [List.filter_cons_of_neg (by simp [h]), wantVersion, if_neg (fun e => h e.2)]; rfl

/-- **C183.** `mybld OLD NEW`: the ports taken are those of the first of the five collections that has ports of that version, all of them, each once and in order. -/
theorem C183_version_partial (g : BldGit) (x c : Str) (pre post : List Str) (hx : x ≠ []) (hcs : bldCollections = pre ++ c :: post)
    (hpre : ∀ d ∈ pre, ∀ p, PortIn g d p → p.version ≠ x) (hc : ∃ p, PortIn g c p ∧ p.version = x) :
    mybldTarget g true x = some (.ports c (((g.ports c).filter (fun p => p.version = x)).map (·.dir))) := by
  obtain ⟨p, hp, hv⟩ := hc
  have : findVersion g x = some (c, ((g.ports c).filter (fun p => p.version = x)).map (·.dir)) := by
    unfold findVersion
    rw [hcs, myFirst_spec g (wantVersion x) pre post c (fun d hd q hq => by
      by_contra hne
      exact hpre d hd q hq ((wantVersion_ne hx).mp hne)) ⟨p, hp, (wantVersion_ne hx).mpr hv⟩, flatMap_version hx]
  unfold mybldTarget
  rw [if_pos rfl, this]
  rfl

theorem wantSet_ne {x : Str} {p : BldPort} : wantSet x p ≠ [] ↔ x ∈ p.sets := by
  unfold wantSet
  rw [Ne, List.map_eq_nil_iff, List.filter_eq_nil_iff]
  simp

/-- **C183.** `mybld SET NEW`, when no port has the name of the set as its version: the ports taken are those of the first collection with ports of the set, all of them and no others. -/
theorem C183_set_partial (g : BldGit) (x c : Str) (pre post : List Str) (hx : x ≠ []) (hv : ∀ d ∈ bldCollections, ∀ p, PortIn g d p → p.version ≠ x)
    (hcs : bldCollections = pre ++ c :: post) (hpre : ∀ d ∈ pre, ∀ p, PortIn g d p → x ∉ p.sets) (hc : ∃ p, PortIn g c p ∧ x ∈ p.sets) :
    ∃ l, mybldTarget g true x = some (.ports c l) ∧ (∀ d, d ∈ l ↔ ∃ p, PortIn g c p ∧ x ∈ p.sets ∧ p.dir = d) ∧
      ((∀ p, PortIn g c p → p.sets.Nodup) → l = ((g.ports c).filter (fun p => x ∈ p.sets)).map (·.dir)) := by
  obtain ⟨p, hp, hs⟩ := hc
  have h1 : findVersion g x = none := myFirst_none g _ _ (fun d hd q hq => by
      by_contra hne
      exact hv d hd q hq ((wantVersion_ne hx).mp hne))
  have h2 : findSet g x = some (c, (g.ports c).flatMap (wantSet x)) := by
    unfold findSet
    rw [hcs]
    exact myFirst_spec g (wantSet x) pre post c (fun d hd q hq => by
      by_contra hne
      exact hpre d hd q hq (wantSet_ne.mp hne)) ⟨p, hp, wantSet_ne.mpr hs⟩
  refine ⟨(g.ports c).flatMap (wantSet x), ?_, ?_, ?_⟩
  · unfold mybldTarget
    rw [if_pos rfl, h1, h2]
    rfl
  · intro d
    rw [List.mem_flatMap]
    constructor
    · rintro ⟨q, hq, hd⟩
      have hne : wantSet x q ≠ [] := List.ne_nil_of_mem hd
      unfold wantSet at hd
      obtain ⟨_, _, rfl⟩ := List.mem_map.mp hd
      exact ⟨q, hq, wantSet_ne.mp hne, rfl⟩
    · rintro ⟨q, hq, hm, rfl⟩
      exact ⟨q, hq, List.mem_map.mpr ⟨x, List.mem_filter.mpr ⟨hm, by simp⟩, rfl⟩⟩
  · intro hnd
    have : ∀ ps : List BldPort, (∀ p ∈ ps, p.sets.Nodup) → ps.flatMap (wantSet x) = (ps.filter (fun p => x ∈ p.sets)).map (·.dir) := by
      intro ps
      induction ps with
      | nil => exact fun _ => rfl
      | cons q ps ih =>
        intro hps
        rw [List.flatMap_cons, ih (fun z hz => hps z (by simp [hz]))]
        have hq : q.sets.filter (fun s => s = x) = if x ∈ q.sets then [x] else [] := by
          have hqn := hps q (by simp)
          generalize q.sets = l at hqn
          induction l with
          | nil => rfl
          | cons a l ihl =>
            obtain ⟨ha, hl⟩ := List.nodup_cons.mp hqn
            rw [List.filter_cons]
            by_cases hax : a = x
            · subst hax
              rw [if_pos (by simp), ihl hl, if_neg ha, if_pos (by simp)]
            · rw [if_neg (by simp [hax]), ihl hl]
              by_cases hm : x ∈ l
              · rw [if_pos hm, if_pos (by simp [hm])]
              · rw [if_neg hm, if_neg (by simp [hm, Ne.symm hax])]
        unfold wantSet
        rw [hq]
        by_cases hm : x ∈ q.sets
        · rw [if_pos hm, List.filter_cons_of_pos (by simp [hm])]; rfl
        · rw [if_neg hm, List.filter_cons_of_neg (by simp [hm])]; rfl
    exact this _ hnd

/-- The line says that the port is called `x`: it ends in `name=x` and no letter, digit or underscore stands before that. -/
def SaysName (x l : Str) : Prop := ∃ a, l = a ++ "name=".toList ++ x ∧ ∀ c, a.getLast? = some c → wordChar c = false

theorem nameLine_iff (x l : Str) : nameLine x l = true ↔ SaysName x l := by
  unfold nameLine SaysName
  have hlen : ("name=".toList ++ x).length = 5 + x.length := by rw [List.length_append]; rfl
  rw [Bool.and_eq_true, beq_iff_eq]
  constructor
  · rintro ⟨h1, h2⟩
    refine ⟨l.take (l.length - (5 + x.length)), ?_, ?_⟩
    · rw [List.append_assoc, h1, List.take_append_drop]
    · intro c hc
      rw [hc] at h2
      cases hw : wordChar c with
      | false => rfl
      | true => rw [Option.map_some, hw] at h2; exact absurd h2 (by decide)
  · rintro ⟨a, rfl, ha⟩
    rw [List.append_assoc]
    have hk : (a ++ ("name=".toList ++ x)).length - (5 + x.length) = a.length := by rw [List.length_append, hlen]; omega
    rw [hk, List.drop_left, List.take_left]
    refine ⟨rfl, ?_⟩
    cases hg : a.getLast? with
    | none => rfl
    | some c => rw [Option.map_some, ha c hg]; rfl

/-- **C183.** `mybld PORT` takes that port and nothing else when the Pkgfile with that name is in the directory of that name and no other Pkgfile before it has the name; `mybld PORT VERSION` too, when no port has the name as its
version or in its `set`. -/
theorem C183_port_partial (g : BldGit) (two : Bool) (x c : Str) (ps : List BldPort) (pre post : List (Str × List BldPort)) (hx : x ≠ []) (hg : g.colls = pre ++ (c, ps) :: post)
    (hpre : ∀ e ∈ pre, ∀ p ∈ e.2, ∀ l ∈ p.lines, ¬ SaysName x l) (hin : ∃ p ∈ ps, p.dir = x ∧ ∃ l ∈ p.lines, SaysName x l)
    (htwo : two = true → ∀ d ∈ bldCollections, ∀ p, PortIn g d p → p.version ≠ x ∧ x ∉ p.sets) :
    mybldTarget g two x = some (.port c x) := by
  have h1 : (if two then (findVersion g x).or (findSet g x) else none) = none := by
    cases two with
    | false => rfl
    | true =>
      have a : findVersion g x = none := myFirst_none g _ _ (fun d hd q hq => by
        by_contra hne
        exact (htwo rfl d hd q hq).1 ((wantVersion_ne hx).mp hne))
      have b : findSet g x = none := myFirst_none g _ _ (fun d hd q hq => by
        by_contra hne
        exact (htwo rfl d hd q hq).2 (wantSet_ne.mp hne))
      rw [if_pos rfl, a, b]
      rfl
  have h2 : g.colls.find? (fun e => e.2.any (fun p => p.lines.any (nameLine x))) = some (c, ps) := by
    rw [hg, List.find?_append, List.find?_eq_none.mpr, Option.none_or, List.find?_cons_of_pos]
    · simp only [List.any_eq_true]
      obtain ⟨p, hp, _, l, hl, hs⟩ := hin
      exact ⟨p, hp, l, hl, (nameLine_iff x l).mpr hs⟩
    · intro e he
      simp only [List.any_eq_true, not_exists, not_and]
      intro p hp l hl hn
      exact hpre e he p hp l hl ((nameLine_iff x l).mp hn)
  unfold mybldTarget findCollection
  rw [h1, h2]

/-- Two KDE ports of the same version in two collections. -/
def xBldGit : BldGit where
  colls := [("cli".toList, [⟨"kf".toList, "5.9".toList, [], ["name=kf".toList]⟩, ⟨"vim".toList, "9".toList, ["edit".toList], ["name=vim".toList]⟩]),
    ("gui".toList, [⟨"edit".toList, "2".toList, [], ["name=edit".toList]⟩, ⟨"kwin".toList, "5.9".toList, [], ["name=kwin".toList]⟩])]
  dirs := ["cli".toList, "gui".toList, "kf".toList, "vim".toList, "edit".toList, "kwin".toList]

example : mybldTarget xBldGit true "vim".toList = some (.port "cli".toList "vim".toList) ∧ mybldTarget xBldGit false "gui".toList = some (.collection "gui".toList) := by decide

/-- **C183 fails** for ports of the same version in two collections: those of the second are left. -/
theorem C183_two_collections_counterexample : mybldTarget xBldGit true "5.9".toList = some (.ports "cli".toList ["kf".toList]) := by decide

/-- **C183 fails** for a port with the name of a set: the ports of the set are changed and the port is not. -/
theorem C183_name_of_set_counterexample : mybldTarget xBldGit true "edit".toList = some (.ports "cli".toList ["vim".toList]) := by decide

/-- **C183 fails** for a port whose Pkgfile quotes its name: its directory is taken for a collection. -/
theorem C183_quoted_counterexample :
    mybldTarget ⟨[("cli".toList, [⟨"vim".toList, "9".toList, [], ["name=\"vim\"".toList]⟩])], ["cli".toList, "vim".toList]⟩ false "vim".toList = some (.collection "vim".toList) := by decide

/-! ### C184: a new port -/

/-- **C184.** An existing Pkgfile is never replaced, no collection is made, and nobody unknown to git is written into a Pkgfile. -/
theorem C184_refused (isColl : Str → Bool) (has : Str → Str → Bool) (user email place version descr url source : Str) (p : Str × Str) (text : Str)
    (h : mybldNew isColl has user email place version descr url source = some (p, text)) :
    has p.1 p.2 = false ∧ isColl p.1 = true ∧ user ≠ [] ∧ email ≠ [] ∧ (∀ a b, place = a ++ '/' :: b → '/' ∉ a → '/' ∉ b → p = (a, b)) := by
  have hcut : ∀ a b, place = a ++ '/' :: b → '/' ∉ a → '/' ∉ b → cutTwo place = (a, b) := by
    rintro a b rfl ha hb
    have t1 : ∀ (a b : Str), '/' ∉ a → (a ++ '/' :: b).takeWhile (fun c => c ≠ '/') = a ∧ (a ++ '/' :: b).dropWhile (fun c => c ≠ '/') = '/' :: b := by
      intro a b ha
      induction a with
      | nil => simp
      | cons c a ih =>
        have hc : c ≠ '/' := fun e => ha (by simp [e])
        obtain ⟨i1, i2⟩ := ih (fun h => ha (by simp [h]))
        rw [List.cons_append, List.takeWhile_cons_of_pos (by simp [hc]), List.dropWhile_cons_of_pos (by simp [hc]), i1, i2]
        exact ⟨rfl, rfl⟩
    have t2 : ∀ (b : Str), '/' ∉ b → b.takeWhile (fun c => c ≠ '/') = b := by
      intro b hb
      induction b with
      | nil => rfl
      | cons c b ih =>
        rw [List.takeWhile_cons_of_pos (by simp only [decide_eq_true_eq]; exact fun e => hb (by simp [e])), ih (fun h => hb (by simp [h]))]
    unfold cutTwo
    rw [if_pos (by simp), (t1 a b ha).1, (t1 a b ha).2]
    simp only [List.drop_succ_cons, List.drop_zero]
    rw [t2 b hb]
  unfold mybldNew at h
  simp only at h
  split at h
  · cases h
  · next h1 =>
    split at h
    · cases h
    · next h2 =>
      split at h
      · cases h
      · next h3 =>
        split at h
        · cases h
        · next h4 =>
          simp only [Option.some.injEq, Prod.mk.injEq] at h
          obtain ⟨rfl, _⟩ := h
          exact ⟨by simpa using h1, by simpa using h2, h3, h4, fun a b e ha hb => hcut a b e ha hb⟩

/-- The fields hold one line each. -/
def MyOneLine (s : Str) : Prop := '\n' ∉ s ∧ '\x00' ∉ s ∧ s.length ≤ 4000

theorem strip_head {l : Str} {c : Char} (hl : l.head? = some c) (hc : ¬ White c) : (stripWhiteSpace l).head? = some c := by
  obtain ⟨a, t, e, ha, ht, _, _⟩ := (strip_iff l (stripWhiteSpace l)).mp rfl
  cases a with
  | cons x a =>
    rw [e, List.append_assoc, List.cons_append, List.head?_cons, Option.some.injEq] at hl
    exact absurd (ha x (by simp)) (hl ▸ hc)
  | nil =>
    cases hr : stripWhiteSpace l with
    | cons x r =>
      rw [e, hr, List.nil_append, List.cons_append, List.head?_cons] at hl
      rw [List.head?_cons]; exact hl
    | nil =>
      rw [e, hr, List.nil_append, List.nil_append] at hl
      exact absurd (ht c (List.mem_of_mem_head? hl)) hc

theorem my_head_append {a b : Str} {c : Char} (h : a.head? = some c) : (a ++ b).head? = some c := by
  cases a with
  | nil => cases h
  | cons x a => exact h

theorem not_starts {l : Str} {c : Char} (hl : l.head? = some c) (hc : ¬ White c ∧ c ≠ 'm' ∧ c ≠ 'r') : ¬ StartsArray (stripWhiteSpace l) := by
  rintro ⟨k, hk, t, ht⟩
  have := strip_head hl hc.1
  rw [← ht] at this
  rcases hk with rfl | rfl
  · rw [my_head_append (c := 'm') rfl] at this; exact hc.2.1 (Option.some.inj this).symm
  · rw [my_head_append (c := 'r') rfl] at this; exact hc.2.2 (Option.some.inj this).symm


theorem not_key {l k : Str} {c d : Char} (hl : l.head? = some c) (hk : k.head? = some d) (hc : ¬ White c) (hne : c ≠ d) (r : Str) (hr : Stripped l r) : ¬ k <+: r := by
  rintro ⟨t, ht⟩
  have h1 := strip_head hl hc
  rw [(strip_iff l r).mpr hr, ← ht, my_head_append hk] at h1
  exact hne (Option.some.inj h1).symm

theorem mem_parts {α : Type} {l a b p n v s z k1 k2 k3 k4 k5 k6 k7 k8 k9 k10 : α} (h : l ∈ [a, b, z, p, k1, z, k2, k3, k4, z, n, v, z, s, z, k5, k6, k7, k8, k9, k10]) :
    l = a ∨ l = b ∨ l = p ∨ l = n ∨ l = v ∨ l = s ∨ l ∈ [z, k1, k2, k3, k4, k5, k6, k7, k8, k9, k10] := by
  simp only [List.mem_cons, List.not_mem_nil, or_false] at h ⊢
  rcases h with h | h | h | h | h | h | h | h | h | h | h | h | h | h | h | h | h | h | h | h | h <;> simp [h]

theorem mem_fixed {α : Type} {l z k1 k2 k3 k4 k5 k6 k7 k8 k9 k10 : α} (h : l ∈ [z, k1, k2, k3, k4, k5, k6, k7, k8, k9, k10]) (h2 : l ≠ k2) (h3 : l ≠ k3) :
    l ∈ [z, k1, k4, k5, k6, k7, k8, k9, k10] := by
  simp only [List.mem_cons, List.not_mem_nil, or_false] at h ⊢
  rcases h with h | h | h | h | h | h | h | h | h | h | h
  · simp [h]
  · simp [h]
  · exact absurd h h2
  · exact absurd h h3
  all_goals simp [h]

theorem mem_after {α : Type} {l z s k5 k6 k7 k8 k9 k10 : α} (h : l ∈ [z, s, z, k5, k6, k7, k8, k9, k10]) (h2 : l ≠ s) : l ∈ [z, k5, k6, k7, k8, k9, k10] := by
  simp only [List.mem_cons, List.not_mem_nil, or_false] at h ⊢
  rcases h with h | h | h | h | h | h | h | h | h
  · simp [h]
  · exact absurd h h2
  all_goals simp [h]

theorem pieces_nil {p : Char → Bool} {s : Str} {ps : List Str} (h : Pieces p s ps) (hs : s = []) : ps = [] := by
  cases h with
  | none => rfl
  | piece ds w rest ps _ hw _ _ _ =>
    simp only [List.append_eq_nil_iff] at hs
    exact absurd hs.1.2 hw

/-- **C184.** The Pkgfile of a new port is read by cards as what was given: whatever the other ports are, the port is there with the version, release 1 and no dependencies — if the fields are one line each and the version is a plain word. -/
theorem C184_read_partial (isColl : Str → Bool) (has : Str → Str → Bool) (user email place version descr url source : Str) (c n text : Str)
    (h : mybldNew isColl has user email place version descr url source = some ((c, n), text))
    (hone : ∀ s ∈ [user, email, n, version, descr, url, source], '\n' ∉ s ∧ '\x00' ∉ s ∧ s.length ≤ 4000)
    (hv : ∀ x ∈ version, ¬ White x ∧ x ≠ ',' ∧ x ≠ '\\' ∧ x ≠ '#') :
    ∃ lines, parseFile text = some lines ∧ ∀ junk (before after : List PkgEntry) coll, (∀ e ∈ before ++ after, GoodEntry e) → (∀ e ∈ after, e.name ≠ n) →
      ∃ p, mget (scanPorts junk (before ++ ⟨coll, n, some lines⟩ :: after)).ports n = some p ∧ p.collection = coll ∧ p.version = version ∧ p.release = 1 ∧ p.deps = [] := by
  have ht : text = writeList (newPkgfile user email n version descr url source) := by
    unfold mybldNew at h
    simp only at h
    split at h
    · cases h
    · split at h
      · cases h
      · split at h
        · cases h
        · split at h
          · cases h
          · simp only [Option.some.injEq, Prod.mk.injEq] at h
            obtain ⟨h1, h2⟩ := h
            rw [← h2, h1]
  clear h
  generalize hL : newPkgfile user email n version descr url source = L at ht
  obtain ⟨u1, u2, u3⟩ := hone user (by simp)
  obtain ⟨e1, e2, e3⟩ := hone email (by simp)
  obtain ⟨n1, n2, n3⟩ := hone n (by simp)
  obtain ⟨v1, v2, v3⟩ := hone version (by simp)
  obtain ⟨d1, d2, d3⟩ := hone descr (by simp)
  obtain ⟨w1, w2, w3⟩ := hone url (by simp)
  obtain ⟨s1, s2, s3⟩ := hone source (by simp)
  -- what is between the texts given
  have wrap : ∀ (a s b : Str), ('\n' ∉ a ∧ '\x00' ∉ a ∧ a.length ≤ 30) → ('\n' ∉ s ∧ '\x00' ∉ s) → ('\n' ∉ b ∧ '\x00' ∉ b ∧ b.length ≤ 30) →
      ('\n' ∉ a ++ s ++ b ∧ '\x00' ∉ a ++ s ++ b) ∧ (a ++ s ++ b).length ≤ s.length + 60 := by
    intro a s b ha hs hb
    refine ⟨⟨?_, ?_⟩, ?_⟩
    · simp only [List.mem_append, not_or]; exact ⟨⟨ha.1, hs.1⟩, hb.1⟩
    · simp only [List.mem_append, not_or]; exact ⟨⟨ha.2.1, hs.2⟩, hb.2.1⟩
    · simp only [List.length_append]; omega
  have hmem : ∀ l ∈ L, l = "description='".toList ++ descr ++ "'".toList ∨ l = "url='".toList ++ url ++ "'".toList ∨
      l = "packager=\"".toList ++ user ++ " <".toList ++ email ++ ">\"".toList ∨ l = "name=".toList ++ n ∨ l = "version=".toList ++ version ∨ l = "source=(".toList ++ source ++ ")".toList ∨
      l ∈ [[], "contributors=\"\"".toList, "makedepends=()".toList, "run=()".toList, "set=()".toList, "build() {".toList, "cd $name-$version".toList, "./configure --prefix=/usr".toList,
        "make".toList, "make DESTDIR=$PKG install".toList, "}".toList] := by
    intro l hl
    rw [← hL, newPkgfile] at hl
    exact mem_parts hl
  have hbounds : ∀ l ∈ L, '\n' ∉ l ∧ '\x00' ∉ l ∧ l.length ≤ 8190 := by
    intro l hl
    rcases hmem l hl with rfl | rfl | rfl | rfl | rfl | rfl | hl
    · obtain ⟨⟨a, b⟩, c⟩ := wrap "description='".toList descr "'".toList (by decide) ⟨d1, d2⟩ (by decide)
      exact ⟨a, b, by omega⟩
    · obtain ⟨⟨a, b⟩, c⟩ := wrap "url='".toList url "'".toList (by decide) ⟨w1, w2⟩ (by decide)
      exact ⟨a, b, by omega⟩
    · obtain ⟨⟨a, b⟩, c⟩ := wrap "packager=\"".toList user " <".toList (by decide) ⟨u1, u2⟩ (by decide)
      obtain ⟨⟨a', b'⟩, c'⟩ := wrap [] ("packager=\"".toList ++ user ++ " <".toList ++ email) ">\"".toList (by decide)
        ⟨by rw [List.mem_append, not_or]; exact ⟨a, e1⟩, by rw [List.mem_append, not_or]; exact ⟨b, e2⟩⟩ (by decide)
      rw [List.nil_append] at a' b' c'
      have c2 := List.length_append (as := "packager=\"".toList ++ user ++ " <".toList) (bs := email)
      exact ⟨a', b', by omega⟩
    · obtain ⟨⟨a, b⟩, c⟩ := wrap "name=".toList n [] (by decide) ⟨n1, n2⟩ (by decide)
      rw [List.append_nil] at a b c
      exact ⟨a, b, by omega⟩
    · obtain ⟨⟨a, b⟩, c⟩ := wrap "version=".toList version [] (by decide) ⟨v1, v2⟩ (by decide)
      rw [List.append_nil] at a b c
      exact ⟨a, b, by omega⟩
    · obtain ⟨⟨a, b⟩, c⟩ := wrap "source=(".toList source ")".toList (by decide) ⟨s1, s2⟩ (by decide)
      exact ⟨a, b, by omega⟩
    · clear hmem
      clear! L
      revert l
      decide
  refine ⟨L, by rw [ht]; exact (C34_exact_bounds L (fun l hl => (hbounds l hl).1)).mpr (fun l hl => (hbounds l hl).2), ?_⟩
  -- the parts of the file
  have wr : ∀ x : Char, x ∈ ("dupcsnvb.}".toList : Str) → ¬ White x := by unfold White; decide
  have key : ∀ l ∈ L, l ≠ "makedepends=()".toList → l ≠ "run=()".toList → ¬ StartsArray (stripWhiteSpace l) := by
    intro l hl hm hr
    have conc : ∀ l ∈ ([[], "contributors=\"\"".toList, "set=()".toList, "build() {".toList, "cd $name-$version".toList, "./configure --prefix=/usr".toList,
        "make".toList, "make DESTDIR=$PKG install".toList, "}".toList] : List Str), "makedepends=(".toList.isPrefixOf (stripWhiteSpace l) = false ∧ "run=(".toList.isPrefixOf (stripWhiteSpace l) = false := by decide
    rcases hmem l hl with rfl | rfl | rfl | rfl | rfl | rfl | hl
    · exact not_starts (c := 'd') (my_head_append (my_head_append rfl)) ⟨wr _ (by decide), by decide, by decide⟩
    · exact not_starts (c := 'u') (my_head_append (my_head_append rfl)) ⟨wr _ (by decide), by decide, by decide⟩
    · exact not_starts (c := 'p') (my_head_append (my_head_append (my_head_append (my_head_append rfl)))) ⟨wr _ (by decide), by decide, by decide⟩
    · exact not_starts (c := 'n') (my_head_append rfl) ⟨wr _ (by decide), by decide, by decide⟩
    · exact not_starts (c := 'v') (my_head_append rfl) ⟨wr _ (by decide), by decide, by decide⟩
    · exact not_starts (c := 's') (my_head_append (my_head_append rfl)) ⟨wr _ (by decide), by decide, by decide⟩
    · have hl' : l ∈ ([[], "contributors=\"\"".toList, "set=()".toList, "build() {".toList, "cd $name-$version".toList, "./configure --prefix=/usr".toList,
          "make".toList, "make DESTDIR=$PKG install".toList, "}".toList] : List Str) := mem_fixed hl hm hr
      obtain ⟨c1, c2⟩ := conc l hl'
      rintro ⟨k, hk, hp⟩
      rw [← List.isPrefixOf_iff_prefix] at hp
      rcases hk with rfl | rfl
      · rw [c1] at hp; cases hp
      · rw [c2] at hp; cases hp
  have items : ∀ M : List Str, (∀ l ∈ M, l ∈ L) → ∃ its, Written M its ∧ ∀ i ∈ its, ∀ t ∈ i.texts, t = [] := by
    intro M
    induction M with
    | nil => exact fun _ => ⟨[], ⟨by simp, by simp⟩, by simp⟩
    | cons l M ih =>
      intro hM
      obtain ⟨its, ⟨i1, i2⟩, i3⟩ := ih (fun x hx => hM x (by simp [hx]))
      have sp : ∀ kw : Str, IsKeyword kw → (∀ x, kw.head? = some x → ¬ White x) → Written ((kw ++ [] ++ [')']) :: M) (.short kw [] :: its) ∧ ∀ i ∈ (PkgItem.short kw [] :: its), ∀ t ∈ i.texts, t = [] := by
        intro kw hk hx
        refine ⟨⟨?_, ?_⟩, ?_⟩
        · intro i hi
          rcases List.mem_cons.mp hi with rfl | hi
          · exact ⟨hk, by simp⟩
          · exact i1 i hi
        · rw [List.flatMap_cons]
          refine List.Forall₂.cons ⟨[], [], by simp, by simp, by simp, ?_, ?_⟩ i2
          · intro x hx'
            rcases hk with rfl | rfl
            · exact hx x hx'
            · exact hx x hx'
          · intro x hx'
            rw [List.getLast?_append, List.getLast?_singleton, Option.some_or, Option.some.injEq] at hx'
            subst hx'
            unfold White
            decide
        · intro i hi
          rcases List.mem_cons.mp hi with rfl | hi
          · intro t ht
            simpa [PkgItem.texts] using ht
          · exact i3 i hi
      by_cases hm : l = "makedepends=()".toList
      · subst hm
        refine ⟨_, sp "makedepends=(".toList (Or.inl rfl) ?_⟩
        intro x hx
        have : x = 'm' := by rw [show ("makedepends=(".toList : Str).head? = some 'm' from rfl] at hx; exact (Option.some.inj hx).symm
        subst this
        unfold White
        decide
      · by_cases hr : l = "run=()".toList
        · subst hr
          refine ⟨_, sp "run=(".toList (Or.inr rfl) ?_⟩
          intro x hx
          have : x = 'r' := by rw [show ("run=(".toList : Str).head? = some 'r' from rfl] at hx; exact (Option.some.inj hx).symm
          subst this
          unfold White
          decide
        · refine ⟨.other (stripWhiteSpace l) :: its, ⟨?_, ?_⟩, ?_⟩
          · intro i hi
            rcases List.mem_cons.mp hi with rfl | hi
            · exact key l (hM l (by simp)) hm hr
            · exact i1 i hi
          · rw [List.flatMap_cons]
            exact List.Forall₂.cons ((strip_iff _ _).mp rfl) i2
          · intro i hi
            rcases List.mem_cons.mp hi with rfl | hi
            · intro t ht; cases ht
            · exact i3 i hi
  obtain ⟨its, hw, htexts⟩ := items L (fun _ h => h)
  intro junk before after coll hgood hafter
  have hgood' : ∀ e ∈ before ++ (⟨coll, n, some L⟩ : PkgEntry) :: after, GoodEntry e := by
    intro e he
    rcases List.mem_append.mp he with he | he
    · exact hgood e (by simp [he])
    · rcases List.mem_cons.mp he with rfl | he
      · exact ⟨L, its, rfl, hw⟩
      · exact hgood e (by simp [he])
  obtain ⟨_, _, _, _, h5⟩ := scan_inv junk _ hgood'
  obtain ⟨p, hp, lines, v, hlines, rfl⟩ := h5 before ⟨coll, n, some L⟩ after rfl hafter
  injection hlines with hlines
  subst hlines
  refine ⟨_, hp, rfl, ?_, ?_, ?_⟩
  · refine C48_version L version ⟨hv, ?_⟩ _
    have hsplit : L = ["description='".toList ++ descr ++ "'".toList, "url='".toList ++ url ++ "'".toList, [], "packager=\"".toList ++ user ++ " <".toList ++ email ++ ">\"".toList, "contributors=\"\"".toList, [],
        "makedepends=()".toList, "run=()".toList, "set=()".toList, [], "name=".toList ++ n] ++ ("version=".toList ++ version) :: ([[], "source=(".toList ++ source ++ ")".toList, [],
        "build() {".toList, "cd $name-$version".toList, "./configure --prefix=/usr".toList, "make".toList, "make DESTDIR=$PKG install".toList, "}".toList] : List Str) := hL.symm
    refine ⟨_, _, _, hsplit, ?_, ?_⟩
    · refine ⟨[], [], by simp, by simp, by simp, ?_, ?_⟩
      · intro x hx
        rw [my_head_append (c := 'v') rfl] at hx
        rw [← Option.some.inj hx]
        exact wr _ (by decide)
      · intro x hx
        have hx' := List.mem_of_getLast? hx
        rcases List.mem_append.mp hx' with hx' | hx'
        · have : ∀ y ∈ ("version=".toList : Str), ¬ White y := by unfold White; decide
          exact this x hx'
        · exact (hv x hx').1
    · intro l' hl' r hr
      have conc : ∀ l ∈ ([[], "build() {".toList, "cd $name-$version".toList, "./configure --prefix=/usr".toList, "make".toList, "make DESTDIR=$PKG install".toList, "}".toList] : List Str),
          "version=".toList.isPrefixOf (stripWhiteSpace l) = false := by decide
      by_cases hs : l' = "source=(".toList ++ source ++ ")".toList
      · subst hs
        exact not_key (c := 's') (d := 'v') (my_head_append (my_head_append rfl)) rfl (wr _ (by decide)) (by decide) r hr
      · have hl2 : l' ∈ ([[], "build() {".toList, "cd $name-$version".toList, "./configure --prefix=/usr".toList, "make".toList, "make DESTDIR=$PKG install".toList, "}".toList] : List Str) := mem_after hl' hs
        intro hpre
        rw [← (strip_iff l' r).mpr hr, ← List.isPrefixOf_iff_prefix, conc l' hl2] at hpre
        cases hpre
  · refine C48_release_default L ?_ false [] v
    intro l hl r hr
    have conc : ∀ l ∈ ([[], "contributors=\"\"".toList, "makedepends=()".toList, "run=()".toList, "set=()".toList, "build() {".toList, "cd $name-$version".toList, "./configure --prefix=/usr".toList,
        "make".toList, "make DESTDIR=$PKG install".toList, "}".toList] : List Str), "release=".toList.isPrefixOf (stripWhiteSpace l) = false := by decide
    rcases hmem l hl with rfl | rfl | rfl | rfl | rfl | rfl | hl
    · exact not_key (c := 'd') (d := 'r') (my_head_append (my_head_append rfl)) rfl (wr _ (by decide)) (by decide) r hr
    · exact not_key (c := 'u') (d := 'r') (my_head_append (my_head_append rfl)) rfl (wr _ (by decide)) (by decide) r hr
    · exact not_key (c := 'p') (d := 'r') (my_head_append (my_head_append (my_head_append (my_head_append rfl)))) rfl (wr _ (by decide)) (by decide) r hr
    · exact not_key (c := 'n') (d := 'r') (my_head_append rfl) rfl (wr _ (by decide)) (by decide) r hr
    · exact not_key (c := 'v') (d := 'r') (my_head_append rfl) rfl (wr _ (by decide)) (by decide) r hr
    · exact not_key (c := 's') (d := 'r') (my_head_append (my_head_append rfl)) rfl (wr _ (by decide)) (by decide) r hr
    · intro hpre
      rw [← (strip_iff l r).mpr hr, ← List.isPrefixOf_iff_prefix, conc l hl] at hpre
      cases hpre
  · have := (pkgfile_deps L its hw v 1).2
    show depSet (readPkgfile v L).s = []
    rw [List.eq_nil_iff_forall_not_mem]
    intro w hw'
    obtain ⟨i, hi, t, ht', ps, hps, hwp⟩ := (this w).mp hw'
    rw [pieces_nil hps (htexts i hi t ht')] at hwp
    cases hwp

/-- A call that meets the hypotheses. -/
example : (mybldNew (fun c => c == "cli".toList) (fun _ _ => false) "Tux".toList "t@x".toList "cli/vim".toList "9.1".toList "an editor".toList "http://v".toList "http://v/v.tar".toList).map (·.1) =
    some ("cli".toList, "vim".toList) ∧ ∀ x ∈ "9.1".toList, ¬ White x ∧ x ≠ ',' ∧ x ≠ '\\' ∧ x ≠ '#' := by
  refine ⟨by decide +kernel, ?_⟩
  unfold White
  decide

/-- **C184 fails** for a description of two lines: the second is read as a line of the Pkgfile. -/
theorem C184_newline_counterexample :
    ((parseFile (writeList (newPkgfile "T".toList "t".toList "vim".toList "9".toList "a\nrun=(evil)".toList [] []))).map (fun ls => depSet (readPkgfile [] ls).s)) =
      some ["'".toList, "evil".toList] := by decide +kernel

/-- **C184 fails** for a version with a number sign: what follows is not read. -/
theorem C184_version_counterexample : (readPkgfile [] (newPkgfile "T".toList "t".toList "vim".toList "9#1".toList [] [] [])).version = "9".toList := by decide +kernel

/-! ### C185: commits -/

/-- **C185.** What `mybld --commit DIR` does: nothing, or one commit with the message `NAME VERSION-RELEASE` (and the comment below it), after which the files of the port are committed as they are in the working tree. The files outside
of the port are committed as they were staged before; the working tree is left alone. -/
theorem C185_commit (d : CPath) (vars : Option MyVars) (comment : Str) (g : GitRepo) :
    (mybldCommit d vars comment g).2.work = g.work ∧
    (((mybldCommit d vars comment g).2.log = g.log ∧ (mybldCommit d vars comment g).2.head = g.head) ∨
      ∃ v n, vars = some v ∧ v.version ≠ [] ∧ (v.name ≠ [] → n = v.name) ∧ (v.name = [] → ∀ p m, d = p ++ [m] → n = m) ∧
        (comment = [] → (mybldCommit d vars comment g).2.log = (n ++ ' ' :: v.version ++ '-' :: v.release) :: g.log) ∧
        (comment ≠ [] → (mybldCommit d vars comment g).2.log = (n ++ ' ' :: v.version ++ '-' :: v.release ++ '\n' :: comment) :: g.log) ∧
        (∀ p, d <+: p → (mybldCommit d vars comment g).2.head p = g.work p) ∧ ∀ p, ¬ d <+: p → (mybldCommit d vars comment g).2.head p = g.index p) := by
  unfold mybldCommit mybldCommitFn
  cases vars with
  | none => exact ⟨rfl, Or.inl ⟨rfl, rfl⟩⟩
  | some v =>
    simp only
    split
    · exact ⟨rfl, Or.inl ⟨rfl, rfl⟩⟩
    · next hv =>
      unfold gitCommit
      split
      · exact ⟨rfl, Or.inl ⟨rfl, rfl⟩⟩
      · refine ⟨rfl, Or.inr ⟨v, if v.name = [] then d.getLast?.getD [] else v.name, rfl, hv, fun h => if_neg h, ?_, ?_, ?_, ?_, ?_⟩⟩
        · rintro hn p m rfl
          rw [if_pos hn]
          simp
        · intro hc
          simp only [hc, if_true, List.append_nil]
          rfl
        · intro hc
          simp only [if_neg hc]
          rfl
        · intro p hp
          show (gitAdd d g).index p = _
          unfold gitAdd
          simp only [List.isPrefixOf_iff_prefix.mpr hp, if_true]
        · intro p hp
          show (gitAdd d g).index p = _
          unfold gitAdd
          have : d.isPrefixOf p = false := by rw [Bool.eq_false_iff]; exact fun h => hp (List.isPrefixOf_iff_prefix.mp h)
          simp only [this, Bool.false_eq_true, if_false]

/-- **C185.** When nothing is staged, the commit changes files of the port only; and when a file of the port differs from the last commit, the version is set and the working tree is that of the project, there is a commit. -/
theorem C185_port_partial (d : CPath) (vars : Option MyVars) (comment : Str) (g : GitRepo) (hclean : ∀ p, g.index p = g.head p) :
    (∀ p, ¬ d <+: p → (mybldCommit d vars comment g).2.head p = g.head p) ∧
    (∀ v, vars = some v → v.version ≠ [] → ∀ p ∈ g.paths, d <+: p → g.work p ≠ g.head p → (mybldCommit d vars comment g).2.head p = g.work p ∧ (mybldCommit d vars comment g).2.log.length = g.log.length + 1) := by
  constructor
  · intro p hp
    obtain ⟨_, h | ⟨v, n, _, _, _, _, _, _, _, h⟩⟩ := C185_commit d vars comment g
    · rw [h.2]
    · rw [h p hp, hclean]
  · rintro v rfl hv p hp hd hne
    have hpre : d.isPrefixOf p = true := List.isPrefixOf_iff_prefix.mpr hd
    have hno : ((gitAdd d g).paths.all (fun p => (gitAdd d g).index p == (gitAdd d g).head p)) = false := by
      rw [Bool.eq_false_iff]
      intro h
      have := List.all_eq_true.mp h p hp
      rw [beq_iff_eq] at this
      unfold gitAdd at this
      simp only [hpre, if_true] at this
      exact hne this
    unfold mybldCommit mybldCommitFn
    simp only [if_neg hv]
    unfold gitCommit
    rw [hno]
    simp only [Bool.false_eq_true, if_false]
    refine ⟨?_, rfl⟩
    unfold gitAdd
    simp only [hpre, if_true]

/-- A repository with a changed port and another file. -/
def xGit (staged : Bool) : GitRepo where
  paths := [["cli".toList, "vim".toList, "Pkgfile".toList], ["README".toList]]
  head := fun _ => some "old".toList
  index := fun p => if staged && p == ["README".toList] then some "new".toList else some "old".toList
  work := fun _ => some "new".toList
  log := []

def xVim : MyVars := ⟨[], "9".toList, "1".toList⟩

example : (mybldCommit ["cli".toList, "vim".toList] (some xVim) [] (xGit false)).2.log = ["vim 9-1".toList] ∧
    (mybldCommit ["cli".toList, "vim".toList] (some xVim) [] (xGit false)).2.head ["README".toList] = some "old".toList := by decide

/-- **C185 fails** when something else is staged: it is committed under the name of the port. -/
theorem C185_staged_counterexample : (mybldCommit ["cli".toList, "vim".toList] (some xVim) [] (xGit true)).2.head ["README".toList] = some "new".toList ∧
    (mybldCommit ["cli".toList, "vim".toList] (some xVim) [] (xGit true)).2.log = ["vim 9-1".toList] := by decide

/-- **C185 fails** when nothing can be committed: mybld ends with success whether there is a commit or not. -/
theorem C185_status_counterexample (d : CPath) (vars : Option MyVars) (comment : Str) (g : GitRepo) : (mybldCommit d vars comment g).1 = true ∧
    (mybldCommit d none comment g).2.log = g.log ∧ (mybldCommitFn d (some ⟨[], [], []⟩) comment g).1 = false := ⟨rfl, rfl, rfl⟩

end Cards.Props
