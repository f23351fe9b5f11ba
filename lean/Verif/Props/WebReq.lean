import Mathlib.Tactic.Common
import Verif.Model.Web
import Verif.Spec.Strings
import Verif.Props.Strings
import Verif.Props.RepoCmds
/-!
# C87 (no markup from a request), C88 (the parameters of a request), C92 (the log of the visits)
-/
namespace Cards.Props
open Cards Cards.Spec

/-! ## C88 -/

/-- The request gives `key` (with its `=`) the value `v`: one of its parameters, the pieces between `&`, is `key` followed by `v`, and `key` is found
in no other one. -/
def Asks (query key v : Str) : Prop :=
  ∃ ps, Pieces (fun c => ['&'].contains c) query ps ∧ key ++ v ∈ ps ∧ ∀ p ∈ ps, key <:+: p → p = key ++ v

/-- The request says nothing about `key`. -/
def Silent (query key : Str) : Prop :=
  ∃ ps, Pieces (fun c => ['&'].contains c) query ps ∧ ∀ p ∈ ps, ¬ key <:+: p

theorem cutFirst_self (key v : Str) : cutFirst key (key ++ v) = some ([], v) := by
  cases h : key ++ v with
  | nil =>
    rw [List.append_eq_nil_iff] at h
    obtain ⟨rfl, rfl⟩ := h
    rfl
  | cons c cs =>
    rw [cutFirst]
    have hp : key.isPrefixOf (c :: cs) = true := by
      rw [← h, List.isPrefixOf_iff_prefix]
      exact List.prefix_append ..
    rw [if_pos hp, ← h]
    simp

theorem argAfter_none {key i : Str} (h : ¬ key <:+: i) (old : Str) : argAfter key i old = old := by
  unfold argAfter
  rw [cutFirst_none.mpr h]

/-- The last parameter that holds the key tells. -/
theorem foldl_arg_silent {key : Str} (l : List Str) (old : Str) (h : ∀ p ∈ l, ¬ key <:+: p) :
    l.foldl (fun o i => argAfter key i o) old = old := by
  induction l generalizing old with
  | nil => rfl
  | cons p l ih =>
    rw [List.foldl_cons, argAfter_none (h p (by simp)), ih _ (fun q hq => h q (by simp [hq]))]

theorem foldl_arg_asks {key v : Str} (l : List Str) (old : Str) (hm : key ++ v ∈ l) (h : ∀ p ∈ l, key <:+: p → p = key ++ v) :
    l.foldl (fun o i => argAfter key i o) old = v := by
  induction l generalizing old with
  | nil => cases hm
  | cons p l ih =>
    rw [List.foldl_cons]
    have hl : ∀ q ∈ l, key <:+: q → q = key ++ v := fun q hq => h q (by simp [hq])
    by_cases hin : key ++ v ∈ l
    · exact ih _ hin hl
    · have hp : p = key ++ v := by
        rcases List.mem_cons.mp hm with e | e
        · exact e.symm
        · exact absurd e hin
      rw [foldl_arg_silent l _ (fun q hq hk => hin (hl q hq hk ▸ hq)), hp]
      unfold argAfter
      rw [cutFirst_self]

theorem foldl_take (l : List Str) (a : WebArgs) : l.foldl WebArgs.take a =
    { system := l.foldl (fun o i => argAfter "system=".toList i o) a.system, branch := l.foldl (fun o i => argAfter "branch=".toList i o) a.branch,
      doc := l.foldl (fun o i => argAfter "page=".toList i o) a.doc, search := l.foldl (fun o i => argAfter "search=".toList i o) a.search,
      pkgSearch := l.foldl (fun o i => argAfter "searchpkg=".toList i o) a.pkgSearch, type := l.foldl (fun o i => argAfter "type=".toList i o) a.type } := by
  induction l generalizing a with
  | nil => rfl
  | cons p l ih => rw [List.foldl_cons, ih]; rfl

theorem params_of {query : Str} {ps : List Str} (h : Pieces (fun c => ['&'].contains c) query ps) (p : Str) :
    p ∈ sofList (strtokAll ['&'] query) ↔ p ∈ ps := by
  rw [(C37_strtok_exact ['&'] query ps).2 h, mem_sofList]

theorem asks_fold {query key v : Str} (h : Asks query key v) (old : Str) :
    (sofList (strtokAll ['&'] query)).foldl (fun o i => argAfter key i o) old = v := by
  obtain ⟨ps, hp, hm, ho⟩ := h
  exact foldl_arg_asks _ _ ((params_of hp _).mpr hm) (fun p hq => ho p ((params_of hp p).mp hq))

theorem silent_fold {query key : Str} (h : Silent query key) (old : Str) :
    (sofList (strtokAll ['&'] query)).foldl (fun o i => argAfter key i o) old = old := by
  obtain ⟨ps, hp, ho⟩ := h
  exact foldl_arg_silent _ _ (fun p hq => ho p ((params_of hp p).mp hq))

/-- **C88.** A parameter given once has the value given, in whatever order the parameters stand. -/
theorem C88_value (query v : Str) :
    (Asks query "page=".toList v → (webArgs query).doc = v) ∧
    (Asks query "search=".toList v → (webArgs query).search = v) ∧
    (Asks query "searchpkg=".toList v → (webArgs query).pkgSearch = v) ∧
    (v ≠ [] → (Asks query "type=".toList v → (webArgs query).type = v) ∧ (Asks query "branch=".toList v → (webArgs query).branch = v) ∧
      (Asks query "system=".toList v → (webArgs query).system = v)) := by
  unfold webArgs
  simp only [foldl_take]
  refine ⟨fun h => asks_fold h _, fun h => asks_fold h _, fun h => asks_fold h _, fun hv => ⟨fun h => ?_, fun h => ?_, fun h => ?_⟩⟩ <;>
    rw [asks_fold h, orElse, if_neg hv]

/-- **C88.** A parameter not given has its default. -/
theorem C88_default (query : Str) :
    (Silent query "page=".toList → (webArgs query).doc = "index".toList) ∧
    (Silent query "search=".toList → (webArgs query).search = []) ∧
    (Silent query "searchpkg=".toList → (webArgs query).pkgSearch = []) ∧
    (Silent query "type=".toList ∨ Asks query "type=".toList [] → (webArgs query).type = "pkg".toList) ∧
    (Silent query "branch=".toList ∨ Asks query "branch=".toList [] → (webArgs query).branch = "systemd".toList) ∧
    (Silent query "system=".toList ∨ Asks query "system=".toList [] → (webArgs query).system = "all".toList) := by
  unfold webArgs
  simp only [foldl_take]
  refine ⟨fun h => silent_fold h _, fun h => silent_fold h _, fun h => silent_fold h _, ?_, ?_, ?_⟩ <;>
    rintro (h | h) <;> first | rw [silent_fold h, orElse, if_pos rfl] | rw [asks_fold h, orElse, if_pos rfl]

/-- The request `page=news&type=col` asks for the page and the type, and says nothing about a search. -/
example : Asks "page=news&type=col".toList "page=".toList "news".toList ∧ Silent "page=news&type=col".toList "search=".toList := by
  have h : Pieces (fun c => ['&'].contains c) "page=news&type=col".toList (strtokAll ['&'] "page=news&type=col".toList) :=
    (C37_strtok_exact _ _ _).1 rfl
  have e : strtokAll ['&'] "page=news&type=col".toList = ["page=news".toList, "type=col".toList] := by decide +kernel
  rw [e] at h
  refine ⟨⟨_, h, ?_, ?_⟩, _, h, ?_⟩
  · decide
  · intro p hp
    simp only [List.mem_cons, List.not_mem_nil, or_false] at hp
    rcases hp with rfl | rfl
    · intro _; decide
    · intro hh
      exact absurd hh (cutFirst_none.mp (by decide))
  · intro p hp
    simp only [List.mem_cons, List.not_mem_nil, or_false] at hp
    rcases hp with rfl | rfl <;> exact cutFirst_none.mp (by decide)

/-- **C88 fails**: of a parameter given twice neither the first nor the last counts, but the greatest; a parameter of another name that ends with the name
looked for is taken; nothing is decoded, the document `my page` is asked for as `my%20page` and not found. -/
theorem C88_counterexamples :
    (webArgs "page=b&page=a".toList).doc = "b".toList ∧ (webArgs "page=a&page=b".toList).doc = "b".toList ∧
    (webArgs "homepage=x".toList).doc = "x".toList ∧ (webArgs "page=my%20page".toList).doc = "my%20page".toList := by
  decide +kernel

/-! ### What every request means -/

/-- What a request tells about `key`: nothing (`none`), or the value that stands in the greatest (in byte order) of the pieces in which `key` is found, behind
its first occurrence there. -/
def ParamTells (query key : Str) (r : Option Str) : Prop :=
  ∃ ps, Pieces (fun c => ['&'].contains c) query ps ∧
    ((r = none ∧ ∀ p ∈ ps, ¬ key <:+: p) ∨
      ∃ b v, r = some v ∧ b ++ key ++ v ∈ ps ∧ (∀ b' v', b ++ key ++ v = b' ++ key ++ v' → b.length ≤ b'.length) ∧
        ∀ p ∈ ps, key <:+: p → p = b ++ key ++ v ∨ p < b ++ key ++ v)

theorem cutFirst_first {key s b a : Str} (h : cutFirst key s = some (b, a)) :
    s = b ++ key ++ a ∧ ∀ b' a', s = b' ++ key ++ a' → b.length ≤ b'.length := by
  induction s generalizing b a with
  | nil =>
    simp only [cutFirst] at h
    split at h
    · rename_i hk
      injection h with h
      obtain ⟨rfl, rfl⟩ := Prod.mk.inj h
      exact ⟨by simp [hk], fun _ _ _ => Nat.zero_le _⟩
    · cases h
  | cons c cs ih =>
    simp only [cutFirst] at h
    split at h
    · rename_i hp
      injection h with h
      obtain ⟨rfl, rfl⟩ := Prod.mk.inj h
      obtain ⟨t, ht⟩ := List.isPrefixOf_iff_prefix.mp hp
      refine ⟨?_, fun _ _ _ => Nat.zero_le _⟩
      rw [← ht]
      simp
    · rename_i hp
      split at h
      · rename_i b1 a1 h1
        injection h with h
        obtain ⟨rfl, rfl⟩ := Prod.mk.inj h
        obtain ⟨e, hf⟩ := ih h1
        refine ⟨by rw [e]; simp, fun b' a' e' => ?_⟩
        cases b' with
        | nil =>
          refine absurd (List.isPrefixOf_iff_prefix.mpr ?_) hp
          rw [e']
          exact ⟨a', by simp⟩
        | cons d b' =>
          simp only [List.cons_append, List.cons.injEq] at e'
          have := hf b' a' e'.2
          simp only [List.length_cons]
          omega
      · cases h

theorem tells_fold (query key old : Str) :
    ∃ r, ParamTells query key r ∧ (sofList (strtokAll ['&'] query)).foldl (fun o i => argAfter key i o) old = r.getD old := by
  have hps : Pieces (fun c => ['&'].contains c) query (strtokAll ['&'] query) := (C37_strtok_exact _ _ _).1 rfl
  suffices ∀ l : List Str, Sorted l → ∃ r, ((r = none ∧ ∀ p ∈ l, ¬ key <:+: p) ∨
      ∃ b v, r = some v ∧ b ++ key ++ v ∈ l ∧ (∀ b' v', b ++ key ++ v = b' ++ key ++ v' → b.length ≤ b'.length) ∧
        ∀ p ∈ l, key <:+: p → p = b ++ key ++ v ∨ p < b ++ key ++ v) ∧ ∀ old, l.foldl (fun o i => argAfter key i o) old = r.getD old by
    obtain ⟨r, hr, he⟩ := this _ (sorted_sofList (strtokAll ['&'] query))
    simp only [mem_sofList] at hr
    exact ⟨r, ⟨_, hps, hr⟩, he old⟩
  intro l hl
  induction l with
  | nil => exact ⟨none, Or.inl ⟨rfl, nofun⟩, fun _ => rfl⟩
  | cons q l ih =>
    obtain ⟨hq, hl'⟩ := List.pairwise_cons.mp hl
    obtain ⟨r, hr, he⟩ := ih hl'
    rcases hr with ⟨rfl, hno⟩ | ⟨b, v, rfl, hm, hf, hg⟩
    · cases hc : cutFirst key q with
      | none =>
        have hn := cutFirst_none.mp hc
        refine ⟨none, Or.inl ⟨rfl, fun p hp => ?_⟩, fun old => ?_⟩
        · rcases List.mem_cons.mp hp with rfl | hp
          · exact hn
          · exact hno p hp
        · rw [List.foldl_cons, argAfter_none hn, he]
      | some ba =>
        obtain ⟨b, v⟩ := ba
        obtain ⟨e, hf⟩ := cutFirst_first hc
        refine ⟨some v, Or.inr ⟨b, v, rfl, e ▸ List.mem_cons_self .., fun b' v' h => hf b' v' (e.trans h), fun p hp hk => ?_⟩, fun old => ?_⟩
        · rcases List.mem_cons.mp hp with rfl | hp
          · exact Or.inl e
          · exact absurd hk (hno p hp)
        · rw [List.foldl_cons, he]
          unfold argAfter
          rw [hc]
          rfl
    · refine ⟨some v, Or.inr ⟨b, v, rfl, List.mem_cons_of_mem _ hm, hf, fun p hp hk => ?_⟩, fun old => ?_⟩
      · rcases List.mem_cons.mp hp with rfl | hp
        · exact Or.inr (hq _ hm)
        · exact hg p hp hk
      · rw [List.foldl_cons, he]
        rfl

/-- **C88, exactly, for every request**: the value of each parameter is what `ParamTells` says, or the default. -/
theorem C88_exact (query : Str) :
    (∃ r, ParamTells query "page=".toList r ∧ (webArgs query).doc = r.getD "index".toList) ∧
    (∃ r, ParamTells query "search=".toList r ∧ (webArgs query).search = r.getD []) ∧
    (∃ r, ParamTells query "searchpkg=".toList r ∧ (webArgs query).pkgSearch = r.getD []) ∧
    (∃ r, ParamTells query "type=".toList r ∧ (webArgs query).type = if r.getD [] = [] then "pkg".toList else r.getD []) ∧
    (∃ r, ParamTells query "branch=".toList r ∧ (webArgs query).branch = if r.getD [] = [] then "systemd".toList else r.getD []) ∧
    (∃ r, ParamTells query "system=".toList r ∧ (webArgs query).system = if r.getD [] = [] then "all".toList else r.getD []) := by
  unfold webArgs
  simp only [foldl_take]
  refine ⟨tells_fold _ _ _, tells_fold _ _ _, tells_fold _ _ _, ?_, ?_, ?_⟩
  · obtain ⟨r, h, e⟩ := tells_fold query "type=".toList []
    exact ⟨r, h, by rw [e, orElse]⟩
  · obtain ⟨r, h, e⟩ := tells_fold query "branch=".toList []
    exact ⟨r, h, by rw [e, orElse]⟩
  · obtain ⟨r, h, e⟩ := tells_fold query "system=".toList []
    exact ⟨r, h, by rw [e, orElse]⟩

/-- `ParamTells` leaves no choice. -/
theorem C88_tells_one (query key : Str) (r r' : Option Str) (h : ParamTells query key r) (h' : ParamTells query key r') : r = r' := by
  obtain ⟨ps, hp, h⟩ := h
  obtain ⟨ps', hp', h'⟩ := h'
  have e : ps = ps' := ((C37_strtok_exact _ _ _).2 hp).symm.trans ((C37_strtok_exact _ _ _).2 hp')
  subst e
  rcases h with ⟨rfl, hno⟩ | ⟨b, v, rfl, hm, hf, hg⟩ <;> rcases h' with ⟨rfl, hno'⟩ | ⟨b', v', rfl, hm', hf', hg'⟩
  · rfl
  · exact absurd ⟨b', v', by simp⟩ (hno _ hm')
  · exact absurd ⟨b, v, by simp⟩ (hno' _ hm)
  · have e : b ++ key ++ v = b' ++ key ++ v' := by
      rcases hg' _ hm ⟨b, v, by simp⟩ with e | l1
      · exact e
      · rcases hg _ hm' ⟨b', v', by simp⟩ with e | l2
        · exact e.symm
        · exact absurd (str_lt_trans l1 l2) (str_lt_irrefl _)
    have l := Nat.le_antisymm (hf _ _ e) (hf' _ _ e.symm)
    have := (List.append_inj e (by simp [l])).2
    rw [this]

/-! ## C87 -/

/-- The characters that make markup in a text or end an attribute. -/
def markup (c : Char) : Bool := c = '<' || c = '>' || c = '"' || c = '\''

/-- The markup of a page: what is left of its lines when all other characters are dropped. -/
def skeleton (page : List Str) : List Str := page.map (fun l => l.filter markup)

/-- A request as a browser sends it: the characters of markup are encoded. -/
def Encoded (query : Str) : Prop := ∀ c ∈ query, markup c = false

/-- What a request gets, without the texts it brings itself. -/
inductive View where
  | short2 | short3
  | packages (rows : List Str) (empty : Bool)
  | found (lines : List Str)
  | form
  | doc (name : Str)
  | missing
deriving DecidableEq, Repr

/-- The view a request gets. -/
def viewOf (site : Site) (a : WebArgs) : View :=
  if a.pkgSearch ≠ [] then
    if a.pkgSearch.length < 2 then .short2 else .packages (webRows site.date a site.packages) (searchText a.pkgSearch = [])
  else if a.search ≠ [] then
    if a.search.length < 3 then .short3 else .found (docSearch site.content a.search)
  else if a.doc = "packages".toList then .form
  else match mget site.content a.doc with
    | some _ => .doc a.doc
    | none => .missing

theorem mem_cutFirst {pat s b v : Str} (h : cutFirst pat s = some (b, v)) (c : Char) (hc : c ∈ v) : c ∈ s := by
  rw [cutFirst_eq h]
  simp [hc]

theorem filter_clean {v : Str} (h : ∀ c ∈ v, markup c = false) : v.filter markup = [] := by
  rw [List.filter_eq_nil_iff]
  intro c hc
  rw [h c hc]
  decide

theorem foldl_arg_clean {key : Str} (l : List Str) (old : Str) (hl : ∀ p ∈ l, ∀ c ∈ p, markup c = false) (ho : ∀ c ∈ old, markup c = false) :
    ∀ c ∈ l.foldl (fun o i => argAfter key i o) old, markup c = false := by
  induction l generalizing old with
  | nil => exact ho
  | cons p l ih =>
    rw [List.foldl_cons]
    refine ih _ (fun q hq => hl q (by simp [hq])) ?_
    unfold argAfter
    cases h : cutFirst key p with
    | none => exact ho
    | some r => exact fun c hc => hl p (by simp) c (mem_cutFirst h c hc)

theorem pieces_mem {p : Char → Bool} {s : Str} {ps : List Str} (h : Pieces p s ps) : ∀ w ∈ ps, ∀ c ∈ w, c ∈ s := by
  induction h with
  | none => intro w hw; cases hw
  | piece ds w rest ps _ _ _ _ _ ih =>
    intro x hx c hc
    rcases List.mem_cons.mp hx with rfl | hx
    · simp [hc]
    · have := ih x hx c hc
      simp [this]

theorem encoded_params {query : Str} (h : Encoded query) : ∀ p ∈ sofList (strtokAll ['&'] query), ∀ c ∈ p, markup c = false := by
  intro p hp c hc
  have hps := (C37_strtok_exact ['&'] query _).1 rfl
  exact h c (pieces_mem hps p ((params_of hps p).mp hp) c hc)

theorem encoded_doc {query : Str} (h : Encoded query) : (webArgs query).doc.filter markup = [] := by
  unfold webArgs
  simp only [foldl_take]
  exact filter_clean (foldl_arg_clean _ _ (encoded_params h) (by decide))

theorem encoded_pkgSearch {query : Str} (h : Encoded query) : (webArgs query).pkgSearch.filter markup = [] := by
  unfold webArgs
  simp only [foldl_take]
  exact filter_clean (foldl_arg_clean _ _ (encoded_params h) nofun)

theorem skeleton_form {a b : WebArgs} (ht : a.type = b.type) (hb : a.branch = b.branch) (ha : a.pkgSearch.filter markup = [])
    (hb' : b.pkgSearch.filter markup = []) : skeleton (searchForm a) = skeleton (searchForm b) := by
  unfold searchForm
  rw [ht, hb]
  generalize "        <input id=\"search-field\" type=\"text\" name=\"searchpkg\" size=\"18\" maxlength=\"200\" value=\"".toList = x
  generalize "\" />".toList = y
  unfold skeleton
  simp only [List.map_cons, List.map_nil, List.filter_append, ha, hb', List.append_nil]

theorem skeleton_append (a b : List Str) : skeleton (a ++ b) = skeleton a ++ skeleton b := List.map_append

theorem skeleton_cons (a : Str) (b : List Str) : skeleton (a :: b) = a.filter markup :: skeleton b := rfl

/-- **C87, for requests as browsers send them.** The markup of the page depends on the texts of the request only through what the site itself finds for
them: two encoded requests that get the same view, with the same buttons chosen, get pages with the same markup. -/
theorem C87_markup_partial (site : Site) (q1 q2 : Str) (h1 : Encoded q1) (h2 : Encoded q2) (ht : (webArgs q1).type = (webArgs q2).type)
    (hb : (webArgs q1).branch = (webArgs q2).branch) (hv : viewOf site (webArgs q1) = viewOf site (webArgs q2)) :
    skeleton (webBody site q1) = skeleton (webBody site q2) := by
  have hd1 := encoded_doc h1
  have hd2 := encoded_doc h2
  have hf := skeleton_form ht hb (encoded_pkgSearch h1) (encoded_pkgSearch h2)
  unfold webBody
  generalize webArgs q1 = a at *
  generalize webArgs q2 = b at *
  unfold viewOf at hv
  simp only
  by_cases ha : a.pkgSearch ≠ []
  · by_cases ha2 : a.pkgSearch.length < 2
    · by_cases hbp : b.pkgSearch ≠ []
      · by_cases hb2 : b.pkgSearch.length < 2
        · rw [if_pos ha, if_pos ha2, if_pos hbp, if_pos hb2]
        · rw [if_pos ha, if_pos ha2, if_pos hbp, if_neg hb2] at hv; cases hv
      · rw [if_pos ha, if_pos ha2, if_neg hbp] at hv
        repeat' split at hv
        all_goals cases hv
    · by_cases hbp : b.pkgSearch ≠ []
      · by_cases hb2 : b.pkgSearch.length < 2
        · rw [if_pos ha, if_neg ha2, if_pos hbp, if_pos hb2] at hv; cases hv
        · rw [if_pos ha, if_neg ha2, if_pos hbp, if_neg hb2] at hv ⊢
          rw [View.packages.injEq] at hv
          obtain ⟨e1, e2⟩ := hv
          have e2 : (searchText a.pkgSearch ≠ []) ↔ (searchText b.pkgSearch ≠ []) := by
            rw [not_iff_not]; exact decide_eq_decide.mp e2
          unfold packageLines
          simp only [skeleton_cons, skeleton_append, e1, hf, e2]
      · rw [if_pos ha, if_neg ha2, if_neg hbp] at hv
        repeat' split at hv
        all_goals cases hv
  · by_cases hbp : b.pkgSearch ≠ []
    · rw [if_neg ha, if_pos hbp] at hv
      repeat' split at hv
      all_goals cases hv
    · rw [if_neg ha, if_neg hbp] at hv ⊢
      by_cases hs : a.search ≠ []
      · by_cases hs2 : b.search ≠ []
        · rw [if_pos hs, if_pos hs2] at hv ⊢
          by_cases l1 : a.search.length < 3
          · by_cases l2 : b.search.length < 3
            · rw [if_pos l1, if_pos l2]
            · rw [if_pos l1, if_neg l2] at hv; cases hv
          · by_cases l2 : b.search.length < 3
            · rw [if_neg l1, if_pos l2] at hv; cases hv
            · rw [if_neg l1, if_neg l2] at hv ⊢
              rw [View.found.injEq] at hv
              rw [hv]
        · rw [if_pos hs, if_neg hs2] at hv
          repeat' split at hv
          all_goals cases hv
      · by_cases hs2 : b.search ≠ []
        · rw [if_neg hs, if_pos hs2] at hv
          repeat' split at hv
          all_goals cases hv
        · rw [if_neg hs, if_neg hs2] at hv ⊢
          by_cases p1 : a.doc = "packages".toList
          · by_cases p2 : b.doc = "packages".toList
            · rw [if_pos p1, if_pos p2, skeleton_cons, skeleton_cons, hf]
            · rw [if_pos p1, if_neg p2] at hv
              split at hv <;> cases hv
          · by_cases p2 : b.doc = "packages".toList
            · rw [if_neg p1, if_pos p2] at hv
              split at hv <;> cases hv
            · rw [if_neg p1, if_neg p2] at hv ⊢
              cases m1 : mget site.content a.doc with
              | some d1 =>
                cases m2 : mget site.content b.doc with
                | some d2 =>
                  rw [m1, m2] at hv
                  simp only [View.doc.injEq] at hv
                  rw [hv, m2] at m1
                  rw [Option.some.inj m1]
                | none => rw [m1, m2] at hv; cases hv
              | none =>
                cases m2 : mget site.content b.doc with
                | some d2 => rw [m1, m2] at hv; cases hv
                | none =>
                  simp only [skeleton_cons, List.filter_append, hd1, hd2, List.append_nil]

/-- Two requests for documents that do not exist. -/
example : Encoded "page=newz".toList ∧ Encoded "page=%3Cscript%3E".toList ∧
    viewOf ⟨false, [], [], fun _ => [], []⟩ (webArgs "page=newz".toList) = .missing ∧
    viewOf ⟨false, [], [], fun _ => [], []⟩ (webArgs "page=%3Cscript%3E".toList) = .missing := by
  refine ⟨by unfold Encoded; decide, by unfold Encoded; decide, by decide +kernel, by decide +kernel⟩

theorem body_missing (site : Site) (q d : Str) (hd : (webArgs q).doc = d) (h1 : (webArgs q).pkgSearch = []) (h2 : (webArgs q).search = [])
    (h3 : d ≠ "packages".toList) (h : mget site.content d = none) :
    (webBody site q).head? = some ("<h1>".toList ++ d ++ " is not existing yet</h1>".toList) := by
  unfold webBody
  simp only [h1, h2, hd, ne_eq, not_true_eq_false, if_false, h3, h, List.head?_cons]

/-- **C87 fails** for requests that are not encoded: the name of the page and the text of the search are printed as they are. A link to the site can bring its
own program into the page, whatever the site holds. -/
theorem C87_script_counterexample (site : Site) (h : mget site.content "<script>alert(1)</script>".toList = none) :
    (webBody site "page=<script>alert(1)</script>".toList).head? = some "<h1><script>alert(1)</script> is not existing yet</h1>".toList := by
  rw [body_missing site _ "<script>alert(1)</script>".toList (by decide +kernel) (by decide +kernel) (by decide +kernel) (by decide +kernel) h]
  decide +kernel

theorem form_value (a : WebArgs) (v : Str) (h : a.pkgSearch = v) :
    "        <input id=\"search-field\" type=\"text\" name=\"searchpkg\" size=\"18\" maxlength=\"200\" value=\"".toList ++ v ++ "\" />".toList ∈
      searchForm a := by
  unfold searchForm
  rw [h]
  iterate 22 apply List.mem_cons_of_mem
  exact List.mem_cons_self ..

theorem body_form (site : Site) (q l : Str) (h1 : ¬ (webArgs q).pkgSearch.length < 2) (hl : l ∈ searchForm (webArgs q)) : l ∈ webBody site q := by
  unfold webBody
  have h0 : (webArgs q).pkgSearch ≠ [] := by
    intro e
    rw [e] at h1
    exact h1 (by decide)
  simp only
  rw [if_pos h0, if_neg h1]
  refine List.mem_cons_of_mem _ ?_
  unfold packageLines
  refine List.mem_append_left _ (List.mem_append_left _ (List.mem_append_left _ ?_))
  exact List.mem_cons_of_mem _ (List.mem_cons_of_mem _ hl)

/-- The same in the form, out of the attribute. -/
theorem C87_attribute_counterexample (site : Site) :
    "        <input id=\"search-field\" type=\"text\" name=\"searchpkg\" size=\"18\" maxlength=\"200\" value=\"".toList ++ "\"><script>".toList ++ "\" />".toList ∈
      webBody site "searchpkg=\"><script>".toList :=
  body_form site _ _ (by decide +kernel) (form_value _ _ (by decide +kernel))

/-! ## C92 -/

theorem writeAt_end (t file : Str) : writeAt file.length t file = file ++ t := by
  unfold writeAt
  rw [List.take_length, List.drop_eq_nil_of_le (by omega), List.append_nil]

/-- **C92, one request after the other.** Every search is one line at the end of the log. -/
theorem C92_serial (line : Nat → Str) (file : Str) (is : List Nat) :
    visitRun line file (is.flatMap (fun i => [.seek i, .write i])) = file ++ (is.map line).flatten := by
  unfold visitRun
  have key : ∀ (is : List Nat) (file : Str), (is.flatMap (fun i => [VisitEvent.seek i, .write i])).foldl (visitStep line) (file, []) =
      (file ++ (is.map line).flatten, []) := by
    intro is
    induction is with
    | nil => intro file; simp
    | cons i is ih =>
      intro file
      rw [List.flatMap_cons, List.foldl_append]
      have : [VisitEvent.seek i, .write i].foldl (visitStep line) (file, []) = (file ++ line i, []) := by
        simp only [List.foldl_cons, List.foldl_nil, visitStep, find, if_true, writeAt_end]
        simp
      rw [this, ih]
      simp
  rw [key]

/-- **C92, any number at once.** What the log held before stays, whatever the schedule, and the log does not become shorter. -/
theorem C92_old_lines (line : Nat → Str) (file : Str) (es : List VisitEvent) : file <+: visitRun line file es := by
  unfold visitRun
  have key : ∀ (es : List VisitEvent) (s : Str × List (Nat × Nat)), file <+: s.1 → (∀ p ∈ s.2, file.length ≤ p.2) →
      file <+: (es.foldl (visitStep line) s).1 := by
    intro es
    induction es with
    | nil => intro s h _; exact h
    | cons e es ih =>
      intro s h hs
      rw [List.foldl_cons]
      cases e with
      | seek i =>
        refine ih _ h ?_
        intro p hp
        rcases List.mem_cons.mp hp with rfl | hp
        · exact h.length_le
        · exact hs p hp
      | write i =>
        rw [visitStep]
        cases hf : find s.2 i with
        | none => exact ih _ h hs
        | some off =>
          refine ih _ ?_ (fun p hp => hs p (List.mem_of_mem_filter hp))
          have hoff : file.length ≤ off := by
            have : ∀ (l : List (Nat × Nat)), find l i = some off → (i, off) ∈ l := by
              intro l
              induction l with
              | nil => intro h; cases h
              | cons x l ih =>
                intro h
                obtain ⟨k, v⟩ := x
                rw [find] at h
                split at h
                · rename_i hk
                  subst hk
                  rw [Option.some.inj h]
                  simp
                · exact List.mem_cons_of_mem _ (ih h)
            exact hs _ (this _ hf)
          obtain ⟨t, ht⟩ := h
          show file <+: writeAt off (line i) s.1
          unfold writeAt
          rw [← ht, List.take_append, List.take_of_length_le hoff]
          simp only [List.append_assoc]
          exact List.prefix_append ..
  exact key es (file, []) (List.prefix_refl _) nofun

/-- **C92 fails** with two requests at once: both find the same end of the file (it is not opened for appending), and the second overwrites the first, whose
line is lost when it is not longer. -/
theorem C92_lost_counterexample (line : Nat → Str) (file : Str) (h : (line 0).length ≤ (line 1).length) :
    visitRun line file [.seek 0, .seek 1, .write 0, .write 1] = file ++ line 1 := by
  unfold visitRun
  simp only [List.foldl_cons, List.foldl_nil, visitStep, find, if_true]
  have : (1 : Nat) ≠ 0 := by decide
  simp only [if_neg this, writeAt_end]
  have e : List.filter (fun p : Nat × Nat => decide (p.1 ≠ 0)) [(1, file.length), (0, file.length)] = [(1, file.length)] := by
    simp [List.filter]
  rw [e]
  simp only [find, if_true]
  simp [writeAt, List.drop_append, h]

example : ([107, 112] : List Nat).length = 2 ∧ visitLine "1700000000".toList "searchpkg=vim".toList = "1700000000,searchpkg=vim\n".toList := by decide

end Cards.Props
