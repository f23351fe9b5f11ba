import Mathlib.Tactic.Common
import Verif.Model.PkgmkMan
import Verif.Lemmas.Trans
/-!
# C99: manual pages survive their compression
-/
namespace Cards.Props
open Cards

/-- The name of a page, compressed. -/
def zipped (n : Str) : Str := unGz n ++ gzExt

theorem suffixOf_iff {s : Str} : gzExt.isSuffixOf s = true ↔ ∃ a, s = a ++ gzExt := by
  rw [List.isSuffixOf_iff_suffix]
  exact ⟨fun ⟨a, h⟩ => ⟨a, h.symm⟩, fun ⟨a, h⟩ => ⟨a, h.symm⟩⟩

theorem unGz_gz (a : Str) : unGz (a ++ gzExt) = a := by
  unfold unGz
  rw [if_pos (suffixOf_iff.mpr ⟨a, rfl⟩)]
  simp [gzExt]

theorem unGz_plain {s : Str} (h : ¬ ∃ a, s = a ++ gzExt) : unGz s = s := by
  unfold unGz
  rw [if_neg]
  rw [suffixOf_iff]
  exact h

theorem unGz_zipped (n : Str) : unGz (zipped n) = unGz n := unGz_gz _

theorem zipped_zipped (n : Str) : zipped (zipped n) = zipped n := by
  unfold zipped
  rw [unGz_gz]

theorem zipped_of_gz {n : Str} (h : n ≠ unGz n) : zipped n = n := by
  by_cases hg : ∃ a, n = a ++ gzExt
  · obtain ⟨a, rfl⟩ := hg
    unfold zipped
    rw [unGz_gz]
  · exact absurd (unGz_plain hg).symm h

theorem not_zipped {n m : Str} (h : n = unGz n) : n ≠ zipped m := by
  intro e
  rw [e, unGz_zipped] at h
  have := congrArg List.length h
  simp [zipped, gzExt] at this

/-- What may be compressed without loss: no two entries for one page; links to pages of the same directory, by name. -/
structure ManOk (d : ManDir) : Prop where
  once : ∀ n m, (mget d n).isSome → (mget d m).isSome → unGz n = unGz m → n = m
  links : ∀ n t, mget d n = some (.link t) → '/' ∉ t ∧ ∃ m c, mget d m = some (.page c) ∧ unGz m = unGz t

/-- What becomes of an entry. -/
def zipNode : ManNode → ManNode
  | .page c => .page c
  | .link t => .link (zipped t)

/-- On the way: the entries in `moved` have their new names, the others their old ones. -/
def OnTheWay (d : ManDir) (moved : Str → Prop) (x : ManDir) : Prop :=
  ∀ y v, mget x y = some v ↔ ∃ n w, mget d n = some w ∧ ((y = n ∧ v = w ∧ ¬ moved n) ∨ (y = zipped n ∧ v = zipNode w ∧ moved n))

theorem between_start (d : ManDir) : OnTheWay d (fun _ => False) d := by
  intro y v
  constructor
  · intro h
    exact ⟨y, v, h, Or.inl ⟨rfl, rfl, id⟩⟩
  · rintro ⟨n, w, h, ⟨rfl, rfl, _⟩ | ⟨_, _, h⟩⟩
    · exact h
    · exact h.elim

theorem between_at {d : ManDir} {mv : Str → Prop} {x : ManDir} (hd : ManOk d) (hb : OnTheWay d mv x) {n : Str} {w : ManNode} (hn : mget d n = some w) :
    (mv n → mget x (zipped n) = some (zipNode w)) ∧ (¬ mv n → mget x n = some w) ∧ ∀ y, unGz y = unGz n → (mget x y).isSome → y = n ∨ y = zipped n := by
  refine ⟨fun h => (hb _ _).mpr ⟨n, w, hn, Or.inr ⟨rfl, rfl, h⟩⟩, fun h => (hb _ _).mpr ⟨n, w, hn, Or.inl ⟨rfl, rfl, h⟩⟩, ?_⟩
  intro y hy hs
  obtain ⟨v, hv⟩ := Option.isSome_iff_exists.mp hs
  obtain ⟨m, w', hm, ⟨rfl, _⟩ | ⟨rfl, _⟩⟩ := (hb y v).mp hv
  · exact Or.inl (hd.once _ _ (by rw [hm]; rfl) (by rw [hn]; rfl) hy)
  · rw [unGz_zipped] at hy
    rw [hd.once _ _ (by rw [hm]; rfl) (by rw [hn]; rfl) hy]
    exact Or.inr rfl

/-- An entry is given its new name. -/
theorem between_move {d : ManDir} {mv : Str → Prop} {x x' : ManDir} (hd : ManOk d) (hb : OnTheWay d mv x) {n : Str} {w : ManNode} (hn : mget d n = some w)
    (hx : ∀ y, mget x' y = if y = zipped n then some (zipNode w) else if y = n then none else mget x y) : OnTheWay d (fun m => mv m ∨ m = n) x' := by
  intro y v
  rw [hx]
  constructor
  · intro h
    split at h
    · rename_i hy
      cases h
      exact ⟨n, w, hn, Or.inr ⟨hy, rfl, Or.inr rfl⟩⟩
    · split at h
      · cases h
      · rename_i hz hy
        obtain ⟨m, w', hm, ⟨rfl, rfl, hv⟩ | ⟨rfl, rfl, hv⟩⟩ := (hb y v).mp h
        · exact ⟨y, v, hm, Or.inl ⟨rfl, rfl, by rintro (h | h); exacts [hv h, hy h]⟩⟩
        · exact ⟨m, w', hm, Or.inr ⟨rfl, rfl, Or.inl hv⟩⟩
  · rintro ⟨m, w', hm, ⟨rfl, rfl, hv⟩ | ⟨rfl, rfl, hv⟩⟩
    · rw [not_or] at hv
      rw [if_neg, if_neg hv.2]
      · exact (hb _ _).mpr ⟨y, v, hm, Or.inl ⟨rfl, rfl, hv.1⟩⟩
      · intro e
        refine hv.2 (hd.once _ _ (by rw [hm]; rfl) (by rw [hn]; rfl) ?_)
        rw [e, unGz_zipped]
    · by_cases hmn : m = n
      · subst hmn
        rw [if_pos rfl]
        rw [hn] at hm
        cases hm
        rfl
      · have hne : unGz m ≠ unGz n := fun e => hmn (hd.once _ _ (by rw [hm]; rfl) (by rw [hn]; rfl) e)
        rw [if_neg, if_neg]
        · rcases hv with hv | hv
          · exact (hb _ _).mpr ⟨m, w', hm, Or.inr ⟨rfl, rfl, hv⟩⟩
          · exact absurd hv hmn
        · intro e
          rw [← e, unGz_zipped] at hne
          exact hne rfl
        · intro e
          have := congrArg unGz e
          rw [unGz_zipped, unGz_zipped] at this
          exact hne this

theorem between_congr {d : ManDir} {mv mv' : Str → Prop} {x : ManDir} (h : ∀ n, mv n ↔ mv' n) (hb : OnTheWay d mv x) : OnTheWay d mv' x := by
  have : mv = mv' := funext fun n => propext (h n)
  rw [← this]
  exact hb

/-- A page whose name has `.gz` already is where it is to be. -/
theorem between_still {d : ManDir} {mv : Str → Prop} {x : ManDir} (hd : ManOk d) (hb : OnTheWay d mv x) {n : Str} {w : ManNode} (hn : mget d n = some w)
    (hz : zipped n = n) (hw : zipNode w = w) : OnTheWay d (fun m => mv m ∨ m = n) x := by
  refine between_move hd hb hn ?_
  intro y
  by_cases hy : y = zipped n
  · rw [if_pos hy, hw, hy, hz]
    obtain ⟨h1, h2, _⟩ := between_at hd hb hn
    by_cases hm : mv n
    · have := h1 hm
      rw [hz, hw] at this
      exact this
    · exact h2 hm
  · rw [if_neg hy, if_neg (by rw [hz] at hy; exact hy)]

/-- All pages have their new names. -/
def PagesDone (d : ManDir) (mv : Str → Prop) : Prop := ∀ n c, mget d n = some (.page c) → mv n

theorem gzPage_step {d : ManDir} {mv : Str → Prop} {x : ManDir} (hd : ManOk d) (hb : OnTheWay d mv x) (hp : ∀ n, mv n → ∃ c, mget d n = some (.page c)) (p : Str) :
    ∃ mv', OnTheWay d mv' (gzPage x p) ∧ (∀ n, mv n → mv' n) ∧ (∀ n, mv' n → ∃ c, mget d n = some (.page c)) ∧ ∀ c, mget d p = some (.page c) → mv' p := by
  unfold gzPage
  -- what the list says of `p`
  have hstay : (∀ c, mget d p = some (.page c) → mv p) → ∃ mv', OnTheWay d mv' x ∧ (∀ n, mv n → mv' n) ∧ (∀ n, mv' n → ∃ c, mget d n = some (.page c)) ∧
      ∀ c, mget d p = some (.page c) → mv' p := fun h => ⟨mv, hb, fun _ h => h, hp, h⟩
  have hmoved : ∀ c, mget d p = some (.page c) → mget x p ≠ some (.page c) → mv p := by
    intro c hc hne
    by_contra hm
    exact hne ((between_at hd hb hc).2.1 hm)
  split
  · rename_i c hc
    split
    · rename_i hpl
      obtain ⟨n, w, hn, ⟨rfl, rfl, hv⟩ | ⟨rfl, _⟩⟩ := (hb p _).mp hc
      · have hnone : mget x (p ++ gzExt) = none := by
          cases hg : mget x (p ++ gzExt) with
          | none => rfl
          | some v =>
            obtain ⟨m, w', hm, ⟨rfl, _⟩ | ⟨e, _, hv'⟩⟩ := (hb _ _).mp hg
            · have := hd.once _ _ (by rw [hm]; rfl) (by rw [hn]; rfl) (by rw [unGz_gz]; exact hpl : unGz (p ++ gzExt) = unGz p)
              have := congrArg List.length this
              simp [gzExt] at this
            · have e2 := congrArg unGz e
              rw [unGz_gz, unGz_zipped, hpl] at e2
              have := hd.once _ _ (by rw [hn]; rfl) (by rw [hm]; rfl) e2
              rw [← this] at hv'
              exact absurd hv' hv
        rw [hnone]
        simp only [Option.isSome_none, Bool.false_eq_true, if_false]
        refine ⟨fun m => mv m ∨ m = p, between_move hd hb hn ?_, fun _ h => Or.inl h, ?_, fun _ _ => Or.inr rfl⟩
        · intro y
          have hz : zipped p = p ++ gzExt := by unfold zipped; rw [← hpl]
          rw [mget_mset, mget_merase, hz]
          simp only [zipNode, eq_comm]
        · rintro m (h | rfl)
          · exact hp m h
          · exact ⟨c, hn⟩
      · exact absurd rfl (not_zipped hpl)
    · rename_i hpl
      have hz := zipped_of_gz hpl
      by_cases hdp : ∃ c, mget d p = some (.page c)
      · obtain ⟨c', hc'⟩ := hdp
        refine ⟨fun m => mv m ∨ m = p, between_still hd hb hc' hz rfl, fun _ h => Or.inl h, ?_, fun _ _ => Or.inr rfl⟩
        rintro m (h | rfl)
        · exact hp m h
        · exact ⟨c', hc'⟩
      · exact hstay fun c h => absurd ⟨c, h⟩ hdp
  · rename_i hne
    exact hstay fun c h => hmoved c h (hne c)

theorem gzPages {d : ManDir} (hd : ManOk d) : ∀ (ps : List Str) (mv : Str → Prop) (x : ManDir), OnTheWay d mv x → (∀ n, mv n → ∃ c, mget d n = some (.page c)) →
    ∃ mv', OnTheWay d mv' (ps.foldl gzPage x) ∧ (∀ n, mv n → mv' n) ∧ (∀ n, mv' n → ∃ c, mget d n = some (.page c)) ∧ ∀ p ∈ ps, ∀ c, mget d p = some (.page c) → mv' p := by
  intro ps
  induction ps with
  | nil => intro mv x hb hp; exact ⟨mv, hb, fun _ h => h, hp, by simp⟩
  | cons p ps ih =>
    intro mv x hb hp
    obtain ⟨mv1, b1, m1, p1, d1⟩ := gzPage_step hd hb hp p
    obtain ⟨mv2, b2, m2, p2, d2⟩ := ih mv1 _ b1 p1
    refine ⟨mv2, b2, fun n h => m2 n (m1 n h), p2, ?_⟩
    intro q hq c hc
    rcases List.mem_cons.mp hq with rfl | hq
    · exact m2 _ (d1 c hc)
    · exact d2 q hq c hc

theorem lastName_plain {t : Str} (h : '/' ∉ t) : lastName t = t := by
  unfold lastName
  have key : ∀ u : Str, '/' ∉ u → u.takeWhile (· ≠ '/') = u := by
    intro u
    induction u with
    | nil => intro _; rfl
    | cons c u ih =>
      intro hu
      rw [List.mem_cons, not_or] at hu
      rw [List.takeWhile_cons, if_pos (by simpa using fun e => hu.1 e.symm), ih hu.2]
  have : t.reverse.takeWhile (· ≠ '/') = t.reverse := key _ (by rw [List.mem_reverse]; exact h)
  rw [this, List.reverse_reverse]

theorem gzLink_step {d : ManDir} {mv : Str → Prop} {x : ManDir} (far : Str → Bool) (hd : ManOk d) (hb : OnTheWay d mv x) (hp : PagesDone d mv) (l : Str) :
    ∃ mv', OnTheWay d mv' (gzLink far x l) ∧ (∀ n, mv n → mv' n) ∧ ∀ t, mget d l = some (.link t) → mv' l := by
  unfold gzLink
  split
  · rename_i t ht
    -- the link stands for an entry `n`, with the target `t0`
    have key : ∃ n t0, mget d n = some (.link t0) ∧ unGz (lastName t) = unGz t0 ∧ unGz l = unGz n ∧ (l = n ∨ l = zipped n) := by
      obtain ⟨n, w, hn, ⟨rfl, rfl, _⟩ | ⟨rfl, hw, _⟩⟩ := (hb _ _).mp ht
      · exact ⟨l, t, hn, by rw [lastName_plain (hd.links _ _ hn).1], rfl, Or.inl rfl⟩
      · cases w with
        | page c => cases hw
        | link t0 =>
          rw [zipNode, ManNode.link.injEq] at hw
          subst hw
          refine ⟨n, t0, hn, ?_, unGz_zipped n, Or.inr rfl⟩
          have h0 := (hd.links _ _ hn).1
          have h1 : '/' ∉ zipped t0 := by
            unfold zipped
            intro hm
            rcases List.mem_append.mp hm with hm | hm
            · unfold unGz at hm
              split at hm
              · exact h0 (List.mem_of_mem_take hm)
              · exact h0 hm
            · exact absurd hm (by decide)
          rw [lastName_plain h1, unGz_zipped]
    obtain ⟨n, t0, hn, e1, e2, hl⟩ := key
    obtain ⟨_, m, c, hm, hmt⟩ := hd.links _ _ hn
    have hpage : mget (merase l x) (unGz (lastName t) ++ gzExt) = some (.page c) := by
      have h1 := (between_at hd hb hm).1 (hp m c hm)
      have h2 : zipped m = unGz (lastName t) ++ gzExt := by unfold zipped; rw [hmt, e1]
      rw [h2] at h1
      rw [mget_merase, if_neg]
      · exact h1
      · intro e
        rw [← e, ht] at h1
        cases h1
    have hthere : manThere far (merase l x) ((merase l x).length + 1) (unGz (lastName t) ++ gzExt) = true := by
      rw [manThere, hpage]
    simp only [hthere, if_true]
    refine ⟨fun m => mv m ∨ m = n, between_move hd hb hn ?_, fun _ h => Or.inl h, ?_⟩
    · intro y
      rw [mget_mset, mget_merase, e1, e2]
      by_cases hy : y = zipped n
      · rw [if_pos hy, if_pos (by rw [hy]; rfl)]
        rfl
      · rw [if_neg hy, if_neg (fun e => hy e.symm)]
        by_cases hyl : l = y
        · rw [if_pos hyl]
          rcases hl with rfl | rfl
          · rw [if_pos hyl.symm]
          · exact absurd hyl.symm hy
        · rw [if_neg hyl]
          split
          · rename_i hyn
            -- the old name of a link that has its new one is free
            rcases hl with rfl | rfl
            · exact absurd hyn.symm hyl
            · subst hyn
              cases hg : mget x y with
              | none => rfl
              | some v =>
                obtain ⟨k, w, hk, ⟨rfl, _, hv⟩ | ⟨e, _⟩⟩ := (hb _ _).mp hg
                · obtain ⟨k', w', hk', ⟨h3, _⟩ | ⟨h3, _, hv'⟩⟩ := (hb _ _).mp ht
                  · have := hd.once _ _ (by rw [hk']; rfl) (by rw [hk]; rfl) (by rw [← h3, unGz_zipped] : unGz k' = unGz y)
                    rw [this] at h3
                    exact absurd h3.symm hy
                  · have h4 := congrArg unGz h3
                    rw [unGz_zipped, unGz_zipped] at h4
                    have := hd.once _ _ (by rw [hk]; rfl) (by rw [hk']; rfl) h4
                    rw [← this] at hv'
                    exact absurd hv' hv
                · have h4 := congrArg unGz e
                  rw [unGz_zipped] at h4
                  have := hd.once _ _ (by rw [hn]; rfl) (by rw [hk]; rfl) h4
                  rw [← this] at e
                  exact absurd e hy
          · rfl
    · intro t' ht'
      right
      exact hd.once _ _ (by rw [ht']; rfl) (by rw [hn]; rfl) e2
  · rename_i hne
    refine ⟨mv, hb, fun _ h => h, fun t ht => ?_⟩
    by_contra hm
    exact hne t ((between_at hd hb ht).2.1 hm)

theorem gzLinks {d : ManDir} (far : Str → Bool) (hd : ManOk d) : ∀ (ls : List Str) (mv : Str → Prop) (x : ManDir), OnTheWay d mv x → PagesDone d mv →
    ∃ mv', OnTheWay d mv' (ls.foldl (gzLink far) x) ∧ (∀ n, mv n → mv' n) ∧ ∀ l ∈ ls, ∀ t, mget d l = some (.link t) → mv' l := by
  intro ls
  induction ls with
  | nil => intro mv x hb _; exact ⟨mv, hb, fun _ h => h, by simp⟩
  | cons l ls ih =>
    intro mv x hb hp
    obtain ⟨mv1, b1, m1, d1⟩ := gzLink_step far hd hb hp l
    obtain ⟨mv2, b2, m2, d2⟩ := ih mv1 _ b1 (fun n c h => m1 n (hp n c h))
    refine ⟨mv2, b2, fun n h => m2 n (m1 n h), ?_⟩
    intro q hq c hc
    rcases List.mem_cons.mp hq with rfl | hq
    · exact m2 _ (d1 c hc)
    · exact d2 q hq c hc

/-- **C99**: in whatever order the files are listed — even if the new ones are listed too — afterwards every page is there, compressed, every link leads to the
compressed page it led to, and there is nothing else. -/
theorem C99_pages_survive_partial (far : Str → Bool) (d : ManDir) (hd : ManOk d) (pages links : List Str) (hp : ∀ n c, mget d n = some (.page c) → n ∈ pages)
    (hl : ∀ n t, mget d n = some (.link t) → n ∈ links) :
    (∀ n c, mget d n = some (.page c) → mget (compressMan far pages links d) (unGz n ++ ".gz".toList) = some (.page c)) ∧
    (∀ n t, mget d n = some (.link t) → mget (compressMan far pages links d) (unGz n ++ ".gz".toList) = some (.link (unGz t ++ ".gz".toList))) ∧
    ∀ y, (mget (compressMan far pages links d) y).isSome → ∃ n, (mget d n).isSome ∧ y = unGz n ++ ".gz".toList := by
  obtain ⟨mv1, b1, _, _, d1⟩ := gzPages hd pages _ d (between_start d) (fun _ h => h.elim)
  have hdone : PagesDone d mv1 := fun n c h => d1 n (hp n c h) c h
  obtain ⟨mv2, b2, m2, d2⟩ := gzLinks far hd links mv1 _ b1 hdone
  have hall : ∀ n w, mget d n = some w → mv2 n := by
    intro n w h
    cases w with
    | page c => exact m2 n (hdone n c h)
    | link t => exact d2 n (hl n t h) t h
  refine ⟨fun n c h => (between_at hd b2 h).1 (hall _ _ h), fun n t h => (between_at hd b2 h).1 (hall _ _ h), ?_⟩
  intro y hy
  obtain ⟨v, hv⟩ := Option.isSome_iff_exists.mp hy
  obtain ⟨n, w, hn, ⟨_, _, h⟩ | ⟨e, _⟩⟩ := (b2 y v).mp hv
  · exact absurd (hall n w hn) h
  · exact ⟨n, by rw [hn]; rfl, e⟩

/-- The result is the same for all orders. -/
theorem C99_same_partial (far far' : Str → Bool) (d : ManDir) (hd : ManOk d) (pages links pages' links' : List Str)
    (hp : ∀ n c, mget d n = some (.page c) → n ∈ pages ∧ n ∈ pages') (hl : ∀ n t, mget d n = some (.link t) → n ∈ links ∧ n ∈ links') (y : Str) :
    mget (compressMan far pages links d) y = mget (compressMan far' pages' links' d) y := by
  have key : ∀ (f f' : Str → Bool) (p l p' l' : List Str), (∀ n c, mget d n = some (.page c) → n ∈ p ∧ n ∈ p') → (∀ n t, mget d n = some (.link t) → n ∈ l ∧ n ∈ l') →
      ∀ v, mget (compressMan f p l d) y = some v → mget (compressMan f' p' l' d) y = some v := by
    intro f f' p l p' l' hp hl v hv
    obtain ⟨a1, a2, a3⟩ := C99_pages_survive_partial f d hd p l (fun n c h => (hp n c h).1) (fun n t h => (hl n t h).1)
    obtain ⟨b1, b2, _⟩ := C99_pages_survive_partial f' d hd p' l' (fun n c h => (hp n c h).2) (fun n t h => (hl n t h).2)
    obtain ⟨n, hn, rfl⟩ := a3 y (by rw [hv]; rfl)
    obtain ⟨w, hw⟩ := Option.isSome_iff_exists.mp hn
    cases w with
    | page c => rw [a1 n c hw] at hv; rw [b1 n c hw, hv]
    | link t => rw [a2 n t hw] at hv; rw [b2 n t hw, hv]
  cases h : mget (compressMan far pages links d) y with
  | some v => exact (key far far' pages links pages' links' hp hl v h).symm
  | none =>
    cases h' : mget (compressMan far' pages' links' d) y with
    | none => rfl
    | some v =>
      have := key far' far pages' links' pages links (fun n c h => (hp n c h).symm) (fun n t h => (hl n t h).symm) v h'
      rw [h] at this
      cases this

/-! ## Examples -/

/-- A directory of pages. -/
def manDir : ManDir := [("gunzip.1".toList, .link "gzip.1".toList), ("gzip.1".toList, .page "GZIP".toList), ("xz.1.gz".toList, .page "XZ".toList), ("unxz.1".toList, .link "xz.1.gz".toList)]

example : ManOk manDir := by
  have hk : ∀ n, (mget manDir n).isSome → n ∈ ["gunzip.1".toList, "gzip.1".toList, "xz.1.gz".toList, "unxz.1".toList] := by
    intro n h
    rw [mget_isSome_iff] at h
    exact h
  constructor
  · intro n m hn hm
    exact (show ∀ n ∈ ["gunzip.1".toList, "gzip.1".toList, "xz.1.gz".toList, "unxz.1".toList], ∀ m ∈ ["gunzip.1".toList, "gzip.1".toList, "xz.1.gz".toList, "unxz.1".toList],
      unGz n = unGz m → n = m by decide +kernel) n (hk n hn) m (hk m hm)
  · intro n t h
    have hn := hk n (by rw [h]; rfl)
    simp only [List.mem_cons, List.not_mem_nil, or_false] at hn
    rcases hn with rfl | rfl | rfl | rfl
    · rw [show mget manDir "gunzip.1".toList = some (.link "gzip.1".toList) by decide +kernel] at h
      cases h
      exact ⟨by decide, "gzip.1".toList, "GZIP".toList, by decide +kernel, rfl⟩
    · rw [show mget manDir "gzip.1".toList = some (.page "GZIP".toList) by decide +kernel] at h
      cases h
    · rw [show mget manDir "xz.1.gz".toList = some (.page "XZ".toList) by decide +kernel] at h
      cases h
    · rw [show mget manDir "unxz.1".toList = some (.link "xz.1.gz".toList) by decide +kernel] at h
      cases h
      exact ⟨by decide, "xz.1.gz".toList, "XZ".toList, by decide +kernel, rfl⟩

/-! ## Where it fails -/

/-- **C99, counterexample**: a link to a link: it is kept or lost, depending on the order in which `find` lists the two. -/
theorem C99_counterexample_chain : let d : ManDir := [("a.1".toList, .link "b.1".toList), ("b.1".toList, .link "c.1".toList), ("c.1".toList, .page "C".toList)]
    mget (compressMan (fun _ => true) ["c.1".toList] ["b.1".toList, "a.1".toList] d) "a.1.gz".toList = some (.link "b.1.gz".toList) ∧
    mget (compressMan (fun _ => true) ["c.1".toList] ["a.1".toList, "b.1".toList] d) "a.1.gz".toList = none := by decide +kernel

/-- **C99, counterexample**: a link to a page of another directory is lost. -/
theorem C99_counterexample_far (far : Str → Bool) : mget (compressMan far [] ["ls.1".toList] [("ls.1".toList, .link "../../man1/ls.1".toList)]) "ls.1.gz".toList = none := by rfl

/-- **C99, counterexample**: a page is lost: beside the compressed page there is a link to it, with the name of the page. -/
theorem C99_counterexample_self : let d : ManDir := [("ls.1".toList, .link "ls.1.gz".toList), ("ls.1.gz".toList, .page "LS".toList)]
    compressMan (fun _ => true) ["ls.1.gz".toList] ["ls.1".toList] d = [("ls.1.gz".toList, .link "ls.1.gz".toList)] := by decide +kernel

end Cards.Props
