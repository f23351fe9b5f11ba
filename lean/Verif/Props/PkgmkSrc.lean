import Mathlib.Tactic.Common
import Verif.Model.PkgmkSrc
import Verif.Lemmas.Trans
/-!
# C101: the sources are complete or not there
-/
namespace Cards.Props
open Cards

/-- The name is kept for the sources: it is not the name of an unfinished download, and no archive of git. -/
structure Kept4 (git : Str) (ss : List Source) (f : Str) : Prop where
  notPartial : ∀ s ∈ ss, ∀ g, srcName git s.text = some g → f ≠ partialOf g
  notGit : ∀ s ∈ ss, endsIn ".git".toList s.text = true → srcName git s.text ≠ some f

/-- What a server has sent as a whole, for the name `f`. -/
def Sent (git : Str) (ss : List Source) (f c : Str) : Prop := ∃ s ∈ ss, srcName git s.text = some f ∧ ∃ a ∈ s.tries, a.ok = true ∧ a.data = c

theorem mem_writing {f data : Str} {d x : SrcDir} (h : x ∈ writing f data d) : ∃ k, x = mset f (data.take k) d := by
  obtain ⟨k, _, rfl⟩ := List.mem_map.mp h
  exact ⟨k, rfl⟩

theorem fetch_states {f g c : Str} (hg : g ≠ partialOf f) : ∀ (as : List Attempt) (d : SrcDir), ∀ x ∈ (fetch f as d).1, mget x g = some c →
    mget d g = some c ∨ (g = f ∧ ∃ a ∈ as, a.ok = true ∧ a.data = c) := by
  intro as
  induction as with
  | nil => intro d x hx; cases hx
  | cons a as ih =>
    intro d x hx hc
    have hw : ∀ x ∈ writing (partialOf f) a.data d, mget x g = some c → mget d g = some c := by
      intro x hx hc
      obtain ⟨k, rfl⟩ := mem_writing hx
      rw [mget_mset, if_neg (fun e => hg e.symm)] at hc
      exact hc
    rw [fetch] at hx
    simp only at hx
    split at hx
    · rename_i hok
      rcases List.mem_append.mp hx with hx | hx
      · exact Or.inl (hw x hx hc)
      · rw [List.mem_singleton] at hx
        subst hx
        rw [mget_mset] at hc
        split at hc
        · rename_i e
          right
          exact ⟨e.symm, a, List.mem_cons_self .., hok, Option.some.inj hc⟩
        · rw [mget_merase, if_neg (fun e => hg e.symm), mget_mset, if_neg (fun e => hg e.symm)] at hc
          exact Or.inl hc
    · rcases List.mem_append.mp hx with hx | hx
      · exact Or.inl (hw x hx hc)
      · rcases ih _ x hx hc with h | ⟨h, a', ha, h'⟩
        · rw [mget_mset, if_neg (fun e => hg e.symm)] at h
          exact Or.inl h
        · exact Or.inr ⟨h, a', List.mem_cons_of_mem _ ha, h'⟩

theorem fetch_last {f : Str} : ∀ (as : List Attempt) (d x : SrcDir), (fetch f as d).2 = some x → x ∈ (fetch f as d).1 ∧
    (∃ a ∈ as, a.ok = true ∧ mget x f = some a.data) ∧ ∀ g, g ≠ f → g ≠ partialOf f → mget x g = mget d g := by
  intro as
  induction as with
  | nil => intro d x h; cases h
  | cons a as ih =>
    intro d x h
    rw [fetch] at h ⊢
    simp only at h ⊢
    split at h
    · rename_i hok
      rw [if_pos hok]
      cases h
      refine ⟨List.mem_append_right _ (List.mem_singleton_self _), ⟨a, List.mem_cons_self .., hok, by rw [mget_mset, if_pos rfl]⟩, ?_⟩
      intro g h1 h2
      rw [mget_mset, if_neg (fun e => h1 e.symm), mget_merase, if_neg (fun e => h2 e.symm), mget_mset, if_neg (fun e => h2 e.symm)]
    · rename_i hok
      rw [if_neg hok]
      obtain ⟨h1, ⟨a', h2, h3, h4⟩, h5⟩ := ih _ x h
      refine ⟨List.mem_append_right _ h1, ⟨a', List.mem_cons_of_mem _ h2, h3, h4⟩, ?_⟩
      intro g g1 g2
      rw [h5 g g1 g2, mget_mset, if_neg (fun e => g2 e.symm)]

theorem fetchGit_states {f g c : Str} (hg : g ≠ f) {data : Str} {d x : SrcDir} (hx : x ∈ (fetchGit f data d).1) (hc : mget x g = some c) : mget d g = some c := by
  obtain ⟨k, rfl⟩ := mem_writing hx
  rw [mget_mset, if_neg (fun e => hg e.symm)] at hc
  exact hc

theorem Kept4.tail {git : Str} {s : Source} {ss : List Source} {f : Str} (h : Kept4 git (s :: ss) f) : Kept4 git ss f :=
  ⟨fun x hx => h.notPartial x (List.mem_cons_of_mem _ hx), fun x hx => h.notGit x (List.mem_cons_of_mem _ hx)⟩

theorem Sent.cons {git : Str} {s : Source} {ss : List Source} {f c : Str} (h : Sent git ss f c) : Sent git (s :: ss) f c := by
  obtain ⟨x, hx, h⟩ := h
  exact ⟨x, List.mem_cons_of_mem _ hx, h⟩

/-- **C101**: at every point of a run — so wherever it is cut off — a source that is there is complete: it was there before, or a server has sent it as a whole. -/
theorem C101_complete_partial (git : Str) : ∀ (ss : List Source) (d : SrcDir) (f : Str), Kept4 git ss f → ∀ x ∈ (fetchAll git ss d).1, ∀ c, mget x f = some c →
    mget d f = some c ∨ Sent git ss f c := by
  intro ss
  induction ss with
  | nil =>
    intro d f _ x hx c hc
    rw [fetchAll, List.mem_singleton] at hx
    subst hx
    exact Or.inl hc
  | cons s ss ih =>
    intro d f hk x hx c hc
    have next : ∀ d' x, x ∈ (fetchAll git ss d').1 → mget x f = some c → (mget d' f = some c → mget d f = some c ∨ Sent git (s :: ss) f c) →
        mget d f = some c ∨ Sent git (s :: ss) f c := by
      intro d' x hx hc hd
      rcases ih d' f hk.tail x hx c hc with h | h
      · exact hd h
      · exact Or.inr h.cons
    have same : ∀ x, x ∈ d :: (fetchAll git ss d).1 → mget x f = some c → mget d f = some c ∨ Sent git (s :: ss) f c := by
      intro x hx hc
      rcases List.mem_cons.mp hx with rfl | hx
      · exact Or.inl hc
      · exact next d x hx hc Or.inl
    rw [fetchAll] at hx
    split at hx
    · split at hx
      · exact same x hx hc
      · rw [List.mem_singleton] at hx
        subst hx
        exact Or.inl hc
    · rename_i g hs
      split at hx
      · exact same x hx hc
      · -- it is fetched
        have hw : ∀ w y, (if endsIn ".git".toList s.text = true then fetchGit g s.cloned d else fetch g s.tries d) = (w, y) → ∀ x ∈ w, mget x f = some c →
            mget d f = some c ∨ Sent git (s :: ss) f c := by
          intro w y e x hx hc
          split at e
          · rename_i hgit
            have hne : f ≠ g := by
              rintro rfl
              exact hk.notGit s (List.mem_cons_self ..) hgit hs
            refine Or.inl (fetchGit_states (data := s.cloned) hne (x := x) ?_ hc)
            rw [e]
            exact hx
          · have hne := hk.notPartial s (List.mem_cons_self ..) g hs
            have hx' : x ∈ (fetch g s.tries d).1 := by rw [e]; exact hx
            rcases fetch_states hne s.tries d x hx' hc with h | ⟨rfl, h⟩
            · exact Or.inl h
            · exact Or.inr ⟨s, List.mem_cons_self .., hs, h⟩
        split at hx
        · rename_i w hwe
          rcases List.mem_cons.mp hx with rfl | hx
          · exact Or.inl hc
          · exact hw w _ hwe x hx hc
        · rename_i w d' hwe
          rcases List.mem_append.mp hx with hx | hx
          · rcases List.mem_cons.mp hx with rfl | hx
            · exact Or.inl hc
            · exact hw w _ hwe x hx hc
          · refine next d' x hx hc fun hd' => ?_
            refine hw w _ hwe d' ?_ hd'
            split at hwe
            · unfold fetchGit at hwe
              rw [Prod.mk.injEq] at hwe
              obtain ⟨rfl, e2⟩ := hwe
              cases e2
              unfold writing
              refine List.mem_map.mpr ⟨s.cloned.length, ?_, ?_⟩
              · rw [List.mem_range]; omega
              · rw [List.take_length]
            · have := (fetch_last s.tries d d' (by rw [hwe])).1
              rw [hwe] at this
              exact this

/-- **C101**: a run that was cut off anywhere can be repeated: what is there in the end is complete. -/
theorem C101_again_partial (git : Str) (ss ss' : List Source) (d x y : SrcDir) (f c : Str) (hk : Kept4 git ss f) (hk' : Kept4 git ss' f) (hnew : mget d f = none)
    (hx : x ∈ (fetchAll git ss d).1) (hy : y ∈ (fetchAll git ss' x).1) (hc : mget y f = some c) : Sent git ss f c ∨ Sent git ss' f c := by
  rcases C101_complete_partial git ss' x f hk' y hy c hc with h | h
  · rcases C101_complete_partial git ss d f hk x hx c h with h | h
    · rw [hnew] at h
      cases h
    · exact Or.inl h
  · exact Or.inr h

/-- **C101**: `pkgmk` goes on only if every source is there; and a source of a name of its own has what was sent for it. -/
theorem C101_all_there_partial (git : Str) : ∀ (ss : List Source) (d y : SrcDir), (fetchAll git ss d).2 = some y →
    (∀ s ∈ ss, srcName git s.text = none → s.here = true) ∧
    (∀ s ∈ ss, ∀ f, srcName git s.text = some f → (∀ s' ∈ ss, ∀ g, srcName git s'.text = some g → f ≠ partialOf g) → (mget y f).isSome) := by
  intro ss
  induction ss with
  | nil => intro d y h; exact ⟨by simp, by simp⟩
  | cons s ss ih =>
    intro d y h
    -- a file that is there stays there
    have stays : ∀ (ss : List Source) (d y : SrcDir), (fetchAll git ss d).2 = some y → ∀ f, (∀ s' ∈ ss, ∀ g, srcName git s'.text = some g → f ≠ partialOf g) →
        (mget d f).isSome → (mget y f).isSome := by
      intro ss
      induction ss with
      | nil => intro d y h f _ hs; cases h; exact hs
      | cons s ss ih =>
        intro d y h f hp hs
        have hp' : ∀ s' ∈ ss, ∀ g, srcName git s'.text = some g → f ≠ partialOf g := fun s' hs' => hp s' (List.mem_cons_of_mem _ hs')
        rw [fetchAll] at h
        split at h
        · split at h
          · exact ih d y h f hp' hs
          · cases h
        · rename_i g hg
          split at h
          · exact ih d y h f hp' hs
          · split at h
            · cases h
            · rename_i w d' hwe
              refine ih d' y h f hp' ?_
              split at hwe
              · unfold fetchGit at hwe
                rw [Prod.mk.injEq] at hwe
                cases hwe.2
                rw [mget_mset]
                split
                · rfl
                · exact hs
              · obtain ⟨_, ⟨a, _, _, ha⟩, hk⟩ := fetch_last s.tries d d' (by rw [hwe])
                by_cases hfg : f = g
                · rw [hfg, ha]; rfl
                · rw [hk f hfg (hp s (List.mem_cons_self ..) g hg)]
                  exact hs
    rw [fetchAll] at h
    split at h
    · rename_i hs
      split at h
      · rename_i hh
        obtain ⟨h1, h2⟩ := ih d y h
        refine ⟨?_, ?_⟩
        · intro x hx hn
          rcases List.mem_cons.mp hx with rfl | hx
          · exact hh
          · exact h1 x hx hn
        · intro x hx f hf hp
          rcases List.mem_cons.mp hx with rfl | hx
          · rw [hs] at hf; cases hf
          · exact h2 x hx f hf fun s' hs' => hp s' (List.mem_cons_of_mem _ hs')
      · cases h
    · rename_i g hs
      have fin : ∀ d', (mget d' g).isSome → (fetchAll git ss d').2 = some y → (∀ x ∈ s :: ss, srcName git x.text = none → x.here = true) ∧
          (∀ x ∈ s :: ss, ∀ f, srcName git x.text = some f → (∀ s' ∈ s :: ss, ∀ g, srcName git s'.text = some g → f ≠ partialOf g) → (mget y f).isSome) := by
        intro d' hd' hfin
        obtain ⟨h1, h2⟩ := ih d' y hfin
        refine ⟨?_, ?_⟩
        · intro x hx hn
          rcases List.mem_cons.mp hx with rfl | hx
          · rw [hs] at hn; cases hn
          · exact h1 x hx hn
        · intro x hx f hf hp
          have hp' : ∀ s' ∈ ss, ∀ g, srcName git s'.text = some g → f ≠ partialOf g := fun s' hs' => hp s' (List.mem_cons_of_mem _ hs')
          rcases List.mem_cons.mp hx with rfl | hx
          · rw [hs] at hf
            cases hf
            exact stays ss d' y hfin g hp' hd'
          · exact h2 x hx f hf hp'
      split at h
      · rename_i hp
        exact fin d hp h
      · split at h
        · cases h
        · rename_i w d' hwe
          refine fin d' ?_ h
          split at hwe
          · unfold fetchGit at hwe
            rw [Prod.mk.injEq] at hwe
            cases hwe.2
            rw [mget_mset, if_pos rfl]
            rfl
          · obtain ⟨_, ⟨a, _, _, ha⟩, _⟩ := fetch_last s.tries d d' (by rw [hwe])
            rw [ha]
            rfl

/-- The last state is one of those passed through. -/
theorem fetchAll_last {git : Str} : ∀ (ss : List Source) (d x : SrcDir), (fetchAll git ss d).2 = some x → x ∈ (fetchAll git ss d).1 := by
  intro ss
  induction ss with
  | nil => intro d x h; cases h; exact List.mem_singleton_self _
  | cons s ss ih =>
    intro d x h
    rw [fetchAll] at h ⊢
    revert h
    split
    · split
      · intro h; exact List.mem_cons_of_mem _ (ih d x h)
      · intro h; cases h
    · split
      · intro h; exact List.mem_cons_of_mem _ (ih d x h)
      · split
        · intro h; cases h
        · intro h; exact List.mem_append_right _ (ih _ x h)

/-- **C101**: when `pkgmk` goes on, a source of a name of its own that was not there is what a server has sent for it, as a whole. -/
theorem C101_final_partial (git : Str) (ss : List Source) (d y : SrcDir) (h : (fetchAll git ss d).2 = some y) (s : Source) (hs : s ∈ ss) (f : Str)
    (hf : srcName git s.text = some f) (hk : Kept4 git ss f) (hown : ∀ s' ∈ ss, srcName git s'.text = some f → s' = s) (hnew : mget d f = none) :
    ∃ a ∈ s.tries, a.ok = true ∧ mget y f = some a.data := by
  have h1 := (C101_all_there_partial git ss d y h).2 s hs f hf hk.notPartial
  obtain ⟨c, hc⟩ := Option.isSome_iff_exists.mp h1
  rcases C101_complete_partial git ss d f hk y (fetchAll_last ss d y h) c hc with h2 | ⟨s', hs', hf', a, ha, ho, hd⟩
  · rw [hnew] at h2; cases h2
  · have := hown s' hs' hf'
    subst this
    exact ⟨a, ha, ho, by rw [hc, hd]⟩

/-! ## An example -/

/-- An archive from the third place asked, and a patch of the port. -/
def twoSources : List Source :=
  [⟨"https://zlib.net/zlib-1.3.tar.xz".toList, false, [⟨false, []⟩, ⟨false, "zl".toList⟩, ⟨true, "zlib".toList⟩], []⟩, ⟨"fix.patch".toList, true, [], []⟩]

example : (fetchAll "zlib.git.tar.xz".toList twoSources []).2 = some [("zlib-1.3.tar.xz".toList, "zlib".toList)] := by decide +kernel

example : Kept4 "zlib.git.tar.xz".toList twoSources "zlib-1.3.tar.xz".toList := by
  constructor
  · intro s hs g hg
    simp only [twoSources, List.mem_cons, List.not_mem_nil, or_false] at hs
    rcases hs with rfl | rfl
    · have : srcName "zlib.git.tar.xz".toList "https://zlib.net/zlib-1.3.tar.xz".toList = some "zlib-1.3.tar.xz".toList := by decide +kernel
      rw [this] at hg
      cases hg
      decide
    · have : srcName "zlib.git.tar.xz".toList "fix.patch".toList = none := by decide +kernel
      rw [this] at hg
      cases hg
  · intro s hs hg
    simp only [twoSources, List.mem_cons, List.not_mem_nil, or_false] at hs
    rcases hs with rfl | rfl
    · exact absurd hg (by decide +kernel)
    · exact absurd hg (by decide +kernel)

/-! ## The name of a source -/

theorem takeWhile_back (a n : Str) (h : '/' ∉ n) : ((a ++ '/' :: n).reverse.takeWhile (· ≠ '/')).reverse = n := by
  have : (a ++ '/' :: n).reverse = n.reverse ++ '/' :: a.reverse := by simp
  rw [this, List.takeWhile_append_of_pos (by intro c hc; simp at hc; simp; rintro rfl; exact h hc)]
  simp

theorem last_slash {r : Str} (h : '/' ∈ r) : ∃ a n, r = a ++ '/' :: n ∧ '/' ∉ n := by
  induction r with
  | nil => cases h
  | cons c r ih =>
    by_cases hr : '/' ∈ r
    · obtain ⟨a, n, h1, h2⟩ := ih hr
      exact ⟨c :: a, n, by rw [h1]; rfl, h2⟩
    · rcases List.mem_cons.mp h with rfl | h
      · exact ⟨[], r, rfl, hr⟩
      · exact absurd h hr

/-- The part after the scheme: what follows the last slash that is not at the very end. -/
theorem nameOf_iff (r n : Str) : (if '/' ∈ r.dropLast then some ((r.dropLast.reverse.takeWhile (· ≠ '/')).reverse ++ r.getLast?.toList) else none) = some n ↔
    ∃ a, r = a ++ '/' :: n ∧ n ≠ [] ∧ '/' ∉ n.dropLast := by
  constructor
  · intro h
    split at h
    · next hs =>
      obtain ⟨a, m, h1, h2⟩ := last_slash hs
      rw [h1, takeWhile_back a m h2] at h
      have hr : r ≠ [] := by rintro rfl; cases hs
      rw [List.getLast?_eq_some_getLast hr] at h
      have h := Option.some.inj h
      refine ⟨a, ?_, ?_, ?_⟩
      · rw [← h]
        have := List.dropLast_concat_getLast hr
        rw [h1] at this
        refine this.symm.trans ?_
        simp
      · rw [← h]; simp
      · rw [← h]; simpa using h2
    · cases h
  · rintro ⟨a, rfl, hn, hs⟩
    have hd : (a ++ '/' :: n).dropLast = a ++ '/' :: n.dropLast := by
      rw [List.dropLast_append_of_ne_nil (by simp), List.dropLast_cons_of_ne_nil hn]
    rw [hd, if_pos (by simp), takeWhile_back a _ hs]
    have : (a ++ '/' :: n).getLast? = some (n.getLast hn) := by
      rw [List.getLast?_append, List.getLast?_cons, List.getLast?_eq_some_getLast hn]; simp
    rw [this]
    simp [List.dropLast_concat_getLast]

/-- **C101, the name**: a source with one of the four schemes is kept under what follows the last slash of its address; an address without such a part, or with
nothing but a slash after it, is taken for a file of the port. -/
theorem C101_name (p : String) (hp : p ∈ ["http://", "https://", "ftp://", "file://"]) (r n : Str) :
    urlName (p.toList ++ r) = some n ↔ ∃ a, r = a ++ '/' :: n ∧ n ≠ [] ∧ '/' ∉ n.dropLast := by
  have : (["http://", "https://", "ftp://", "file://"].findSome? (fun q => if q.toList.isPrefixOf (p.toList ++ r) then some ((p.toList ++ r).drop q.toList.length) else none)) = some r := by
    simp only [List.mem_cons, List.not_mem_nil, or_false] at hp
    rcases hp with rfl | rfl | rfl | rfl <;> rfl
  unfold urlName
  rw [this]
  exact nameOf_iff r n

/-- Anything else has no address. -/
theorem C101_no_name (s : Str) (h : ∀ p ∈ ["http://", "https://", "ftp://", "file://"], ¬ p.toList <+: s) : urlName s = none := by
  unfold urlName
  have : (["http://", "https://", "ftp://", "file://"].findSome? (fun q => if q.toList.isPrefixOf s then some (s.drop q.toList.length) else none)) = none := by
    rw [List.findSome?_eq_none_iff]
    intro p hp
    rw [if_neg (fun e => h p hp (List.isPrefixOf_iff_prefix.mp e))]
  rw [this]

example : urlName "http://a/v1/data.tar".toList = some "data.tar".toList ∧ urlName "http://a/".toList = none ∧ urlName "data.patch".toList = none := by decide +kernel

/-! ## Where it fails -/

/-- **C101, counterexample**: two sources of the same name: the first is taken for the second, and nothing is said. -/
theorem C101_counterexample_same : (fetchAll [] [⟨"http://a/v1/data.tar".toList, false, [⟨true, "A".toList⟩], []⟩, ⟨"http://b/v2/data.tar".toList, false, [⟨true, "B".toList⟩], []⟩] []).2 =
    some [("data.tar".toList, "A".toList)] := by decide +kernel

/-- **C101, counterexample**: the archive of git is written under its name: cut off, half of it is there; the next run takes it for the whole. -/
theorem C101_counterexample_git : let s : List Source := [⟨"https://h/x.git".toList, false, [], "whole".toList⟩]
    ∃ d ∈ (fetchAll "x.git.tar.xz".toList s []).1, mget d "x.git.tar.xz".toList = some "wh".toList ∧ (fetchAll "x.git.tar.xz".toList s d).2 = some d :=
  ⟨[("x.git.tar.xz".toList, "wh".toList)], by decide +kernel, by decide +kernel, by decide +kernel⟩

/-- **C101, counterexample**: a source that is the name of an unfinished download is lost when that one is finished. -/
theorem C101_counterexample_partial_name : (fetchAll [] [⟨"http://a/x.partial".toList, false, [⟨true, "A".toList⟩], []⟩, ⟨"http://a/x".toList, false, [⟨true, "B".toList⟩], []⟩] []).2 =
    some [("x".toList, "B".toList)] := by decide +kernel

end Cards.Props
