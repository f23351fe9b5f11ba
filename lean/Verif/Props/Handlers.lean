import Verif.Model.Handlers
import Mathlib.Tactic.Common
/-!
# C212: every handler hears of the end of the job
-/
namespace Cards.Props
open Cards

/-- The loop has handlers left to call. -/
def Iter.Going (it : Iter) : Prop := it.idx < it.stop

/-- The calm histories: handlers are deleted only when no loop is under way, and come in the middle of one only when the buffer has room. -/
def Calm : Handlers → List HEv → Prop
  | _, [] => True
  | s, e :: es =>
    (match e with
     | .subscribe _ => (∀ it ∈ s.iters, ¬ Iter.Going it) ∨ s.size < s.mem.length
     | .destroy _ => ∀ it ∈ s.iters, ¬ Iter.Going it
     | _ => True) ∧ Calm (s.step e) es

/-- Each handler is created once. -/
def FreshIds : Handlers → List HEv → Prop
  | _, [] => True
  | s, e :: es => (∀ n, e = .subscribe n → n ∉ s.items) ∧ FreshIds (s.step e) es

structure HInv (s : Handlers) : Prop where
  len : s.size ≤ s.mem.length
  alive : ∀ n ∈ s.items, n ∈ s.alive
  nodup : s.items.Nodup
  iters : ∀ it ∈ s.iters, it.idx ≤ it.stop ∧ it.stop = it.atStart.length ∧ it.called = it.atStart.take it.idx ∧
    (it.idx < it.stop → it.gen = s.gen ∧ it.atStart <+: s.items) ∧ it.atStart.Nodup
  ok : s.bad = false

theorem items_length (s : Handlers) (h : s.size ≤ s.mem.length) : s.items.length = s.size := by
  simp [Handlers.items, h]

theorem items_push (s : Handlers) (n : Nat) (h : s.size ≤ s.mem.length) : (s.pushBack n).items = s.items ++ [n] := by
  unfold Handlers.pushBack Handlers.items
  split
  · rename_i hr
    show (s.mem.set s.size n).take (s.size + 1) = s.mem.take s.size ++ [n]
    rw [List.take_add_one, List.take_set_of_le (Nat.le_refl _)]
    simp [hr]
  · show (s.mem.take s.size ++ n :: _).take (s.size + 1) = _
    have : (s.mem.take s.size).length = s.size := by simp [h]
    rw [List.take_append, this]
    simp [List.take_take]

theorem items_erase (s : Handlers) (n : Nat) (h : s.size ≤ s.mem.length) : (s.eraseOne n).items = s.items.erase n := by
  unfold Handlers.eraseOne
  split
  · rename_i hm
    show (s.items.erase n ++ _).take (s.size - 1) = _
    have : (s.items.erase n).length = s.size - 1 := by rw [List.length_erase_of_mem hm, items_length s h]
    rw [List.take_append_of_le_length (by omega), List.take_of_length_le (by omega)]
  · rename_i hm
    exact (List.erase_of_not_mem hm).symm

theorem hinv_step (s : Handlers) (e : HEv) (hi : HInv s)
    (hc : match e with
     | .subscribe _ => (∀ it ∈ s.iters, ¬ Iter.Going it) ∨ s.size < s.mem.length
     | .destroy _ => ∀ it ∈ s.iters, ¬ Iter.Going it
     | _ => True) (hf : ∀ n, e = .subscribe n → n ∉ s.items) : HInv (s.step e) := by
  obtain ⟨hl, ha, hd, hit, hok⟩ := hi
  cases e with
  | subscribe n =>
    have hitems : (s.step (.subscribe n)).items = s.items ++ [n] := items_push s n hl
    refine ⟨?_, ?_, ?_, ?_, ?_⟩
    · simp only [Handlers.step, Handlers.pushBack]
      split
      · rename_i h; simp; omega
      · simp; omega
    · intro k hk
      rw [hitems] at hk
      rcases List.mem_append.mp hk with h | h
      · exact List.mem_cons_of_mem _ (ha k h)
      · simp only [List.mem_singleton] at h
        subst h
        exact List.mem_cons_self
    · rw [hitems]
      refine List.nodup_append.mpr ⟨hd, by simp, ?_⟩
      intro a hA b hb hab
      simp only [List.mem_singleton] at hb
      subst hb; subst hab
      exact hf _ rfl hA
    · intro it hm
      have hm' : it ∈ s.iters := by
        simp only [Handlers.step, Handlers.pushBack] at hm
        split at hm <;> exact hm
      obtain ⟨h1, h2, h3, h4, h5⟩ := hit it hm'
      refine ⟨h1, h2, h3, ?_, h5⟩
      intro hg
      rcases hc with hc | hc
      · exact absurd hg (hc it hm')
      · refine ⟨?_, ?_⟩
        · rw [(h4 hg).1]
          simp only [Handlers.step, Handlers.pushBack, if_pos hc]
        · rw [hitems]
          exact (h4 hg).2.trans (List.prefix_append _ _)
    · simp only [Handlers.step, Handlers.pushBack]
      split <;> exact hok
  | destroy n =>
    have hitems : (s.step (.destroy n)).items = s.items.erase n := items_erase s n hl
    refine ⟨?_, ?_, ?_, ?_, ?_⟩
    · simp only [Handlers.step, Handlers.eraseOne]
      split
      · rename_i hm
        have : (s.items.erase n).length = s.size - 1 := by rw [List.length_erase_of_mem hm, items_length s hl]
        simp only [List.length_append, this]
        omega
      · exact hl
    · intro k hk
      rw [hitems] at hk
      have := (List.Nodup.mem_erase_iff hd).mp hk
      refine List.mem_filter.mpr ⟨ha k this.2, by simpa using this.1⟩
    · rw [hitems]; exact hd.erase n
    · intro it hm
      have hm' : it ∈ s.iters := by
        simp only [Handlers.step, Handlers.eraseOne] at hm
        split at hm <;> exact hm
      obtain ⟨h1, h2, h3, h4, h5⟩ := hit it hm'
      exact ⟨h1, h2, h3, fun hg => absurd hg (hc it hm'), h5⟩
    · simp only [Handlers.step, Handlers.eraseOne]
      split <;> exact hok
  | start =>
    refine ⟨hl, ha, hd, ?_, hok⟩
    intro it hm
    rcases List.mem_append.mp hm with h | h
    · exact hit it h
    · simp only [List.mem_singleton] at h
      subst h
      exact ⟨Nat.zero_le _, (items_length s hl).symm, rfl, fun _ => ⟨rfl, List.prefix_rfl⟩, hd⟩
  | call i =>
    simp only [Handlers.step, Handlers.callOne]
    cases hi : s.iters[i]? with
    | none => exact ⟨hl, ha, hd, hit, hok⟩
    | some it =>
      have hmem : it ∈ s.iters := List.mem_of_getElem? hi
      obtain ⟨h1, h2, h3, h4, h5⟩ := hit it hmem
      by_cases hg : it.idx < it.stop
      · obtain ⟨g1, g2⟩ := h4 hg
        have hat : it.idx < it.atStart.length := by omega
        have hle : it.atStart.length ≤ s.items.length := g2.length_le
        have hsz := items_length s hl
        have hx : s.mem[it.idx]? = some it.atStart[it.idx] := by
          obtain ⟨r, hr⟩ := g2
          have e1 : s.items[it.idx]? = s.mem[it.idx]? := by
            unfold Handlers.items
            rw [List.getElem?_take, if_pos (by omega)]
          rw [← e1, ← hr, List.getElem?_append_left hat, List.getElem?_eq_getElem hat]
        have hal : s.alive.contains it.atStart[it.idx] = true := by
          rw [List.contains_iff_mem]
          exact ha _ (g2.subset (List.getElem_mem hat))
        simp only [hg, g1, hx, if_true, hal, Bool.not_true, Bool.or_false]
        refine ⟨hl, ha, hd, ?_, hok⟩
        intro jt hm
        rcases List.mem_or_eq_of_mem_set hm with h | h
        · exact hit jt h
        · subst h
          refine ⟨hg, h2, ?_, fun _ => ⟨rfl, g2⟩, h5⟩
          show it.called ++ [_] = it.atStart.take (it.idx + 1)
          rw [h3, List.take_add_one, List.getElem?_eq_getElem hat]
          rfl
      · simp only [hg, if_false]
        exact ⟨hl, ha, hd, hit, hok⟩

theorem hinv_run (es : List HEv) (s : Handlers) (hi : HInv s) (hc : Calm s es) (hf : FreshIds s es) : HInv (s.run es) := by
  induction es generalizing s with
  | nil => exact hi
  | cons e es ih => exact ih _ (hinv_step s e hi hc.1 hf.1) hc.2 hf.2

theorem hinv0 : HInv handlers0 := by
  refine ⟨by decide, by simp [Handlers.items, handlers0], by simp [Handlers.items, handlers0], by simp [handlers0], rfl⟩

/-- **C212** partial: as long as no handler is deleted while a loop is under way and none makes the vector grow during one, neither freed memory nor a deleted handler is used, and a loop that is over has called the handlers that were subscribed when it began, each once, in the order they subscribed. -/
theorem C212_all_partial (es : List HEv) (hc : Calm handlers0 es) (hf : FreshIds handlers0 es) :
    (handlers0.run es).bad = false ∧ ∀ it ∈ (handlers0.run es).iters,
      it.called <+: it.atStart ∧ it.called.Nodup ∧ (it.idx = it.stop → it.called = it.atStart) := by
  have h := hinv_run es _ hinv0 hc hf
  refine ⟨h.ok, fun it hm => ?_⟩
  obtain ⟨h1, h2, h3, h4, h5⟩ := h.iters it hm
  refine ⟨h3 ▸ List.take_prefix _ _, h3 ▸ h5.sublist (List.take_sublist _ _), ?_⟩
  intro he
  rw [h3, List.take_of_length_le (by omega)]

/-- The handlers subscribed after a history: those who came, in their order, without those who left. -/
def subscribed : List Nat → List HEv → List Nat
  | l, [] => l
  | l, .subscribe n :: es => subscribed (l ++ [n]) es
  | l, .destroy n :: es => subscribed (l.erase n) es
  | l, _ :: es => subscribed l es

/-- The vector holds the handlers of the history, and a loop that begins takes exactly them. -/
theorem C212_subscribed (es : List HEv) : (handlers0.run es).items = subscribed [] es ∧
    ((handlers0.run es).step .start).iters = (handlers0.run es).iters ++ [⟨(handlers0.run es).gen, 0, (subscribed [] es).length, [], subscribed [] es⟩] := by
  have key : ∀ (es : List HEv) (s : Handlers), s.size ≤ s.mem.length → (s.run es).items = subscribed s.items es ∧ (s.run es).size ≤ (s.run es).mem.length := by
    intro es
    induction es with
    | nil => exact fun s h => ⟨rfl, h⟩
    | cons e es ih =>
      intro s h
      have hl : (s.step e).size ≤ (s.step e).mem.length := by
        cases e with
        | subscribe n =>
          simp only [Handlers.step, Handlers.pushBack]
          split
          · rename_i h; simp; omega
          · simp; omega
        | destroy n =>
          simp only [Handlers.step, Handlers.eraseOne]
          split
          · rename_i hm
            have : (s.items.erase n).length = s.size - 1 := by rw [List.length_erase_of_mem hm, items_length s h]
            simp only [List.length_append, this]
            omega
          · exact h
        | start => exact h
        | call i =>
          simp only [Handlers.step, Handlers.callOne]
          split
          · exact h
          · split
            · split
              · split <;> exact h
              · exact h
            · exact h
      have hi : (s.step e).items = subscribed s.items [e] := by
        cases e with
        | subscribe n => exact items_push s n h
        | destroy n => exact items_erase s n h
        | start => rfl
        | call i =>
          simp only [Handlers.step, Handlers.callOne]
          split
          · rfl
          · split
            · split
              · split <;> rfl
              · rfl
            · rfl
      obtain ⟨h1, h2⟩ := ih (s.step e) hl
      refine ⟨?_, h2⟩
      show ((s.step e).run es).items = _
      rw [h1, hi]
      cases e <;> rfl
  obtain ⟨h1, h2⟩ := key es handlers0 (by decide)
  have h3 : (handlers0.run es).items = subscribed [] es := h1
  refine ⟨h3, ?_⟩
  show (handlers0.run es).iters ++ [⟨_, 0, (handlers0.run es).size, [], (handlers0.run es).items⟩] = _
  rw [← items_length _ h2, h3]

theorem calls_run (pre : List Iter) : ∀ (j : Nat) (it : Iter) (s : Handlers), HInv s → s.iters = pre ++ [it] → it.idx + j ≤ it.stop →
    s.run (List.replicate j (.call pre.length)) = { s with iters := pre ++ [{ it with idx := it.idx + j, called := it.atStart.take (it.idx + j) }] } := by
  intro j
  induction j with
  | zero =>
    intro it s hi hs _
    obtain ⟨_, _, h3, _⟩ := hi.iters it (by simp [hs])
    show s = _
    rw [Nat.add_zero, ← h3, ← hs]
  | succ j ih =>
    intro it s hi hs hj
    have hi' := hinv_step s (.call pre.length) hi trivial (by simp)
    obtain ⟨_, h2, h3, h4, _⟩ := hi.iters it (by simp [hs])
    have hg : it.idx < it.stop := by omega
    obtain ⟨g1, g2⟩ := h4 hg
    have hat : it.idx < it.atStart.length := by omega
    have hle : it.atStart.length ≤ s.items.length := g2.length_le
    have hsz := items_length s hi.len
    have hx : s.mem[it.idx]? = some it.atStart[it.idx] := by
      obtain ⟨r, hr⟩ := g2
      have e1 : s.items[it.idx]? = s.mem[it.idx]? := by
        unfold Handlers.items
        rw [List.getElem?_take, if_pos (by omega)]
      rw [← e1, ← hr, List.getElem?_append_left hat, List.getElem?_eq_getElem hat]
    have hal : s.alive.contains it.atStart[it.idx] = true := by
      rw [List.contains_iff_mem]
      exact hi.alive _ (g2.subset (List.getElem_mem hat))
    have hget : s.iters[pre.length]? = some it := by rw [hs]; simp
    have hstep : s.step (.call pre.length) = { s with iters := pre ++ [{ it with idx := it.idx + 1, called := it.called ++ [it.atStart[it.idx]] }] } := by
      simp only [Handlers.step, Handlers.callOne, hget, hg, g1, hx, if_true, hal, Bool.not_true, Bool.or_false]
      rw [hs]
      simp
    rw [List.replicate_succ]
    show (s.step _).run _ = _
    rw [ih { it with idx := it.idx + 1, called := it.called ++ [it.atStart[it.idx]] } _ hi' (by rw [hstep]) (by show it.idx + 1 + j ≤ it.stop; omega)]
    rw [hstep]
    show ({ s with iters := pre ++ [⟨it.gen, it.idx + 1 + j, it.stop, it.atStart.take (it.idx + 1 + j), it.atStart⟩] } : Handlers) = _
    rw [show it.idx + 1 + j = it.idx + (j + 1) by omega]

theorem destroy_bad (s : Handlers) (n : Nat) : (s.step (.destroy n)).bad = s.bad := by
  simp only [Handlers.step, Handlers.eraseOne]; split <;> rfl

theorem destroy_iters (s : Handlers) (n : Nat) : (s.step (.destroy n)).iters = s.iters := by
  simp only [Handlers.step, Handlers.eraseOne]; split <;> rfl

theorem destroy_items (s : Handlers) (n : Nat) (h : s.size ≤ s.mem.length) : (s.step (.destroy n)).items = s.items.erase n :=
  items_erase s n h

/-- The ordinary course: the box subscribes, the worker's loop calls everybody, the box is deleted after its call.  Nobody is forgotten, nothing is called twice, nothing freed is used, and the vector is what it was. -/
theorem C212_course (s : Handlers) (hi : HInv s) (hq : ∀ it ∈ s.iters, it.idx = it.stop) (n : Nat) (hn : n ∉ s.items) :
    let t := s.run (.subscribe n :: .start :: List.replicate (s.items.length + 1) (.call s.iters.length) ++ [.destroy n])
    t.bad = false ∧ t.items = s.items ∧ ∃ g, t.iters = s.iters ++ [⟨g, s.items.length + 1, s.items.length + 1, s.items ++ [n], s.items ++ [n]⟩] := by
  have hgo : ∀ it ∈ s.iters, ¬ Iter.Going it := fun it hm hg => by
    have := hq it hm
    unfold Iter.Going at hg
    omega
  have i1 := hinv_step s (.subscribe n) hi (Or.inl hgo) (by rintro k ⟨⟩; exact hn)
  have i2 := hinv_step _ .start i1 trivial (by simp)
  have e1 : (s.step (.subscribe n)).items = s.items ++ [n] := items_push s n hi.len
  have e2 : (s.step (.subscribe n)).iters = s.iters := by
    simp only [Handlers.step, Handlers.pushBack]; split <;> rfl
  have z := items_length _ i1.len
  rw [e1] at z
  simp only [List.length_append, List.length_singleton] at z
  have e3 : ((s.step (.subscribe n)).step .start).iters = s.iters ++ [⟨(s.step (.subscribe n)).gen, 0, s.items.length + 1, [], s.items ++ [n]⟩] := by
    show (s.step (.subscribe n)).iters ++ [⟨_, 0, (s.step (.subscribe n)).size, [], (s.step (.subscribe n)).items⟩] = _
    rw [e1, e2, ← z]
  have hr := calls_run s.iters (s.items.length + 1) _ _ i2 e3 (by simp)
  have e4 : s.run (.subscribe n :: .start :: List.replicate (s.items.length + 1) (.call s.iters.length) ++ [.destroy n]) =
      (((s.step (.subscribe n)).step .start).run (List.replicate (s.items.length + 1) (.call s.iters.length))).step (.destroy n) := by
    simp only [Handlers.run, List.cons_append, List.foldl_cons, List.foldl_append, List.foldl_nil]
  intro t
  have ht : t = (((s.step (.subscribe n)).step .start).run (List.replicate (s.items.length + 1) (.call s.iters.length))).step (.destroy n) := e4
  rw [ht, hr]
  simp only [Nat.zero_add]
  have e5 : (s.items ++ [n]).take (s.items.length + 1) = s.items ++ [n] := List.take_of_length_le (by simp)
  rw [e5]
  refine ⟨?_, ?_, (s.step (.subscribe n)).gen, ?_⟩
  · rw [destroy_bad]; exact i2.ok
  · rw [destroy_items _ n (by exact i2.len)]
    show (s.step (.subscribe n)).items.erase n = _
    rw [e1, List.erase_append_right _ hn]
    simp
  · rw [destroy_iters]

/-- Non-vacuity: flcards after its start, the table and the window. -/
theorem handlersUp_inv : HInv handlersUp :=
  hinv_run [.subscribe 1, .subscribe 2] _ hinv0 (by simp [Calm, handlers0, Handlers.step, Handlers.pushBack])
    ⟨by simp [handlers0, Handlers.items], by rintro n ⟨⟩; decide, trivial⟩

example : handlersUp.items = [1, 2] ∧ handlersUp.mem.length = 2 ∧ handlersUp.iters = [] := by decide

/-- The list is loaded at the start; while the worker tells the table and the window, the user presses "Sync": the box makes the full vector grow, and the worker goes on in the freed buffer. -/
theorem C212_grow_counterexample : (handlersUp.run [.start, .call 0, .subscribe 3]).bad = false ∧
    (handlersUp.run [.start, .call 0, .subscribe 3, .call 0]).bad = true := by decide

/-- After "Sync" two threads tell the handlers: the one that synchronised and the one that loads the list again.  The first makes the box go away and the window deletes it, the second calls the deleted box. -/
theorem C212_deleted_counterexample :
    (handlersUp.run [.subscribe 3, .start, .call 0, .call 0, .start, .call 1, .call 1, .call 1, .destroy 3]).bad = false ∧
    (handlersUp.run [.subscribe 3, .start, .call 0, .call 0, .start, .call 1, .call 1, .call 1, .destroy 3, .call 0]).bad = true := by decide

/-- A handler that is not the last one leaves during a loop: the next one is forgotten and the last one is called twice. -/
theorem C212_forgotten_counterexample :
    ((handlersUp.run [.subscribe 3, .start, .call 0, .destroy 1, .call 0, .call 0]).iters.map (·.called)) = [[1, 3, 3]] ∧
    (handlersUp.run [.subscribe 3, .start, .call 0, .destroy 1, .call 0, .call 0]).bad = false := by decide

end Cards.Props
