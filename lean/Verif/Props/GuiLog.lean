import Verif.Model.GuiLog
import Mathlib.Tactic.Common
/-!
# C210, C211: the log of flcards
-/
namespace Cards.Props
open Cards

/-- The specification: the lines a subscriber is shown by a history; the lines of the main thread at once, those of the workers at the next turn of the loop, and only the last fifty of them. -/
def delivered : List Str → List GLogEv → List Str
  | _, [] => []
  | p, .log true l m :: es => logLine l m :: delivered p es
  | p, .log false l m :: es => delivered (p ++ [logLine l m]) es
  | p, .loop :: es => p.drop (p.length - 50) ++ delivered [] es
  | p, .subscribe _ :: es => delivered p es
  | p, .unSubscribe _ :: es => delivered p es

/-- The lines of the main thread. -/
def mainLines : List GLogEv → List Str
  | [] => []
  | .log true l m :: es => logLine l m :: mainLines es
  | _ :: es => mainLines es

/-- The lines of the other threads. -/
def workerLines : List GLogEv → List Str
  | [] => []
  | .log false l m :: es => logLine l m :: workerLines es
  | _ :: es => workerLines es

/-- At most fifty lines of the workers between two turns of the loop, `k` of them already waiting. -/
def Slow : Nat → List GLogEv → Prop
  | _, [] => True
  | k, .log false _ _ :: es => k < 50 ∧ Slow (k + 1) es
  | _, .loop :: es => Slow 0 es
  | k, .log true _ _ :: es => Slow k es
  | k, .subscribe _ :: es => Slow k es
  | k, .unSubscribe _ :: es => Slow k es

theorem foldl_send (q : List Str) (s : GLogSt) :
    q.foldl GLogSt.send s = { s with shown := s.shown ++ q.flatMap (fun t => s.subs.map (fun n => (n, t))) } := by
  induction q generalizing s with
  | nil => simp
  | cons t q ih => simp [ih, GLogSt.send, List.append_assoc]

theorem subs_step (s : GLogSt) (e : GLogEv) (h : s.subs.Nodup) : (s.step e).subs.Nodup := by
  cases e with
  | log b l m => cases b <;> simpa [GLogSt.step, GLogSt.send] using h
  | loop => simpa [GLogSt.step, foldl_send] using h
  | subscribe n =>
    simp only [GLogSt.step]
    split
    · exact h
    · rename_i hn
      refine List.nodup_append.mpr ⟨h, by simp, ?_⟩
      intro a ha b hb hab
      simp only [List.mem_singleton] at hb
      subst hb; subst hab
      exact hn ha
  | unSubscribe n => exact h.erase n

theorem filter_sub (l : List Nat) (n : Nat) (t : Str) (h : l.Nodup) (hn : n ∈ l) :
    ((l.map (fun k => (k, t))).filter (fun p => p.1 == n)).map (·.2) = [t] := by
  induction l with
  | nil => simp at hn
  | cons a l ih =>
    obtain ⟨h1, h2⟩ := List.nodup_cons.mp h
    by_cases e : a = n
    · subst e
      have : (l.map (fun k => (k, t))).filter (fun p => p.1 == a) = [] := by
        rw [List.filter_eq_nil_iff]
        intro p hp
        obtain ⟨k, hk, rfl⟩ := List.mem_map.mp hp
        simp only [beq_iff_eq]
        rintro rfl
        exact h1 hk
      simp [this]
    · have hm : n ∈ l := by simpa [Ne.symm e] using hn
      have : (a == n) = false := by simpa using e
      simpa [List.filter_cons, this] using ih h2 hm

theorem filter_nosub (l : List Nat) (n : Nat) (t : Str) (hn : n ∉ l) :
    ((l.map (fun k => (k, t))).filter (fun p => p.1 == n)).map (·.2) = [] := by
  rw [List.map_eq_nil_iff, List.filter_eq_nil_iff]
  intro p hp
  obtain ⟨k, hk, rfl⟩ := List.mem_map.mp hp
  simp only [beq_iff_eq]
  rintro rfl
  exact hn hk

theorem seen_flat (q : List Str) (l : List Nat) (n : Nat) (h : l.Nodup) (hn : n ∈ l) :
    ((q.flatMap (fun t => l.map (fun k => (k, t)))).filter (fun p => p.1 == n)).map (·.2) = q := by
  induction q with
  | nil => rfl
  | cons t q ih =>
    simp only [List.flatMap_cons, List.filter_append, List.map_append, ih, filter_sub l n t h hn, List.singleton_append]

theorem seen_flat_no (q : List Str) (l : List Nat) (n : Nat) (hn : n ∉ l) :
    ((q.flatMap (fun t => l.map (fun k => (k, t)))).filter (fun p => p.1 == n)).map (·.2) = [] := by
  induction q with
  | nil => rfl
  | cons t q ih =>
    simp only [List.flatMap_cons, List.filter_append, List.map_append, ih, filter_nosub l n t hn, List.append_nil]

theorem drop_last (p : List Str) (t : Str) :
    dropOldest (p.drop (p.length - 50) ++ [t]) = (p ++ [t]).drop ((p ++ [t]).length - 50) := by
  unfold dropOldest maxBuffer
  simp only [List.length_append, List.length_drop, List.length_singleton]
  by_cases h : p.length < 50
  · have e1 : p.length - 50 = 0 := by omega
    simp only [e1, List.drop_zero, Nat.sub_zero]
  · have e1 : p.length - (p.length - 50) + 1 - 50 = 1 := by omega
    have e2 : p.length + 1 - 50 = (p.length - 50) + 1 := by omega
    rw [e1, e2]
    rw [show p.drop (p.length - 50) ++ [t] = (p ++ [t]).drop (p.length - 50) from (List.drop_append_of_le_length (by omega)).symm]
    rw [List.drop_drop]

/-- **C210**: a subscriber who stays is shown exactly the lines of the specification, each once, whatever the others do and however often he subscribes. -/
theorem C210_exact (es : List GLogEv) (s : GLogSt) (p : List Str) (n : Nat) (hd : s.subs.Nodup) (hn : n ∈ s.subs)
    (hq : s.queue = p.drop (p.length - 50)) (hu : GLogEv.unSubscribe n ∉ es) :
    (s.run es).seenBy n = s.seenBy n ++ delivered p es := by
  induction es generalizing s p with
  | nil => simp [GLogSt.run, delivered]
  | cons e es ih =>
    have hu' : GLogEv.unSubscribe n ∉ es := fun h => hu (List.mem_cons_of_mem _ h)
    have hd' := subs_step s e hd
    show ((s.step e).run es).seenBy n = _
    cases e with
    | log b l m =>
      cases b with
      | true =>
        rw [ih (s.step (.log true l m)) p hd' (by simpa [GLogSt.step, GLogSt.send] using hn) (by simpa [GLogSt.step, GLogSt.send] using hq) hu']
        have : (s.step (.log true l m)).seenBy n = s.seenBy n ++ [logLine l m] := by
          simp only [GLogSt.step, GLogSt.send, GLogSt.seenBy, List.filter_append, List.map_append, filter_sub s.subs n _ hd hn]
        rw [this, List.append_assoc]
        rfl
      | false =>
        rw [ih (s.step (.log false l m)) (p ++ [logLine l m]) hd' (by simpa [GLogSt.step] using hn) (by
          show dropOldest (s.queue ++ [logLine l m]) = _
          rw [hq]; exact drop_last p _) hu']
        rfl
    | loop =>
      rw [ih (s.step .loop) [] hd' (by simpa [GLogSt.step, foldl_send] using hn) (by simp [GLogSt.step]) hu']
      have : (s.step .loop).seenBy n = s.seenBy n ++ s.queue := by
        simp only [GLogSt.step, foldl_send, GLogSt.seenBy, List.filter_append, List.map_append, seen_flat s.queue s.subs n hd hn]
      rw [this, hq, List.append_assoc]
      rfl
    | subscribe k =>
      rw [ih (s.step (.subscribe k)) p hd' (by simp only [GLogSt.step]; split <;> simp [hn]) (by simp only [GLogSt.step]; split <;> exact hq) hu']
      have : (s.step (.subscribe k)).seenBy n = s.seenBy n := by
        simp only [GLogSt.step]; split <;> rfl
      rw [this]
      rfl
    | unSubscribe k =>
      have hk : k ≠ n := fun h => hu (by simp [h])
      rw [ih (s.step (.unSubscribe k)) p hd' (by
        show n ∈ s.subs.erase k
        exact (List.mem_erase_of_ne (Ne.symm hk)).mpr hn) (by simpa [GLogSt.step] using hq) hu']
      rfl

/-- From the start: once subscribed, before anything else, everything of the specification. -/
theorem C210_from_start (n : Nat) (es : List GLogEv) (hu : GLogEv.unSubscribe n ∉ es) :
    (gLogStart.run (.subscribe n :: es)).seenBy n = delivered [] es := by
  show ((gLogStart.step (.subscribe n)).run es).seenBy n = _
  rw [C210_exact es _ [] n (by simp [gLogStart, GLogSt.step]) (by simp [gLogStart, GLogSt.step]) (by simp [gLogStart, GLogSt.step]) hu]
  simp [gLogStart, GLogSt.step, GLogSt.seenBy]

/-- The memory of the logger is bounded: never more than fifty lines wait, whatever the threads do. -/
theorem C210_bounded (es : List GLogEv) (s : GLogSt) (h : s.queue.length ≤ 50) : (s.run es).queue.length ≤ 50 := by
  induction es generalizing s with
  | nil => exact h
  | cons e es ih =>
    refine ih (s.step e) ?_
    cases e with
    | log b l m =>
      cases b with
      | true => exact h
      | false =>
        simp only [GLogSt.step, dropOldest, maxBuffer, List.length_drop, List.length_append, List.length_singleton]
        omega
    | loop => simp [GLogSt.step]
    | subscribe k => simp only [GLogSt.step]; split <;> exact h
    | unSubscribe k => exact h

/-- Who does not subscribe is shown nothing, and who has left is shown nothing more. -/
theorem C210_not_subscribed (es : List GLogEv) (s : GLogSt) (n : Nat) (hd : s.subs.Nodup) (hn : n ∉ s.subs) (hu : GLogEv.subscribe n ∉ es) :
    (s.run es).seenBy n = s.seenBy n := by
  induction es generalizing s with
  | nil => rfl
  | cons e es ih =>
    have hu' : GLogEv.subscribe n ∉ es := fun h => hu (List.mem_cons_of_mem _ h)
    have hd' := subs_step s e hd
    show ((s.step e).run es).seenBy n = _
    cases e with
    | log b l m =>
      cases b with
      | true =>
        rw [ih (s.step (.log true l m)) hd' (by simpa [GLogSt.step, GLogSt.send] using hn) hu']
        simp only [GLogSt.step, GLogSt.send, GLogSt.seenBy, List.filter_append, List.map_append, filter_nosub s.subs n _ hn, List.append_nil]
      | false =>
        rw [ih (s.step (.log false l m)) hd' (by simpa [GLogSt.step] using hn) hu']
        rfl
    | loop =>
      rw [ih (s.step .loop) hd' (by simpa [GLogSt.step, foldl_send] using hn) hu']
      simp only [GLogSt.step, foldl_send, GLogSt.seenBy, List.filter_append, List.map_append, seen_flat_no s.queue s.subs n hn, List.append_nil]
    | subscribe k =>
      have hk : k ≠ n := fun h => hu (by simp [h])
      rw [ih (s.step (.subscribe k)) hd' (by simp only [GLogSt.step]; split <;> simp [hn, Ne.symm hk]) hu']
      simp only [GLogSt.step]; split <;> rfl
    | unSubscribe k =>
      rw [ih (s.step (.unSubscribe k)) hd' (fun h => hn (List.mem_of_mem_erase h)) hu']
      rfl

/-- Leaving is immediate: what comes after is not shown, what waits in the queue either. -/
theorem C210_leave (es : List GLogEv) (s : GLogSt) (n : Nat) (hd : s.subs.Nodup) (hu : GLogEv.subscribe n ∉ es) :
    (s.run (.unSubscribe n :: es)).seenBy n = s.seenBy n := by
  show ((s.step (.unSubscribe n)).run es).seenBy n = _
  rw [C210_not_subscribed es _ n (subs_step s _ hd) (by
    show n ∉ s.subs.erase n
    exact fun h => (List.Nodup.mem_erase_iff hd).mp h |>.1 rfl) hu]
  rfl

/-- The subscribers are kept once each, so the two hypotheses above are met by every history. -/
theorem C210_once (es : List GLogEv) : (gLogStart.run es).subs.Nodup := by
  have : ∀ (es : List GLogEv) (s : GLogSt), s.subs.Nodup → (s.run es).subs.Nodup := by
    intro es
    induction es with
    | nil => exact fun s h => h
    | cons e es ih => exact fun s h => ih _ (subs_step s e h)
  exact this es _ (by simp [gLogStart])

/-- What the line looks like: the level, the message and the end of line. -/
theorem C210_line (m : Str) : logLine .error m = "Error : ".toList ++ m ++ ['\n'] ∧ logLine .info m = "Info : ".toList ++ m ++ ['\n'] ∧
    logLine .warning m = "Warning : ".toList ++ m ++ ['\n'] ∧ logLine .debug m = "Debug : ".toList ++ m ++ ['\n'] := ⟨rfl, rfl, rfl, rfl⟩

example : (gLogStart.run [.subscribe 3, .subscribe 3, .log false .error "a".toList, .log true .info "b".toList, .loop, .unSubscribe 3, .log true .info "c".toList]).seenBy 3 =
    ["Info : b\n".toList, "Error : a\n".toList] := by decide +kernel

/-! ## C211 -/

theorem delivered_kinds (w : Str → Bool) (es : List GLogEv) (p : List Str) (hl : p.length ≤ 50) (hs : Slow p.length es)
    (hm : ∀ t ∈ mainLines es, w t = false) (hw : ∀ t ∈ workerLines es, w t = true) (hp : ∀ t ∈ p, w t = true) :
    (delivered p (es ++ [.loop])).filter w = p ++ workerLines es ∧ (delivered p (es ++ [.loop])).filter (fun t => !w t) = mainLines es := by
  induction es generalizing p with
  | nil =>
    have e : p.length - 50 = 0 := by omega
    simp only [List.nil_append, delivered, e, List.drop_zero, List.append_nil, workerLines, mainLines]
    exact ⟨List.filter_eq_self.mpr hp, List.filter_eq_nil_iff.mpr (fun t ht => by simp [hp t ht])⟩
  | cons e es ih =>
    cases e with
    | log b l m =>
      cases b with
      | true =>
        have := ih p hl hs (fun t ht => hm t (by simp [mainLines, ht])) hw hp
        have h1 : w (logLine l m) = false := hm _ (by simp [mainLines])
        simp only [List.cons_append, delivered, mainLines, workerLines]
        rw [List.filter_cons, List.filter_cons, h1]
        simpa using this
      | false =>
        obtain ⟨hs1, hs2⟩ := hs
        have := ih (p ++ [logLine l m]) (by simp only [List.length_append, List.length_singleton]; omega) (by simpa using hs2) hm (fun t ht => hw t (by simp [workerLines, ht]))
          (by
            intro t ht
            rcases List.mem_append.mp ht with h | h
            · exact hp t h
            · exact hw t (by simp only [List.mem_singleton] at h; simp [workerLines, h]))
        simpa [delivered, mainLines, workerLines] using this
    | loop =>
      have e : p.length - 50 = 0 := by omega
      have := ih [] (by simp) hs hm hw (by simp)
      simp only [List.cons_append, delivered, e, List.drop_zero, List.filter_append, workerLines, mainLines, this.1, this.2, List.nil_append]
      refine ⟨?_, ?_⟩
      · rw [List.filter_eq_self.mpr hp]
      · rw [List.filter_eq_nil_iff.mpr (fun t ht => by simp [hp t ht]), List.nil_append]
    | subscribe k => exact ih p hl hs hm hw hp
    | unSubscribe k => exact ih p hl hs hm hw hp

/-- **C211** partial: with at most fifty lines of the workers between two turns of the loop, a window that subscribed first is shown every line: those of the workers once each in their order, those of the main thread once each in theirs.  The two are told apart by any mark `w` of the lines. -/
theorem C211_complete_partial (n : Nat) (es : List GLogEv) (w : Str → Bool) (hs : Slow 0 es) (hu : GLogEv.unSubscribe n ∉ es)
    (hm : ∀ t ∈ mainLines es, w t = false) (hw : ∀ t ∈ workerLines es, w t = true) :
    ((gLogStart.run (.subscribe n :: es ++ [.loop])).seenBy n).filter w = workerLines es ∧
    ((gLogStart.run (.subscribe n :: es ++ [.loop])).seenBy n).filter (fun t => !w t) = mainLines es := by
  rw [List.cons_append, C210_from_start n _ (by simp [hu])]
  have := delivered_kinds w es [] (by simp) hs hm hw (by simp)
  simpa using this

/-- Non-vacuity: two workers' lines and one of the window. -/
example : Slow 0 [.log false .error "x".toList, .log true .info "y".toList, .loop, .log false .info "z".toList] := by simp [Slow]

theorem err_ne_info (m : Str) : logLine .error m ≠ logLine .info [] := by
  have h1 : "Error : ".toList = 'E' :: "rror : ".toList := by decide
  have h2 : "Info : ".toList = 'I' :: "nfo : ".toList := by decide
  unfold logLine logHead
  rw [h1, h2]
  intro h
  rw [List.cons_append, List.cons_append, List.cons_append, List.cons_append] at h
  have := (List.cons.inj h).1
  revert this
  decide

/-- The fifty-first line between two turns makes the first one disappear. -/
theorem C211_lost_counterexample (first : Str) :
    logLine .error first ∉ (gLogStart.run (.subscribe 0 :: .log false .error first :: List.replicate 50 (.log false .info []) ++ [.loop])).seenBy 0 := by
  rw [List.cons_append, C210_from_start 0 _ (by simp)]
  have key : ∀ (k : Nat) (p : List Str), delivered p (List.replicate k (GLogEv.log false .info []) ++ [.loop]) =
      (p ++ List.replicate k (logLine .info [])).drop (p.length + k - 50) := by
    intro k
    induction k with
    | zero => intro p; simp [delivered]
    | succ k ih =>
      intro p
      rw [List.replicate_succ, List.cons_append]
      show delivered (p ++ [logLine .info []]) _ = _
      rw [ih, List.replicate_succ, List.append_assoc, List.singleton_append]
      congr 1
      simp only [List.length_append, List.length_singleton]
      omega
  have h2 : delivered [] (.log false .error first :: List.replicate 50 (.log false .info []) ++ [.loop]) =
      delivered ([] ++ [logLine .error first]) (List.replicate 50 (.log false .info []) ++ [.loop]) := by
    rw [List.cons_append, delivered]
  rw [h2, key]
  have hf := err_ne_info first
  generalize logLine .error first = x at hf ⊢
  generalize logLine .info [] = y at hf ⊢
  intro h
  have e : ([] ++ [x] ++ List.replicate 50 y).drop (([] ++ [x]).length + 50 - 50) = List.replicate 50 y := by
    simp
  rw [e] at h
  exact hf (List.eq_of_mem_replicate h)

/-- A line of the window overtakes the one a worker wrote before. -/
theorem C211_order_counterexample (a b : Str) :
    (gLogStart.run [.subscribe 0, .log false .error a, .log true .info b, .loop]).seenBy 0 = [logLine .info b, logLine .error a] := rfl

/-- flcards as shipped neither subscribes nor turns the loop (/repo/fltk/mainWindow.cxx:13-17, /repo/fltk/flcards.cxx:91-95): nothing is ever shown, whatever is logged, errors of a synchronisation too. -/
theorem C211_shipped_counterexample (n : Nat) (es : List GLogEv) (h : ∀ e ∈ es, ∃ b l m, e = .log b l m) :
    (gLogStart.run es).seenBy n = [] := by
  rw [C210_not_subscribed es gLogStart n (by simp [gLogStart]) (by simp [gLogStart]) (fun hc => by obtain ⟨_, _, _, e⟩ := h _ hc; cases e)]
  rfl

end Cards.Props
