import Verif.Model.Forum
import Verif.Lemmas.Base
import Verif.Props.Upgrade
import Mathlib.Data.List.Induction
/-!
# C125: the messages of the forum beside a page
-/
namespace Cards.Props
open Cards

theorem mget_foldl_rows {α β : Type} (k : α → Str) (v : α → β) (l : List α) (m : List (Str × β)) (r : α) (hr : r ∈ l)
    (hu : ∀ x ∈ l, k x = k r → x = r) : mget (l.foldl (fun m x => mset (k x) (v x) m) m) (k r) = some (v r) := by
  induction l using List.reverseRecOn with
  | nil => exact absurd hr (by simp)
  | append_singleton l x ih =>
    rw [List.foldl_append, List.foldl_cons, List.foldl_nil, mget_mset]
    by_cases e : k x = k r
    · rw [if_pos e, hu x (by simp) e]
    · rw [if_neg e]
      apply ih
      · rcases List.mem_append.mp hr with h | h
        · exact h
        · exact absurd (by rw [List.mem_singleton.mp h]) e
      · exact fun y hy => hu y (by simp [hy])

theorem mget_foldl_rows_none {α β : Type} (k : α → Str) (v : α → β) (l : List α) (x : Str) (hu : ∀ y ∈ l, k y ≠ x) :
    mget (l.foldl (fun m x => mset (k x) (v x) m) []) x = none := by
  induction l using List.reverseRecOn with
  | nil => rfl
  | append_singleton l y ih =>
    rw [List.foldl_append, List.foldl_cons, List.foldl_nil, mget_mset, if_neg (hu y (by simp))]
    exact ih fun z hz => hu z (by simp [hz])

theorem strtoul0_time (t : Nat) (h : t < 2 ^ 64) : strtoul0 (dec t) = t := by
  by_cases e : t = 0
  · subst e; decide +kernel
  · exact strtoul0_dec _ (by omega) h

/-- No two rows have the same number: the numbers are the keys of the tables. -/
def UniqueIds (F : Forum) : Prop :=
  (∀ a ∈ F.boards, ∀ b ∈ F.boards, a.id = b.id → a = b) ∧ (∀ a ∈ F.cats, ∀ b ∈ F.cats, a.id = b.id → a = b)
  ∧ (∀ a ∈ F.members, ∀ b ∈ F.members, a.id = b.id → a = b) ∧ (F.messages.map MsgRow.id).Nodup

/-- The server answers. -/
def Answers (F : Forum) : Prop := F.boardsOk = true ∧ F.catsOk = true ∧ F.membersOk = true ∧ F.messagesOk = true

/-- What a reader expects for the message `m`: the date, the category and the board it is in, who wrote it (by the name of the member, or the name a guest gave), the link to it and its subject. -/
def Expected (F : Forum) (date : Nat → Str) (forum : Str) (m : MsgRow) (text : Str) : Prop :=
  ∃ b ∈ F.boards, b.id = m.board ∧ ∃ c ∈ F.cats, c.id = b.cat ∧ ∃ author : Str,
    ((∃ a ∈ F.members, a.id = m.member ∧ author = a.realName) ∨ ((∀ a ∈ F.members, a.id ≠ m.member) ∧ author = m.guest))
    ∧ text = postText forum (date m.time) c.name b.name author m.icon (dec m.topic) (dec m.id) m.subject

theorem showRow_expected {F : Forum} (hk : UniqueIds F) (date : Nat → Str) (forum : Str) {m : MsgRow} (hb : ∃ b ∈ F.boards, b.id = m.board ∧ ∃ c ∈ F.cats, c.id = b.cat)
    (ha : (∃ a ∈ F.members, a.id = m.member) ∨ m.guest = []) (ht : m.time < 2 ^ 64) : Expected F date forum m (showRow F date forum m) := by
  obtain ⟨b, hb, e, c, hc, e'⟩ := hb
  have h1 : mget (boardMap F.boards) (dec m.board) = some (b.name, dec b.cat) := by
    rw [← e]
    exact mget_foldl_rows (fun r : BoardRow => dec r.id) (fun r => (r.name, dec r.cat)) F.boards [] b hb fun x hx h => hk.1 x hx b hb (dec_inj h)
  have h2 : mget (catMap F.cats) (dec b.cat) = some c.name := by
    rw [← e']
    exact mget_foldl_rows (fun r : CatRow => dec r.id) (fun r => r.name) F.cats [] c hc fun x hx h => hk.2.1 x hx c hc (dec_inj h)
  have hs : strtoul0 (dec m.time) = m.time := strtoul0_time _ ht
  refine ⟨b, hb, e, c, hc, e', (mget (memberMap F.members) (dec m.member)).getD [], ?_, ?_⟩
  · by_cases h : ∃ a ∈ F.members, a.id = m.member
    · obtain ⟨a, ha, e⟩ := h
      left
      refine ⟨a, ha, e, ?_⟩
      rw [← e, memberMap, mget_foldl_rows (fun r : MemberRow => dec r.id) (fun r => r.realName) F.members [] a ha fun x hx h => hk.2.2.1 x hx a ha (dec_inj h)]
      rfl
    · right
      refine ⟨fun a ha e => h ⟨a, ha, e⟩, ?_⟩
      rw [memberMap, mget_foldl_rows_none (fun r : MemberRow => dec r.id) (fun r => r.realName) F.members _ fun y hy e => h ⟨y, hy, dec_inj e⟩, ha.resolve_left h]
      rfl
  · simp only [showRow, h1, Option.getD_some, h2, hs]

theorem showLoop_eq (show1 : MsgRow → Str) (l : List MsgRow) (n i : Nat) (h : n + i = 10) (hl : l.length = 10) :
    showLoop show1 l n i = some (List.intercalate postLine ((l.drop i).map show1)) := by
  induction n generalizing i with
  | zero =>
    rw [List.drop_eq_nil_of_le (by omega)]; rfl
  | succ n ih =>
    have hi : i < l.length := by omega
    rw [showLoop, List.getElem?_eq_getElem hi]
    simp only [ih (i + 1) (by omega)]
    rw [List.drop_eq_getElem_cons hi, List.map_cons]
    congr 1
    by_cases h9 : i + 1 < 10
    · rw [if_pos h9, List.drop_eq_getElem_cons (show i + 1 < l.length by omega), List.map_cons]
      simp [List.intercalate]
    · rw [if_neg h9, List.drop_eq_nil_of_le (by omega)]
      simp [List.intercalate]

theorem showLoop_short (show1 : MsgRow → Str) (l : List MsgRow) (n i : Nat) (h : n + i = 10) (hl : l.length < 10) (hi : i ≤ l.length) :
    showLoop show1 l n i = none := by
  induction n generalizing i with
  | zero => omega
  | succ n ih =>
    rw [showLoop]
    by_cases e : i < l.length
    · rw [List.getElem?_eq_getElem e]
      simp only [ih (i + 1) (by omega) (by omega)]
    · rw [List.getElem?_eq_none (by omega)]

theorem newestRows_newest (l : List MsgRow) (hk : (l.map MsgRow.id).Nodup) :
    (∀ m ∈ newestRows l, m ∈ l) ∧ (newestRows l).Pairwise (fun a b => b.id < a.id) ∧ (∀ m ∈ l, m ∉ newestRows l → ∀ x ∈ newestRows l, m.id < x.id)
    ∧ (newestRows l).length = min 10 l.length := by
  have hp := List.mergeSort_perm l (fun a b => decide (b.id ≤ a.id))
  have hs : (l.mergeSort (fun a b => decide (b.id ≤ a.id))).Pairwise (fun a b => b.id < a.id) := by
    have h1 := List.pairwise_mergeSort (le := fun a b : MsgRow => decide (b.id ≤ a.id)) (fun a b c h h' => by simp at h h' ⊢; omega) (fun a b => by simp; omega) l
    have h2 : ((l.mergeSort (fun a b => decide (b.id ≤ a.id))).map MsgRow.id).Nodup := (hp.map _).nodup_iff.mpr hk
    rw [List.Nodup, List.pairwise_map] at h2
    refine (h1.and h2).imp ?_
    rintro a b ⟨h, h'⟩
    simp at h; omega
  unfold newestRows
  generalize l.mergeSort (fun a b => decide (b.id ≤ a.id)) = s at hp hs
  refine ⟨fun m hm => hp.mem_iff.mp (List.mem_of_mem_take hm), hs.sublist (List.take_sublist _ _), fun m hm hn x hx => ?_, by simp [hp.length_eq]⟩
  have hm' : m ∈ s.drop 10 := by
    have : m ∈ s.take 10 ++ s.drop 10 := by rw [List.take_append_drop]; exact hp.mem_iff.mpr hm
    rcases List.mem_append.mp this with h | h
    · exact absurd h hn
    · exact h
  rw [← List.take_append_drop 10 s, List.pairwise_append] at hs
  exact hs.2.2 x hx m hm'

/-- **C125.** With ten messages at least, each in a board and a category and written by a member, the ten newest are shown, the newest first, each as a reader expects it, with a line between
them, after four empty lines. -/
theorem C125_ten_newest_partial (F : Forum) (hk : UniqueIds F) (hu : Answers F) (date : Nat → Str) (forum : Str) (h10 : 10 ≤ F.messages.length)
    (hb : ∀ m ∈ F.messages, ∃ b ∈ F.boards, b.id = m.board ∧ ∃ c ∈ F.cats, c.id = b.cat)
    (ha : ∀ m ∈ F.messages, ∃ a ∈ F.members, a.id = m.member) (ht : ∀ m ∈ F.messages, m.time < 2 ^ 64) :
    ∃ shown : List MsgRow, shown.length = 10 ∧ (∀ m ∈ shown, m ∈ F.messages) ∧ shown.Pairwise (fun a b => b.id < a.id)
      ∧ (∀ m ∈ F.messages, m ∉ shown → ∀ x ∈ shown, m.id < x.id)
      ∧ ∃ text : MsgRow → Str, (∀ m ∈ shown, Expected F date forum m (text m))
        ∧ lastPosts F date forum = some ("\n\n\n\n".toList ++ List.intercalate postLine (shown.map text)) := by
  obtain ⟨h1, h2, h3, h4⟩ := newestRows_newest F.messages hk.2.2.2
  have hl : (newestRows F.messages).length = 10 := by omega
  refine ⟨_, hl, h1, h2, h3, showRow F date forum, fun m hm => showRow_expected hk date forum (hb m (h1 m hm)) (Or.inl (ha m (h1 m hm))) (ht m (h1 m hm)), ?_⟩
  rw [lastPosts, hu.1, hu.2.1, hu.2.2.1, hu.2.2.2, showLoop_eq _ _ 10 0 rfl hl]
  rfl

/-- **C125, false.** A young forum, with fewer than ten messages, makes the site read past the end of its list, whatever else is in the tables. -/
theorem C125_counterexample_few (F : Forum) (hk : UniqueIds F) (date : Nat → Str) (forum : Str) (h : F.messages.length < 10) : lastPosts F date forum = none := by
  have h4 := (newestRows_newest F.messages hk.2.2.2).2.2.2
  rw [lastPosts, showLoop_short _ _ 10 0 rfl (by omega) (by omega)]
  simp

/-- **C125, false.** So does a server that does not answer one of the queries. -/
theorem C125_counterexample_down (F : Forum) (date : Nat → Str) (forum : Str) (h : ¬ Answers F) : lastPosts F date forum = none := by
  rw [lastPosts, if_neg]
  intro e
  simp only [Bool.and_eq_true] at e
  exact h ⟨e.1.1.1, e.1.1.2, e.1.2, e.2⟩

theorem postText_author {f d c b a a' i t m s : Str} (h : postText f d c b a i t m s = postText f d c b a' i t m s) : a.length = a'.length := by
  unfold postText at h
  iterate 13 replace h := List.append_cancel_right h
  rw [List.append_cancel_left h]

/-- A forum with twelve messages. -/
def xForum : Forum :=
  ⟨[⟨1, "News".toList, 1⟩, ⟨7, "Bugs".toList, 2⟩], [⟨1, "General".toList⟩, ⟨2, "Users".toList⟩], [⟨3, "ann".toList⟩],
    (List.range 12).map (fun i => ⟨i * 5 % 13, if i % 2 = 0 then 1 else 7, 40 + i, 3, 1700000000 + i, "hello".toList, "xx".toList, []⟩), true, true, true, true⟩
/-- The same, but the newest message was written by a guest, bob. -/
def xGuest : Forum := { xForum with messages := ⟨99, 1, 60, 0, 1700000100, "hi".toList, "xx".toList, "bob".toList⟩ :: xForum.messages }

theorem xForum_keys : UniqueIds xForum := by unfold UniqueIds; decide
theorem xGuest_keys : UniqueIds xGuest := by unfold UniqueIds; decide

example : Answers xForum ∧ 10 ≤ xForum.messages.length ∧ (∀ m ∈ xForum.messages, ∃ b ∈ xForum.boards, b.id = m.board ∧ ∃ c ∈ xForum.cats, c.id = b.cat)
    ∧ (∀ m ∈ xForum.messages, ∃ a ∈ xForum.members, a.id = m.member) ∧ (∀ m ∈ xForum.messages, m.time < 2 ^ 64) := by
  unfold Answers; decide
example : UniqueIds { xForum with messages := [] } := by unfold UniqueIds; decide
example : ¬ Answers { xForum with membersOk := false } := by unfold Answers; decide

/-- **C125, false.** The name a guest gave is not shown: the text for the message of bob is that of a message without an author. -/
theorem C125_counterexample_guest (date : Nat → Str) (forum : Str) : (lastPosts xGuest date forum).isSome = true
    ∧ (newestRows xGuest.messages).head?.map (showRow xGuest date forum)
      = some (postText forum (date 1700000100) "General".toList "News".toList [] "xx".toList "60".toList "99".toList "hi".toList)
    ∧ ∀ m ∈ (newestRows xGuest.messages).head?, ¬ Expected xGuest date forum m (showRow xGuest date forum m) := by
  have hl : (newestRows xGuest.messages).length = 10 := by rw [(newestRows_newest _ xGuest_keys.2.2.2).2.2.2]; rfl
  have hh : (newestRows xGuest.messages).head? = some ⟨99, 1, 60, 0, 1700000100, "hi".toList, "xx".toList, "bob".toList⟩ := by
    obtain ⟨h1, h2, h3, _⟩ := newestRows_newest _ xGuest_keys.2.2.2
    have hmax : ∀ m ∈ xGuest.messages, ¬ 99 < m.id := by decide
    have hin : (⟨99, 1, 60, 0, 1700000100, "hi".toList, "xx".toList, "bob".toList⟩ : MsgRow) ∈ xGuest.messages := by decide
    revert h1 h2 h3 hl
    generalize newestRows xGuest.messages = l
    intro hl h1 h2 h3
    cases l with
    | nil => exact absurd hl (by decide)
    | cons x l =>
      by_contra hne
      have hx : ¬ (99 < x.id) := hmax x (h1 x (by simp))
      by_cases h : (⟨99, 1, 60, 0, 1700000100, "hi".toList, "xx".toList, "bob".toList⟩ : MsgRow) ∈ x :: l
      · rcases List.mem_cons.mp h with h | h
        · exact hne (by rw [h]; rfl)
        · exact hx ((List.pairwise_cons.mp h2).1 _ h)
      · exact hx (h3 _ hin h x (by simp))
  have hs : showRow xGuest date forum ⟨99, 1, 60, 0, 1700000100, "hi".toList, "xx".toList, "bob".toList⟩
      = postText forum (date 1700000100) "General".toList "News".toList [] "xx".toList "60".toList "99".toList "hi".toList := by
    have h1 : (mget (boardMap xGuest.boards) (dec 1)).getD ([], []) = ("News".toList, "1".toList) := by decide +kernel
    have h2 : (mget (catMap xGuest.cats) "1".toList).getD [] = "General".toList := by decide +kernel
    have h3 : (mget (memberMap xGuest.members) (dec 0)).getD [] = [] := by decide +kernel
    have h4 : strtoul0 (dec 1700000100) = 1700000100 := strtoul0_time _ (by omega)
    have h5 : dec 60 = "60".toList := by decide +kernel
    have h6 : dec 99 = "99".toList := by decide +kernel
    simp only [showRow, h1, h2, h3, h4, h5, h6]
  refine ⟨?_, by rw [hh, Option.map_some, hs], ?_⟩
  · rw [lastPosts, showLoop_eq _ _ 10 0 rfl hl]; rfl
  · intro m hm
    rw [hh] at hm
    cases hm
    rw [hs]
    rintro ⟨b, hb, eb, c, hc, ec, author, h, e⟩
    have ha : author = "bob".toList := by
      rcases h with ⟨a, ha, h, _⟩ | ⟨_, h⟩
      · exact absurd h ((by decide : ∀ a ∈ xGuest.members, ¬ a.id = 0) a ha)
      · exact h
    have hb' : b = ⟨1, "News".toList, 1⟩ := (by decide : ∀ b ∈ xGuest.boards, b.id = 1 → b = ⟨1, "News".toList, 1⟩) b hb eb
    subst hb'
    have hc' : c = ⟨1, "General".toList⟩ := (by decide : ∀ c ∈ xGuest.cats, c.id = 1 → c = ⟨1, "General".toList⟩) c hc ec
    subst hc' ha
    have h5 : dec 60 = "60".toList := by decide +kernel
    have h6 : dec 99 = "99".toList := by decide +kernel
    rw [← h5, ← h6] at e
    have hlen := postText_author e
    exact absurd hlen (by decide)

theorem infix_skip {x r : Str} (a : Str) (h : x <:+: r) : x <:+: a ++ r := h.trans (List.suffix_append a r).isInfix

theorem infix_three (x y z r : Str) : x ++ y ++ z <:+: x ++ (y ++ (z ++ r)) := ⟨[], r, by rw [List.nil_append, List.append_assoc, List.append_assoc]⟩

theorem fields_aux (a1 a2 a3 a4 a5 a6 a7 a8 a9 b1 b2 b3 b4 b5 b6 b7 b8 b9 c1 c2 forum date category board author icon topic msg subject t : Str)
    (ht : t = a1 ++ a2 ++ date ++ (a3 ++ (a4 ++ a5)) ++ category ++ (a6 ++ (a4 ++ a7)) ++ board ++ (a8 ++ (a4 ++ a9)) ++ author ++ (a8 ++ (b1 ++ b2)) ++ icon ++ (b3 ++ (b4 ++ b5)) ++ forum ++ b6 ++ topic ++ b7 ++ msg ++ b8 ++ msg ++ b9 ++ subject ++ (c1 ++ c2)) :
    a2 ++ date ++ a3 <:+: t ∧ a5 ++ category ++ a6 <:+: t ∧ a7 ++ board ++ a8 <:+: t ∧ a9 ++ author ++ a8 <:+: t ∧ b2 ++ icon ++ b3 <:+: t ∧
    b5 ++ forum ++ b6 ++ topic ++ b7 ++ msg ++ b8 ++ msg ++ b9 ++ subject ++ c1 <:+: t := by
  have ht' : t = a1 ++ (a2 ++ (date ++ (a3 ++ (a4 ++ (a5 ++ (category ++ (a6 ++ (a4 ++ (a7 ++ (board ++ (a8 ++ (a4 ++ (a9 ++ (author ++ (a8 ++ (b1 ++ (b2 ++ (icon ++ (b3 ++ (b4 ++ ((b5 ++ forum ++ b6 ++ topic ++ b7 ++ msg ++ b8 ++ msg ++ b9 ++ subject ++ c1) ++ c2))))))))))))))))))))) := by
    rw [ht]
    simp only [List.append_assoc]
  clear ht
  subst ht'
  have s := @infix_skip
  refine ⟨?_, ?_, ?_, ?_, ?_, ?_⟩
  · exact s _ (infix_three _ _ _ _)
  · exact s _ (s _ (s _ (s _ (s _ (infix_three _ _ _ _)))))
  · exact s _ (s _ (s _ (s _ (s _ (s _ (s _ (s _ (s _ (infix_three _ _ _ _)))))))))
  · exact s _ (s _ (s _ (s _ (s _ (s _ (s _ (s _ (s _ (s _ (s _ (s _ (s _ (infix_three _ _ _ _)))))))))))))
  · exact s _ (s _ (s _ (s _ (s _ (s _ (s _ (s _ (s _ (s _ (s _ (s _ (s _ (s _ (s _ (s _ (s _ (infix_three _ _ _ _)))))))))))))))))
  · exact s _ (s _ (s _ (s _ (s _ (s _ (s _ (s _ (s _ (s _ (s _ (s _ (s _ (s _ (s _ (s _ (s _ (s _ (s _ (s _ (s _ (List.prefix_append _ _).isInfix))))))))))))))))))))

/-- The text of a message shows, each in its own element of the page, the date, the category, the board, the author, the picture, the link to the message and its subject. -/
theorem C125_fields_partial (forum date category board author icon topic msg subject : Str) :
    let t := postText forum date category board author icon topic msg subject
    "<div class=\"post-time\">".toList ++ date ++ " UTC</div>".toList <:+: t ∧
    "<div class=\"post-category\">".toList ++ category ++ ":</div>".toList <:+: t ∧
    "<div class=\"post-subject\">".toList ++ board ++ "</div>".toList <:+: t ∧
    "<div class=\"post-author\">".toList ++ author ++ "</div>".toList <:+: t ∧
    "src=\"../../graphics/".toList ++ icon ++ ".gif\"".toList <:+: t ∧
    "<a class=\"post-link\" href=\"".toList ++ forum ++ "/index.php?topic=".toList ++ topic ++ ".msg".toList ++ msg ++ "#msg".toList ++ msg ++ "\">\n    ".toList ++ subject ++ "\n      </a>".toList <:+: t := by
  have e1 : "       <div class=\"post-time\">".toList = "       ".toList ++ "<div class=\"post-time\">".toList := by decide +kernel
  have e2 : " UTC</div>\n       <div class=\"post-category\">".toList = " UTC</div>".toList ++ ("\n       ".toList ++ "<div class=\"post-category\">".toList) := by decide +kernel
  have e3 : ":</div>\n       <div class=\"post-subject\">".toList = ":</div>".toList ++ ("\n       ".toList ++ "<div class=\"post-subject\">".toList) := by decide +kernel
  have e4 : "</div>\n       <div class=\"post-author\">".toList = "</div>".toList ++ ("\n       ".toList ++ "<div class=\"post-author\">".toList) := by decide +kernel
  have e5 : "</div>\n       <img class=\"post-icon\" src=\"../../graphics/".toList = "</div>".toList ++ ("\n       <img class=\"post-icon\" ".toList ++ "src=\"../../graphics/".toList) := by decide +kernel
  have e6 : ".gif\" alt=\"\" />\n       <a class=\"post-link\" href=\"".toList = ".gif\"".toList ++ (" alt=\"\" />\n       ".toList ++ "<a class=\"post-link\" href=\"".toList) := by decide +kernel
  have e7 : "\n      </a>\n\n   ".toList = "\n      </a>".toList ++ "\n\n   ".toList := by decide +kernel
  refine fields_aux "       ".toList _ _ "\n       ".toList _ _ _ _ _ "\n       <img class=\"post-icon\" ".toList _ _ " alt=\"\" />\n       ".toList _ _ _ _ _ _ "\n\n   ".toList _ _ _ _ _ _ _ _ _ _ ?_
  unfold postText
  rewrite [e1, e2, e3, e4, e5, e6, e7]
  clear e1 e2 e3 e4 e5 e6 e7
  generalize "       ".toList = x0
  generalize "<div class=\"post-time\">".toList = x1
  generalize " UTC</div>".toList = x2
  generalize "\n       ".toList = x3
  generalize "<div class=\"post-category\">".toList = x4
  generalize ":</div>".toList = x5
  generalize "<div class=\"post-subject\">".toList = x6
  generalize "</div>".toList = x7
  generalize "<div class=\"post-author\">".toList = x8
  generalize "\n       <img class=\"post-icon\" ".toList = x9
  generalize "src=\"../../graphics/".toList = x10
  generalize ".gif\"".toList = x11
  generalize " alt=\"\" />\n       ".toList = x12
  generalize "<a class=\"post-link\" href=\"".toList = x13
  generalize "/index.php?topic=".toList = x14
  generalize ".msg".toList = x15
  generalize "#msg".toList = x16
  generalize "\">\n    ".toList = x17
  generalize "\n      </a>".toList = x18
  generalize "\n\n   ".toList = x19
  rfl
end Cards.Props
