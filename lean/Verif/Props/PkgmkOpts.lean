import Mathlib.Tactic.Common
import Verif.Lemmas.Base
import Verif.Model.PkgmkOpts
/-!
# C154, C155, C156: the options of `pkgmk`
-/
namespace Cards.Props
open Cards

/-! ### The words as they are meant -/

/-- The words are options and names of configuration files, and `w` is one of the options. -/
inductive Opts : List Str → Prop
  | nil : Opts []
  | flag (w : Str) (ws : List Str) : w ≠ [] → (∃ f ∈ pkgmkFlags, w = f.1 ∨ w = f.2.1) → Opts ws → Opts (w :: ws)
  | file (w f : Str) (ws : List Str) : w = "-cf".toList ∨ w = "--config-file".toList → f ≠ [] → Opts ws → Opts (w :: f :: ws)

/-- `w` is given as an option (and not as the name of a file). -/
def GivenOpt (w : Str) (args : List Str) : Prop := ∃ a b, args = a ++ w :: b ∧ Opts a ∧ Opts b

/-- The assignments leave the variable alone. -/
def Leaves (as : List (Str × Str)) (x : Str) : Prop := ∀ a ∈ as, a.1 ≠ x

/-! ### Assignments -/

theorem val_mset (x v : Str) (vs : ShVars) (y : Str) : ShVars.val (mset x v vs) y = if x = y then v else vs.val y := by
  unfold ShVars.val
  rw [mget_mset]
  split <;> rfl

theorem val_assignAll_leaves {as : List (Str × Str)} {x : Str} (h : Leaves as x) (vs : ShVars) : (assignAll as vs).val x = vs.val x := by
  unfold assignAll
  induction as generalizing vs with
  | nil => rfl
  | cons a as ih =>
    rw [List.foldl_cons, ih (fun b hb => h b (List.mem_cons_of_mem _ hb)), val_mset, if_neg (h a (List.mem_cons_self ..))]

theorem val_assignAll_const {as : List (Str × Str)} {x v : Str} (h : ∀ a ∈ as, a.1 = x → a.2 = v) (vs : ShVars) (h0 : vs.val x = v ∨ ∃ a ∈ as, a.1 = x) :
    (assignAll as vs).val x = v := by
  unfold assignAll
  induction as generalizing vs with
  | nil =>
    rcases h0 with h0 | ⟨a, ha, -⟩
    · exact h0
    · cases ha
  | cons a as ih =>
    rw [List.foldl_cons]
    refine ih (fun b hb => h b (List.mem_cons_of_mem _ hb)) _ ?_
    by_cases hx : a.1 = x
    · left
      rw [val_mset, if_pos hx]
      exact h a (List.mem_cons_self ..) hx
    · rcases h0 with h0 | ⟨b, hb, hbx⟩
      · left; rw [val_mset, if_neg hx, h0]
      · rcases List.mem_cons.mp hb with rfl | hb
        · exact absurd hbx hx
        · exact .inr ⟨b, hb, hbx⟩

theorem val_assign_one (x v : Str) (vs : ShVars) : (assignAll [(x, v)] vs).val x = v := by
  unfold assignAll
  rw [List.foldl_cons, List.foldl_nil, val_mset, if_pos rfl]

theorem uniq_of_nodup {α β : Type} (f : α → β) (l : List α) (hnd : (l.map f).Nodup) : ∀ a ∈ l, ∀ b ∈ l, f a = f b → a = b := by
  induction l with
  | nil => intro a ha; cases ha
  | cons c l ih =>
    rw [List.map_cons, List.nodup_cons] at hnd
    intro a ha b hb hab
    rcases List.mem_cons.mp ha with e | ha' <;> rcases List.mem_cons.mp hb with e' | hb'
    · rw [e, e']
    · subst e; exact absurd (List.mem_map.mpr ⟨b, hb', hab.symm⟩ : f a ∈ l.map f) hnd.1
    · subst e'; exact absurd (List.mem_map.mpr ⟨a, ha', hab⟩ : f b ∈ l.map f) hnd.1
    · exact ih hnd.2 a ha' b hb' hab

/-! ### The table -/

theorem flagOf_table : ∀ f ∈ pkgmkFlags, flagOf f.1 = some f.2.2 ∧ flagOf f.2.1 = some f.2.2 := by decide +kernel

theorem flagOf_names {w : Str} {as : List (Str × Str)} (h : flagOf w = some as) : ∃ f ∈ pkgmkFlags, (w = f.1 ∨ w = f.2.1) ∧ as = f.2.2 := by
  unfold flagOf at h
  cases hf : pkgmkFlags.find? (fun f => w = f.1 || w = f.2.1) with
  | none => rw [hf] at h; cases h
  | some f =>
    rw [hf] at h
    have := List.find?_some hf
    refine ⟨f, List.mem_of_find?_eq_some hf, ?_, (Option.some.inj h).symm⟩
    simpa using this

theorem flag_ne : ∀ f ∈ pkgmkFlags, f.1 ≠ [] ∧ f.2.1 ≠ [] := by decide +kernel

theorem flag_file : flagOf "-cf".toList = none ∧ flagOf "--config-file".toList = none := by decide +kernel

/-- All options say yes, but those to install. -/
theorem table_yes : ∀ f ∈ pkgmkFlags, ∀ a ∈ f.2.2, a.1 ≠ "PKGMK_INSTALL".toList → a.2 = yes := by decide +kernel

theorem table_conf : ∀ f ∈ pkgmkFlags, ∀ a ∈ f.2.2, a.1 ≠ "PKGMK_CONFFILE".toList := by decide +kernel

/-! ### The loop over the words -/

theorem parse_flag {w : Str} {as : List (Str × Str)} (h : flagOf w = some as) (vs : ShVars) (ws : List Str) :
    parseOpts vs (w :: ws) = parseOpts (assignAll as vs) ws := by
  have hw : w ≠ [] := by
    obtain ⟨f, hf, h1 | h1, -⟩ := flagOf_names h
    · rw [h1]; exact (flag_ne f hf).1
    · rw [h1]; exact (flag_ne f hf).2
  conv => lhs; unfold parseOpts
  rw [if_neg hw, h]

theorem parse_file {w f : Str} (h : w = "-cf".toList ∨ w = "--config-file".toList) (hf : f ≠ []) (vs : ShVars) (ws : List Str) :
    parseOpts vs (w :: f :: ws) = parseOpts (mset "PKGMK_CONFFILE".toList f vs) ws := by
  have hw : w ≠ [] := by rcases h with rfl | rfl <;> decide
  have hn : flagOf w = none := by
    rcases h with rfl | rfl
    · exact flag_file.1
    · exact flag_file.2
  conv => lhs; unfold parseOpts
  rw [if_neg hw, hn]
  dsimp only
  rw [if_pos h, if_neg hf]

/-- The words are read one after the other. -/
theorem parse_append {a : List Str} (h : Opts a) (vs : ShVars) (b : List Str) :
    ∃ vs', parseOpts vs a = .go vs' ∧ parseOpts vs (a ++ b) = parseOpts vs' b := by
  induction h generalizing vs with
  | nil => exact ⟨vs, rfl, rfl⟩
  | flag w ws hw hf _ ih =>
    obtain ⟨f, hf, hw'⟩ := hf
    have : flagOf w = some f.2.2 := by
      rcases hw' with rfl | rfl
      · exact (flagOf_table f hf).1
      · exact (flagOf_table f hf).2
    rw [List.cons_append, parse_flag this, parse_flag this]
    exact ih _
  | file w f ws hw hf _ ih =>
    rw [List.cons_append, List.cons_append, parse_file hw hf, parse_file hw hf]
    exact ih _

/-- A variable that is yes stays yes (but those to install and the name of the file). -/
theorem parse_yes {a : List Str} (h : Opts a) {x : Str} (hx : x ≠ "PKGMK_INSTALL".toList) (hc : x ≠ "PKGMK_CONFFILE".toList) (vs vs' : ShVars) (hv : vs.val x = yes)
    (hp : parseOpts vs a = .go vs') : vs'.val x = yes := by
  induction h generalizing vs with
  | nil => cases hp; exact hv
  | flag w ws hw hf _ ih =>
    obtain ⟨f, hf, hw'⟩ := hf
    have : flagOf w = some f.2.2 := by
      rcases hw' with rfl | rfl
      · exact (flagOf_table f hf).1
      · exact (flagOf_table f hf).2
    rw [parse_flag this] at hp
    exact ih _ (val_assignAll_const (fun a ha e => table_yes f hf a ha (by rw [e]; exact hx)) vs (.inl hv)) hp
  | file w f ws hw hf _ ih =>
    rw [parse_file hw hf] at hp
    refine ih _ ?_ hp
    rw [val_mset, if_neg (Ne.symm hc), hv]

/-- A variable no option given sets stays what it is. -/
theorem parse_leaves {a : List Str} (h : Opts a) {x : Str} (hc : x ≠ "PKGMK_CONFFILE".toList)
    (hn : ∀ f ∈ pkgmkFlags, (∃ e ∈ f.2.2, e.1 = x) → ¬ GivenOpt f.1 a ∧ ¬ GivenOpt f.2.1 a) (vs vs' : ShVars) (hp : parseOpts vs a = .go vs') : vs'.val x = vs.val x := by
  induction h generalizing vs with
  | nil => cases hp; rfl
  | flag w ws hw hf ho ih =>
    obtain ⟨f, hf, hw'⟩ := hf
    have : flagOf w = some f.2.2 := by
      rcases hw' with rfl | rfl
      · exact (flagOf_table f hf).1
      · exact (flagOf_table f hf).2
    rw [parse_flag this] at hp
    have hl : Leaves f.2.2 x := by
      intro e he hex
      have := hn f hf ⟨e, he, hex⟩
      rcases hw' with rfl | rfl
      · exact this.1 ⟨[], ws, rfl, .nil, ho⟩
      · exact this.2 ⟨[], ws, rfl, .nil, ho⟩
    have hg : ∀ u, GivenOpt u ws → GivenOpt u (w :: ws) := by
      rintro u ⟨a, b, rfl, h1, h2⟩
      exact ⟨w :: a, b, rfl, .flag w a hw ⟨f, hf, hw'⟩ h1, h2⟩
    rw [ih (fun f hf he => ⟨fun h => (hn f hf he).1 (hg _ h), fun h => (hn f hf he).2 (hg _ h)⟩) _ hp, val_assignAll_leaves hl]
  | file w f ws hw hf ho ih =>
    rw [parse_file hw hf] at hp
    have hg : ∀ u, GivenOpt u ws → GivenOpt u (w :: f :: ws) := by
      rintro u ⟨a, b, rfl, h1, h2⟩
      exact ⟨w :: f :: a, b, rfl, .file w f a hw hf h1, h2⟩
    rw [ih (fun f hf he => ⟨fun h => (hn f hf he).1 (hg _ h), fun h => (hn f hf he).2 (hg _ h)⟩) _ hp, val_mset, if_neg (Ne.symm hc)]

theorem start_go {env : ShVars} {conf : Str → Option (List (Str × Str))} {args : List Str} {r : ShVars × PkMode} (h : pkgmkStart env conf args = .inr r) :
    ∃ vs as, parseOpts (assignAll pkgmkDefaults env) args = .go vs ∧ conf (vs.val "PKGMK_CONFFILE".toList) = some as ∧ r = (assignAll as vs, pkgmkMode (assignAll as vs)) := by
  unfold pkgmkStart at h
  split at h
  · cases h
  · next vs hv =>
    split at h
    · cases h
    · next as ha => exact ⟨vs, as, hv, ha, (Sum.inr.inj h).symm⟩

/-- The configuration file used, whichever it is, leaves the variable alone. -/
def ConfLeaves (conf : Str → Option (List (Str × Str))) (x : Str) : Prop := ∀ f as, conf f = some as → Leaves as x

/-- **C154**: an option has its effect wherever it stands among the others, short or long - if the configuration file leaves its variable alone. -/
theorem C154_effect_partial (env : ShVars) (conf : Str → Option (List (Str × Str))) (args : List Str) (vs : ShVars) (m : PkMode) (h : pkgmkStart env conf args = .inr (vs, m))
    (f : Str × Str × List (Str × Str)) (hf : f ∈ pkgmkFlags) (hg : GivenOpt f.1 args ∨ GivenOpt f.2.1 args) (x v : Str) (hx : (x, v) ∈ f.2.2)
    (hi : x ≠ "PKGMK_INSTALL".toList) (hc : ConfLeaves conf x) : vs.val x = v := by
  obtain ⟨vs0, as, hp, hconf, e⟩ := start_go h
  have hv : v = yes := table_yes f hf _ hx hi
  have hcf : x ≠ "PKGMK_CONFFILE".toList := table_conf f hf _ hx
  have key : ∀ w, flagOf w = some f.2.2 → GivenOpt w args → vs0.val x = v := by
    rintro w hw ⟨a, b, rfl, ha, hb⟩
    obtain ⟨vs1, -, h2⟩ := parse_append ha (assignAll pkgmkDefaults env) (w :: b)
    rw [h2, parse_flag hw] at hp
    rw [hv]
    exact parse_yes hb hi hcf _ _ (val_assignAll_const (fun a ha e => table_yes f hf a ha (by rw [e]; exact hi)) vs1 (.inr ⟨_, hx, rfl⟩)) hp
  have : vs0.val x = v := by
    rcases hg with hg | hg
    · exact key _ (flagOf_table f hf).1 hg
    · exact key _ (flagOf_table f hf).2 hg
  cases e
  rw [val_assignAll_leaves (hc _ _ hconf), this]

/-- **C154, the other way**: without an option for it, a variable has the value the script starts with, and for the variables the script does not set, the one
of the environment - if the configuration file leaves it alone. -/
theorem C154_no_effect_partial (env : ShVars) (conf : Str → Option (List (Str × Str))) (args : List Str) (ho : Opts args) (vs : ShVars) (m : PkMode)
    (h : pkgmkStart env conf args = .inr (vs, m)) (x : Str) (hx : x ≠ "PKGMK_CONFFILE".toList)
    (hn : ∀ f ∈ pkgmkFlags, (∃ e ∈ f.2.2, e.1 = x) → ¬ GivenOpt f.1 args ∧ ¬ GivenOpt f.2.1 args) (hc : ConfLeaves conf x) :
    vs.val x = (mget pkgmkDefaults x).getD (env.val x) := by
  obtain ⟨vs0, as, hp, hconf, e⟩ := start_go h
  cases e
  rw [val_assignAll_leaves (hc _ _ hconf), parse_leaves ho hx hn _ _ hp]
  have nd : (pkgmkDefaults.map (·.1)).Nodup := by decide +kernel
  cases hm : mget pkgmkDefaults x with
  | none =>
    rw [val_assignAll_leaves]
    · rfl
    · intro a ha e
      exact (mget_none_iff.mp hm) (by rw [← e]; exact List.mem_map.mpr ⟨a, ha, rfl⟩)
  | some v =>
    refine val_assignAll_const ?_ env (.inr ⟨_, mget_some_mem hm, rfl⟩)
    intro a ha e
    have h1 := mget_some_mem hm
    have := uniq_of_nodup (·.1) _ nd a ha _ h1 e
    rw [this]; rfl

theorem install_flags : ∀ f ∈ pkgmkFlags, (∃ e ∈ f.2.2, e.1 = "PKGMK_INSTALL".toList) →
    f.1 ∈ ["-i".toList, "--install".toList, "-u".toList, "--upgrade".toList] ∧ f.2.1 ∈ ["-i".toList, "--install".toList, "-u".toList, "--upgrade".toList] := by
  decide +kernel

theorem install_ne_conf : "PKGMK_INSTALL".toList ≠ "PKGMK_CONFFILE".toList := by decide

theorem install_table : flagOf "-i".toList = some [("PKGMK_INSTALL".toList, "install".toList)] ∧ flagOf "--install".toList = some [("PKGMK_INSTALL".toList, "install".toList)] ∧
    flagOf "-u".toList = some [("PKGMK_INSTALL".toList, "upgrade".toList)] ∧ flagOf "--upgrade".toList = some [("PKGMK_INSTALL".toList, "upgrade".toList)] := by decide +kernel

/-- To install or to upgrade: the last one said counts. -/
theorem C154_last_install_partial (env : ShVars) (conf : Str → Option (List (Str × Str))) (a b : List Str) (w v : Str) (ha : Opts a) (hb : Opts b)
    (hw : ((w = "-i".toList ∨ w = "--install".toList) ∧ v = "install".toList) ∨ ((w = "-u".toList ∨ w = "--upgrade".toList) ∧ v = "upgrade".toList))
    (hlast : ∀ u ∈ ["-i".toList, "--install".toList, "-u".toList, "--upgrade".toList], ¬ GivenOpt u b)
    (vs : ShVars) (m : PkMode) (h : pkgmkStart env conf (a ++ w :: b) = .inr (vs, m)) (hc : ConfLeaves conf "PKGMK_INSTALL".toList) :
    vs.val "PKGMK_INSTALL".toList = v := by
  obtain ⟨vs0, as, hp, hconf, e⟩ := start_go h
  cases e
  rw [val_assignAll_leaves (hc _ _ hconf)]
  obtain ⟨vs1, -, h2⟩ := parse_append ha (assignAll pkgmkDefaults env) (w :: b)
  have hfw : flagOf w = some [("PKGMK_INSTALL".toList, v)] := by
    rcases hw with ⟨h | h, h'⟩ | ⟨h | h, h'⟩ <;> rewrite [h, h']
    · exact install_table.1
    · exact install_table.2.1
    · exact install_table.2.2.1
    · exact install_table.2.2.2
  rw [h2, parse_flag hfw] at hp
  rw [parse_leaves hb install_ne_conf (fun f hf he => ⟨hlast _ (install_flags f hf he).1, hlast _ (install_flags f hf he).2⟩) _ _ hp]
  exact val_assign_one _ _ _

/-! ### What is to be done -/

/-- The options that say what is to be done instead of a build, and what they ask for, in the order in which `main` looks for them. -/
def onlyOptions : List (Str × Str × PkMode) := [
  ("-r".toList, "--recursive".toList, .recursive), ("-sv".toList, "--show-version-only".toList, .showVersion), ("-co".toList, "--clean-only".toList, .clean),
  ("-ur".toList, "--update-repo".toList, .updateRepo), ("-uf".toList, "--update-footprint".toList, .updateFootprint),
  ("-cs".toList, "--check-syntax".toList, .checkSyntax), ("-do".toList, "--download-only".toList, .downloadOnly),
  ("-eo".toList, "--extract-only".toList, .extractOnly), ("-utd".toList, "--up-to-date".toList, .upToDate)]

/-- The variables of the modes. -/
def modeVars : List (Str × PkMode) := [
  ("PKGMK_RECURSIVE".toList, .recursive), ("PKGMK_SHOW_VERSION".toList, .showVersion), ("PKGMK_CLEAN_ONLY".toList, .clean), ("PKGMK_UPDATE_REPO".toList, .updateRepo),
  ("PKGMK_UPDATE_FOOTPRINT".toList, .updateFootprint), ("PKGMK_CHECK_SYNTAX".toList, .checkSyntax), ("PKGMK_DOWNLOAD_ONLY".toList, .downloadOnly),
  ("PKGMK_EXTRACT_ONLY".toList, .extractOnly), ("PKGMK_UP_TO_DATE".toList, .upToDate)]

theorem mode_eq (vs : ShVars) : pkgmkMode vs = ((modeVars.find? (fun e => vs.val e.1 = yes)).map (·.2)).getD .build := by
  unfold pkgmkMode modeVars
  simp only [List.find?_cons, List.find?_nil]
  repeat' split
  all_goals simp_all

theorem only_flag : ∀ o ∈ onlyOptions, ∃ e ∈ modeVars, e.2 = o.2.2 ∧ ∃ f ∈ pkgmkFlags, f.1 = o.1 ∧ f.2.1 = o.2.1 ∧ (e.1, yes) ∈ f.2.2 := by decide +kernel

theorem mode_install : ∀ e ∈ modeVars, e.1 ≠ "PKGMK_INSTALL".toList ∧ e.1 ≠ "PKGMK_CONFFILE".toList := by decide +kernel

/-- **C155**: with one of these options, wherever it stands, nothing is built; what is done is what that option asks for, or what one before it in the list asks for
- if the configuration file leaves these variables alone. -/
theorem C155_only_partial (env : ShVars) (conf : Str → Option (List (Str × Str))) (args : List Str) (vs : ShVars) (m : PkMode) (h : pkgmkStart env conf args = .inr (vs, m))
    (A : List (Str × Str × PkMode)) (o : Str × Str × PkMode) (B : List (Str × Str × PkMode)) (hl : onlyOptions = A ++ o :: B)
    (hg : GivenOpt o.1 args ∨ GivenOpt o.2.1 args) (hc : ∀ e ∈ modeVars, ConfLeaves conf e.1) : m ≠ .build ∧ (m = o.2.2 ∨ m ∈ A.map (·.2.2)) := by
  have ho : o ∈ onlyOptions := by rw [hl]; simp
  obtain ⟨e, he, hm, f, hf, h1, h2, h3⟩ := only_flag o ho
  have hv := C154_effect_partial env conf args vs m h f hf (by rw [h1, h2]; exact hg) e.1 yes h3 (mode_install e he).1 (hc e he)
  have hmode : m = pkgmkMode vs := by
    obtain ⟨_, _, _, _, e'⟩ := start_go h
    cases e'; rfl
  rw [mode_eq] at hmode
  -- the first variable that says yes
  cases hfind : modeVars.find? (fun e => vs.val e.1 = yes) with
  | none =>
    have := List.find?_eq_none.mp hfind e he
    simp [hv] at this
  | some g =>
    rw [hfind, Option.map_some, Option.getD_some] at hmode
    have hgm := List.mem_of_find?_eq_some hfind
    constructor
    · have : ∀ e ∈ modeVars, e.2 ≠ .build := by decide
      rw [hmode]; exact this g hgm
    · -- `g` is `e` or stands before it
      obtain ⟨P, Q, hPQ, hP⟩ := (List.find?_eq_some_iff_append.mp hfind).2
      have hmap : modeVars.map (·.2) = onlyOptions.map (·.2.2) := by decide
      have hnd : (onlyOptions.map (·.2.2)).Nodup := by decide
      rw [hmode]
      have hsplit : P.map (·.2) ++ g.2 :: Q.map (·.2) = A.map (·.2.2) ++ o.2.2 :: B.map (·.2.2) := by
        have := hmap
        rw [hPQ, hl] at this
        simpa using this
      by_cases hgo : g.2 = o.2.2
      · exact .inl hgo
      · right
        have hmem : g.2 ∈ A.map (·.2.2) ++ o.2.2 :: B.map (·.2.2) := by rw [← hsplit]; simp
        rcases List.mem_append.mp hmem with hA | hB
        · exact hA
        · exfalso
          have hB : g.2 ∈ B.map (·.2.2) := by
            rcases List.mem_cons.mp hB with hB | hB
            · exact absurd hB hgo
            · exact hB
          -- then `o` stands before `g`, in P
          have hoP : o.2.2 ∈ P.map (·.2) := by
            obtain ⟨B1, B2, hB12⟩ := List.append_of_mem hB
            have hlist : P.map (·.2) ++ g.2 :: Q.map (·.2) = (A.map (·.2.2) ++ o.2.2 :: B1) ++ g.2 :: B2 := by
              rw [hsplit, hB12]; simp
            have hnd2 : ((A.map (·.2.2) ++ o.2.2 :: B1) ++ g.2 :: B2).Nodup := by
              have : onlyOptions.map (·.2.2) = (A.map (·.2.2) ++ o.2.2 :: B1) ++ g.2 :: B2 := by
                rw [hl, List.map_append, List.map_cons, hB12]; simp
              rw [← this]; exact hnd
            have : P.map (·.2) = A.map (·.2.2) ++ o.2.2 :: B1 := by
              have hg1 : g.2 ∉ P.map (·.2) := by
                rw [← hlist] at hnd2
                have := (List.nodup_append.mp hnd2).2.2
                intro hc
                exact this g.2 hc g.2 (List.mem_cons_self ..) rfl
              have hg2 : g.2 ∉ A.map (·.2.2) ++ o.2.2 :: B1 := by
                have := (List.nodup_append.mp hnd2).2.2
                intro hc
                exact this g.2 hc g.2 (List.mem_cons_self ..) rfl
              have cut : ∀ (P P' Q Q' : List PkMode) (g : PkMode), g ∉ P → g ∉ P' → P ++ g :: Q = P' ++ g :: Q' → P = P' := by
                intro P
                induction P with
                | nil =>
                  intro P' Q Q' g _ h' e
                  cases P' with
                  | nil => rfl
                  | cons p P' => simp at e; exact absurd (by simp [e.1]) h'
                | cons p P ih =>
                  intro P' Q Q' g h h' e
                  cases P' with
                  | nil => simp at e; exact absurd (by simp [e.1]) h
                  | cons p' P' =>
                    simp at e h h'
                    rw [e.1, ih P' Q Q' g h.2 h'.2 e.2]
              exact cut _ _ _ _ _ hg1 hg2 hlist
            rw [this]; simp
          obtain ⟨e', he', hee⟩ := List.mem_map.mp hoP
          have hne := hP e' he'
          have : e' = e := by
            have hnd3 : (modeVars.map (·.2)).Nodup := by rw [hmap]; exact hnd
            have h1 : e' ∈ modeVars := by rw [hPQ]; simp [he']
            exact uniq_of_nodup (·.2) _ hnd3 _ h1 _ he (by rw [hee, hm])
          rw [this] at hne
          simp [hv] at hne

/-- **C155, the other way**: a run that was not asked for one of these things builds - if neither the configuration file nor the environment of the caller says so. -/
theorem C155_builds_partial (env : ShVars) (conf : Str → Option (List (Str × Str))) (args : List Str) (hopt : Opts args) (vs : ShVars) (m : PkMode)
    (h : pkgmkStart env conf args = .inr (vs, m)) (hg : ∀ o ∈ onlyOptions, ¬ GivenOpt o.1 args ∧ ¬ GivenOpt o.2.1 args)
    (hc : ∀ e ∈ modeVars, ConfLeaves conf e.1) (henv : ∀ e ∈ modeVars, env.val e.1 ≠ yes) : m = .build := by
  have hmode : m = pkgmkMode vs := by
    obtain ⟨_, _, _, _, e'⟩ := start_go h
    cases e'; rfl
  have htab : ∀ e ∈ modeVars, ∀ f ∈ pkgmkFlags, (∃ a ∈ f.2.2, a.1 = e.1) → ∃ o ∈ onlyOptions, o.1 = f.1 ∧ o.2.1 = f.2.1 := by decide +kernel
  have hdef : ∀ e ∈ modeVars, mget pkgmkDefaults e.1 ≠ some yes := by decide +kernel
  rw [hmode, mode_eq, List.find?_eq_none.mpr]
  · rfl
  · intro e he
    have := C154_no_effect_partial env conf args hopt vs m h e.1 (mode_install e he).2 (fun f hf hx => by
      obtain ⟨o, ho, h1, h2⟩ := htab e he f hf hx
      rw [← h1, ← h2]; exact hg o ho) (hc e he)
    rw [this]
    cases hd : mget pkgmkDefaults e.1 with
    | none => simpa using henv e he
    | some v =>
      have := hdef e he
      rw [hd] at this
      simpa using this

/-! ### The recursive call -/

theorem sedAway_none (pat s : Str) (h : ¬ pat <:+: s) : sedAway pat 0 s = s := by
  induction s with
  | nil => rfl
  | cons c s ih =>
    unfold sedAway
    rw [if_neg (fun e => h (List.IsPrefix.isInfix (List.isPrefixOf_iff_prefix.mp e))), ih (fun e => h (e.trans ⟨[c], [], by simp⟩))]

theorem sedAway_skip (pat : Str) (a b : Str) : sedAway pat a.length (a ++ b) = sedAway pat 0 b := by
  induction a with
  | nil => rfl
  | cons c a ih => rw [List.length_cons, List.cons_append]; exact ih

theorem sedAway_self (c : Char) (p : Str) : sedAway (c :: p) 0 (c :: p) = [] := by
  unfold sedAway
  rw [if_pos (List.isPrefixOf_iff_prefix.mpr (List.prefix_refl _))]
  have := sedAway_skip (c :: p) p []
  rw [List.append_nil] at this
  rw [show (c :: p).length - 1 = p.length by simp, this]
  rfl

/-- A pattern without space does not reach over a space. -/
theorem sedAway_space (c : Char) (p : Str) (hp : ' ' ∉ c :: p) (n : Nat) (w r : Str) (hw : ' ' ∉ w) (hn : n ≤ w.length) :
    sedAway (c :: p) n (w ++ ' ' :: r) = sedAway (c :: p) n w ++ ' ' :: sedAway (c :: p) 0 r := by
  induction w generalizing n with
  | nil =>
    have : n = 0 := by simpa using hn
    subst this
    rw [List.nil_append]
    conv => lhs; unfold sedAway
    rw [if_neg]
    · rfl
    · intro e
      have := List.isPrefixOf_iff_prefix.mp e
      obtain ⟨t, ht⟩ := this
      simp at ht
      exact hp (by simp [ht.1])
  | cons x w ih =>
    rw [List.cons_append]
    cases n with
    | succ n =>
      show sedAway (c :: p) n (w ++ ' ' :: r) = sedAway (c :: p) n w ++ ' ' :: sedAway (c :: p) 0 r
      exact ih n (fun h => hw (List.mem_cons_of_mem _ h)) (by simpa using hn)
    | zero =>
      have hw' : ' ' ∉ w := fun h => hw (List.mem_cons_of_mem _ h)
      show (if (c :: p).isPrefixOf (x :: (w ++ ' ' :: r)) then sedAway (c :: p) ((c :: p).length - 1) (w ++ ' ' :: r) else x :: sedAway (c :: p) 0 (w ++ ' ' :: r)) =
        (if (c :: p).isPrefixOf (x :: w) then sedAway (c :: p) ((c :: p).length - 1) w else x :: sedAway (c :: p) 0 w) ++ ' ' :: sedAway (c :: p) 0 r
      have hpre : (c :: p).isPrefixOf (x :: (w ++ ' ' :: r)) = (c :: p).isPrefixOf (x :: w) := by
        rw [Bool.eq_iff_iff, List.isPrefixOf_iff_prefix, List.isPrefixOf_iff_prefix]
        constructor
        · intro h
          have h2 : (x :: w) <+: (x :: (w ++ ' ' :: r)) := ⟨' ' :: r, by simp⟩
          rcases List.prefix_or_prefix_of_prefix h h2 with h3 | h3
          · exact h3
          · obtain ⟨t, ht⟩ := h3
            cases t with
            | nil => rw [List.append_nil] at ht; rw [ht]; exact List.prefix_refl _
            | cons y t =>
              obtain ⟨u, hu⟩ := h
              rw [← ht] at hu
              simp at hu
              exact absurd (by rw [← ht]; simp [hu.1]) hp
        · rintro ⟨t, ht⟩
          exact ⟨t ++ ' ' :: r, by rw [← List.append_assoc, ht]; simp⟩
      rw [hpre]
      split
      · next hpx =>
        refine ih _ hw' ?_
        have := (List.isPrefixOf_iff_prefix.mp hpx).length_le
        simp at this ⊢
        exact this
      · rw [ih 0 hw' (Nat.zero_le _), List.cons_append]

theorem sedAway_words (c : Char) (p : Str) (hp : ' ' ∉ c :: p) (ws : List Str) (h : ∀ w ∈ ws, ' ' ∉ w) :
    sedAway (c :: p) 0 (echoWords ws) = echoWords (ws.map (sedAway (c :: p) 0)) := by
  induction ws with
  | nil => rfl
  | cons w ws ih =>
    cases ws with
    | nil => rfl
    | cons v ws =>
      rw [List.map_cons, List.map_cons]
      unfold echoWords
      rw [sedAway_space c p hp 0 w _ (h w (List.mem_cons_self ..)) (Nat.zero_le _), ih (fun w hw => h w (List.mem_cons_of_mem _ hw)), List.map_cons]

theorem cutSpaces_word (w : Str) (h : ' ' ∉ w) : cutSpaces w = [w] := by
  induction w with
  | nil => rfl
  | cons c w ih =>
    unfold cutSpaces
    rw [if_neg (by rintro rfl; exact h (List.mem_cons_self ..)), ih (fun e => h (List.mem_cons_of_mem _ e))]

theorem cutSpaces_space_word (w r : Str) (h : ' ' ∉ w) : cutSpaces (w ++ ' ' :: r) = w :: cutSpaces r := by
  induction w with
  | nil => rw [List.nil_append]; conv => lhs; unfold cutSpaces
           rw [if_pos rfl]
  | cons c w ih =>
    rw [List.cons_append]
    conv => lhs; unfold cutSpaces
    rw [if_neg (by rintro rfl; exact h (List.mem_cons_self ..)), ih (fun e => h (List.mem_cons_of_mem _ e))]

theorem shWords_echo (ws : List Str) (h : ∀ w ∈ ws, ' ' ∉ w) : shWords (echoWords ws) = ws.filter (fun w => w ≠ []) := by
  unfold shWords
  induction ws with
  | nil => rfl
  | cons w ws ih =>
    cases ws with
    | nil => unfold echoWords; rw [cutSpaces_word w (h w (List.mem_cons_self ..))]
    | cons v ws =>
      unfold echoWords
      rw [cutSpaces_space_word w _ (h w (List.mem_cons_self ..)), List.filter_cons, ih (fun w hw => h w (List.mem_cons_of_mem _ hw)), List.filter_cons (xs := v :: ws)]

/-- The two substitutions, for any two patterns `L` and `R`. -/
theorem sed_twice (L R : Str) (c d : Char) (p q : Str) (hL : L = c :: p) (hR : R = d :: q) (hLs : ' ' ∉ L) (hRs : ' ' ∉ R) (hRL : R <:+: L) (hLR : ¬ L <:+: R) (args : List Str)
    (h : ∀ w ∈ args, w ≠ [] ∧ ' ' ∉ w ∧ (w = R ∨ w = L ∨ ¬ R <:+: w)) :
    shWords (sedAway R 0 (sedAway L 0 (echoWords args))) = args.filter (fun w => w ≠ R ∧ w ≠ L) := by
  subst hL hR
  have h1 : ∀ w ∈ args, sedAway (c :: p) 0 w = if w = c :: p then [] else w := by
    intro w hw
    split
    · next e => rw [e]; exact sedAway_self c p
    · next e =>
      rcases (h w hw).2.2 with h1 | h1 | h1
      · rw [h1]; exact sedAway_none _ _ hLR
      · exact absurd h1 e
      · exact sedAway_none _ _ (fun hi => h1 (hRL.trans hi))
  have h2 : ∀ w ∈ args, sedAway (d :: q) 0 (sedAway (c :: p) 0 w) = if w = d :: q ∨ w = c :: p then [] else w := by
    intro w hw
    rw [h1 w hw]
    by_cases e : w = c :: p
    · rw [if_pos e, if_pos (.inr e)]; rfl
    · rw [if_neg e]
      by_cases e' : w = d :: q
      · rw [if_pos (.inl e'), e']; exact sedAway_self d q
      · rw [if_neg (not_or.mpr ⟨e', e⟩)]
        rcases (h w hw).2.2 with h1 | h1 | h1
        · exact absurd h1 e'
        · exact absurd h1 e
        · exact sedAway_none _ _ h1
  have hsp : ∀ w ∈ args.map (sedAway (c :: p) 0), ' ' ∉ w := by
    intro w hw
    obtain ⟨u, hu, rfl⟩ := List.mem_map.mp hw
    rw [h1 u hu]
    split
    · simp
    · exact (h u hu).2.1
  have hsp2 : ∀ w ∈ args.map (fun w => if w = d :: q ∨ w = c :: p then ([] : Str) else w), ' ' ∉ w := by
    intro w hw
    obtain ⟨u, hu, rfl⟩ := List.mem_map.mp hw
    split
    · simp
    · exact (h u hu).2.1
  rw [sedAway_words c p hLs args (fun w hw => (h w hw).2.1), sedAway_words d q hRs _ hsp, List.map_map,
    show args.map (sedAway (d :: q) 0 ∘ sedAway (c :: p) 0) = args.map (fun w => if w = d :: q ∨ w = c :: p then ([] : Str) else w) from
      List.map_congr_left (fun w hw => h2 w hw), shWords_echo _ hsp2]
  have hne : ∀ w ∈ args, w ≠ [] := fun w hw => (h w hw).1
  clear h h1 h2 hsp hsp2 hLs hRs hRL hLR
  generalize c :: p = l
  generalize d :: q = r
  induction args with
  | nil => rfl
  | cons w ws ih =>
    have := ih (fun w hw => hne w (List.mem_cons_of_mem _ hw))
    have hw := hne w (List.mem_cons_self ..)
    rw [List.map_cons]
    by_cases e : w = r ∨ w = l
    · rw [if_pos e, List.filter_cons, List.filter_cons, this, if_neg (by simp), if_neg (by rcases e with e | e <;> simp [e])]
    · rw [if_neg e, List.filter_cons, List.filter_cons, this, if_pos (by simpa using hw), if_pos (by simpa [not_or] using e)]

theorem recLong : "--recursive".toList = ['-', '-', 'r', 'e', 'c', 'u', 'r', 's', 'i', 'v', 'e'] := by decide
theorem recShort : "-r".toList = ['-', 'r'] := by decide

/-- **C156**: the calls in the ports get the same words without the two for the recursion - if no other word holds "-r" and none has spaces in it. -/
theorem C156_same_options_partial (args : List Str) (h : ∀ w ∈ args, w ≠ [] ∧ ' ' ∉ w ∧ (w = "-r".toList ∨ w = "--recursive".toList ∨ ¬ "-r".toList <:+: w)) :
    recursiveArgs args = args.filter (fun w => w ≠ "-r".toList ∧ w ≠ "--recursive".toList) := by
  unfold recursiveArgs
  rewrite [recLong, recShort]
  rewrite [recLong, recShort] at h
  exact sed_twice ['-', '-', 'r', 'e', 'c', 'u', 'r', 's', 'i', 'v', 'e'] ['-', 'r'] '-' '-' ['-', 'r', 'e', 'c', 'u', 'r', 's', 'i', 'v', 'e'] ['r'] rfl rfl (by decide) (by decide) (by decide)
    (by decide) args h

/-! ### Cases -/

def noConf : Str → Option (List (Str × Str)) := fun _ => some []

/-- What a run does, if it does not end at once. -/
def modeOf : Sum Nat (ShVars × PkMode) → Option PkMode
  | .inr r => some r.2
  | .inl _ => none

/-- The value of a variable in a run that does not end at once. -/
def valOf (x : Str) : Sum Nat (ShVars × PkMode) → Option Str
  | .inr r => some (r.1.val x)
  | .inl _ => none

theorem opts_flags (ws : List Str) (h : ∀ w ∈ ws, w ≠ [] ∧ ∃ f ∈ pkgmkFlags, w = f.1 ∨ w = f.2.1) : Opts ws := by
  induction ws with
  | nil => exact .nil
  | cons w ws ih => exact .flag w ws (h w (List.mem_cons_self ..)).1 (h w (List.mem_cons_self ..)).2 (ih (fun w hw => h w (List.mem_cons_of_mem _ hw)))

/-- The hypotheses are met. -/
example : GivenOpt "-cs".toList ["-q".toList, "-cs".toList, "--force".toList] ∧
    modeOf (pkgmkStart [] noConf ["-q".toList, "-cs".toList, "--force".toList]) = some .checkSyntax :=
  ⟨⟨["-q".toList], ["--force".toList], rfl, opts_flags _ (by decide +kernel), opts_flags _ (by decide +kernel)⟩, by decide +kernel⟩

example : Opts ["-q".toList, "-cf".toList, "my.conf".toList, "-d".toList] :=
  .flag _ _ (by decide) (by decide +kernel) (.file _ _ _ (.inl rfl) (by decide) (opts_flags _ (by decide +kernel)))

example : recursiveArgs ["-r".toList, "-d".toList, "-ir".toList, "--force".toList] = ["-d".toList, "-ir".toList, "--force".toList] := by decide +kernel

/-- **C154 fails**: the configuration file is read after the options, so it wins: with `PKGMK_DOWNLOAD="no"` in it `-d` is without effect. -/
theorem C154_conf_counterexample :
    valOf "PKGMK_DOWNLOAD".toList (pkgmkStart [] (fun _ => some [("PKGMK_DOWNLOAD".toList, "no".toList)]) ["-d".toList]) = some "no".toList := by decide +kernel

/-- **C154 fails**: the help names `-cv`; the script refuses it, and knows `-sv`, which the help does not name. -/
theorem C154_help_counterexample (env : ShVars) (conf : Str → Option (List (Str × Str))) : pkgmkStart env conf ["-cv".toList] = .inl 1 := by
  unfold pkgmkStart
  have : ∀ vs, parseOpts vs ["-cv".toList] = .quit 1 := by
    intro vs
    have hn : flagOf "-cv".toList = none := by decide +kernel
    unfold parseOpts
    rw [if_neg (by decide), hn]
    dsimp only
    rw [if_neg (by decide), if_neg (by decide), if_neg (by decide)]
  rw [this]

/-- **C154 fails**: new files are ignored with and without `-in`: the variable is yes from the start. -/
theorem C154_ignore_new_counterexample :
    pkgmkStart [] noConf [] = pkgmkStart [] noConf ["-in".toList] ∧ valOf "PKGMK_IGNORE_NEW".toList (pkgmkStart [] noConf []) = some yes := by decide +kernel

/-- **C155 fails**: three of these variables are not set by the script but taken from the environment: a plain `pkgmk` removes the packages and the sources then. -/
theorem C155_environment_counterexample :
    modeOf (pkgmkStart [("PKGMK_CLEAN_ONLY".toList, yes)] noConf []) = some .clean := by decide +kernel

/-- **C155 fails**: after an empty word nothing is read any more: the port is built. -/
theorem C155_empty_word_counterexample :
    modeOf (pkgmkStart [] noConf ["".toList, "-cs".toList]) = some .build := by decide +kernel

/-- **C156 fails**: "-r" is also taken out of the middle of words: `--ignore-repo` and `--update-repo` arrive as words that every call refuses (and the status of
the recursive run is 0 all the same, /repo/scripts/pkgmk.in:1392-1395); a configuration file is looked for under another name. -/
theorem C156_repo_counterexample : recursiveArgs ["-r".toList, "--ignore-repo".toList] = ["--ignoreepo".toList] ∧
    pkgmkStart [] noConf ["--ignoreepo".toList] = .inl 1 ∧
    recursiveArgs ["--recursive".toList, "-cf".toList, "/etc/my-ref.conf".toList] = ["-cf".toList, "/etc/myef.conf".toList] := by decide +kernel

/-- **C156 fails**: a name with a space comes apart. -/
theorem C156_space_counterexample : recursiveArgs ["-r".toList, "-cf".toList, "my conf".toList] = ["-cf".toList, "my".toList, "conf".toList] := by decide +kernel

end Cards.Props
