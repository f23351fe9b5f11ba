import Verif.Model.Root
import Verif.Props.Inside
import Mathlib.Tactic.Common
/-!
# C62: `--root`
-/
namespace Cards.Props
open Cards

/-- The command works on the directory `d` (a list of components): it reads, writes and locks the database below `d`, and its files are looked for and
extracted below `d`, whatever the working directory. -/
structure WorksOn (cwd : List Str) (root : Str) (d : List Str) : Prop where
  reads : readDb cwd root = d ++ ["var".toList, "lib".toList, "pkg".toList, "DB".toList]
  writes : writeDb cwd root = d ++ ["var".toList, "lib".toList, "pkg".toList, "DB".toList]
  locks : resolvePath cwd (lockPath root) = d ++ ["var".toList, "lib".toList, "pkg".toList, "DB".toList]
  files : ∀ f, filePath cwd root f = d ++ comps f
  extracts : ∀ f, extractTo cwd root f = d ++ comps f

theorem comps_pkgDb : comps pkgDbDir = ["var".toList, "lib".toList, "pkg".toList, "DB".toList] := by decide

theorem head_append {v : Str} (h : v.head? = some '/') (r : Str) : (v ++ r).head? = some '/' := by
  cases v with
  | nil => simp at h
  | cons c v => simpa using h

theorem worksOn_absolute (cwd : List Str) (v : Str) (h : v = [] ∨ v.head? = some '/') : WorksOn cwd (v ++ "/".toList) (comps v) := by
  have hh : ∀ r, ((v ++ "/".toList) ++ r).head? = some '/' := by
    intro r
    rcases h with rfl | h
    · rfl
    · exact head_append (head_append h _) _
  have hc : ∀ r, comps ((v ++ "/".toList) ++ r) = comps v ++ comps r := by
    intro r
    rw [List.append_assoc]
    exact splitSlash_append v r
  have hres : ∀ c r, resolvePath c ((v ++ "/".toList) ++ r) = comps v ++ comps r := by
    intro c r
    unfold resolvePath
    rw [if_pos (hh r), hc]
  have hi : installCwd cwd (v ++ "/".toList) = comps v := by
    have := hres cwd []
    rw [List.append_nil] at this
    unfold installCwd
    rw [this]
    simp [comps, splitSlash]
  refine ⟨?_, ?_, ?_, ?_, ?_⟩
  · unfold readDb; rw [hres, comps_pkgDb]
  · unfold writeDb; rw [hres, comps_pkgDb]
  · unfold lockPath
    rw [List.append_assoc, hres]
    congr 1
  · intro f; exact hres cwd f
  · intro f; unfold extractTo; rw [hi]

/-- **C62.** `pkgadd`, `pkgrm`, `pkginfo`, `cards install` and `cards remove` with the absolute name `v` of a directory as root, or without the option,
work on that directory (on `/`), whatever the working directory. -/
theorem C62_root_partial (cwd : List Str) (v : Str) (h : v.head? = some '/') :
    WorksOn cwd (toolRoot [v]) (comps v) ∧ WorksOn cwd (cardsRoot (some v)) (comps v) ∧
    WorksOn cwd (toolRoot []) [] ∧ WorksOn cwd (cardsRoot none) [] ∧ WorksOn cwd (upgradeRoot none) [] :=
  ⟨worksOn_absolute cwd v (.inr h), worksOn_absolute cwd v (.inr h), worksOn_absolute cwd [] (.inl rfl), worksOn_absolute cwd [] (.inl rfl),
    worksOn_absolute cwd [] (.inl rfl)⟩

/-- Several options `-r` are nested, the last one outermost. -/
theorem C62_nested (cwd : List Str) (v w : Str) (h : w.head? = some '/') : WorksOn cwd (toolRoot [v, w]) (comps (w ++ v)) := by
  have := worksOn_absolute cwd (w ++ v) (.inr (head_append h v))
  rw [List.append_assoc] at this
  exact this

/-- **C62 fails for `cards upgrade --root`**, for every absolute directory spelled without trailing slash: the database read is not the one below the
directory (which is the one that is locked). -/
theorem C62_upgrade_counterexample (cwd : List Str) (v : Str) (h : v.head? = some '/') (hl : v.getLast? ≠ some '/') :
    readDb cwd (upgradeRoot (some v)) ≠ comps v ++ ["var".toList, "lib".toList, "pkg".toList, "DB".toList] ∧
    resolvePath cwd (lockPath (upgradeRoot (some v))) = comps v ++ ["var".toList, "lib".toList, "pkg".toList, "DB".toList] := by
  have hm : '/' ∈ v.reverse := by
    cases v with
    | nil => simp at h
    | cons c v => simp at h; simp [h]
  obtain ⟨as, bs, e, ha⟩ := List.eq_append_cons_of_mem hm
  have hv : v = bs.reverse ++ '/' :: as.reverse := by
    have := congrArg List.reverse e
    simpa using this
  have hb : as.reverse ≠ [] ∧ '/' ∉ as.reverse := by
    refine ⟨?_, by simpa using ha⟩
    intro e'
    rw [hv, e'] at hl
    simp at hl
  constructor
  · unfold readDb resolvePath upgradeRoot
    simp only
    rw [if_pos (head_append h _)]
    generalize hbd : as.reverse = b at *
    have h1 : comps (v ++ pkgDbDir) = comps bs.reverse ++ comps (b ++ pkgDbDir) := by
      rw [hv, List.append_assoc]
      exact splitSlash_append _ _
    have h2 : comps v = comps bs.reverse ++ [b] := by
      rw [hv, splitSlash_append, comps_single hb]
    have h3 : comps (b ++ pkgDbDir) = (b ++ "var".toList) :: comps ("lib/pkg/DB/".toList) := by
      have : b ++ pkgDbDir = (b ++ "var".toList) ++ '/' :: "lib/pkg/DB/".toList := by rw [List.append_assoc]; rfl
      rw [this]
      exact comps_append ⟨by simp, by simpa using hb.2⟩ _
    rw [h1, h2, h3, List.append_assoc]
    intro e'
    have := List.append_cancel_left e'
    simp at this
  · unfold lockPath upgradeRoot resolvePath
    simp only
    rw [List.append_assoc, if_pos (head_append h _)]
    show comps (v ++ '/' :: pkgDbDir) = _
    rw [splitSlash_append, comps_pkgDb]

/-- **C62 fails for `cards create --root`**: the option is ignored, the command removes and installs packages in `/`. -/
theorem C62_create_counterexample (cwd : List Str) (v : Str) : WorksOn cwd (createRoot (some v)) [] := worksOn_absolute cwd [] (.inl rfl)

/-- **C62 fails for a relative directory**: the database read and the one written to differ (the process has changed its working directory), for every
relative directory. -/
theorem C62_relative_counterexample (cwd : List Str) (v : Str) (h : v.head? ≠ some '/') (hc : comps v ≠ []) :
    readDb cwd (toolRoot [v]) = cwd ++ comps v ++ ["var".toList, "lib".toList, "pkg".toList, "DB".toList] ∧
    writeDb cwd (toolRoot [v]) = cwd ++ comps v ++ comps v ++ ["var".toList, "lib".toList, "pkg".toList, "DB".toList] ∧
    readDb cwd (toolRoot [v]) ≠ writeDb cwd (toolRoot [v]) := by
  have hne : v ≠ [] := by rintro rfl; exact hc rfl
  have hh : ∀ r, ((v ++ "/".toList) ++ r).head? ≠ some '/' := by
    intro r
    cases v with
    | nil => exact absurd rfl hne
    | cons c v => simpa using h
  have hcm : ∀ r, comps ((v ++ "/".toList) ++ r) = comps v ++ comps r := by
    intro r
    rw [List.append_assoc]
    exact splitSlash_append v r
  have hres : ∀ c r, resolvePath c ((v ++ "/".toList) ++ r) = c ++ comps v ++ comps r := by
    intro c r
    unfold resolvePath
    rw [if_neg (hh r), hcm, List.append_assoc]
  have hi : installCwd cwd (v ++ "/".toList) = cwd ++ comps v := by
    have := hres cwd []
    rw [List.append_nil] at this
    unfold installCwd
    rw [this]
    simp [comps, splitSlash]
  have h1 : readDb cwd (toolRoot [v]) = cwd ++ comps v ++ ["var".toList, "lib".toList, "pkg".toList, "DB".toList] := by
    show resolvePath cwd ((v ++ "/".toList) ++ pkgDbDir) = _
    rw [hres, comps_pkgDb]
  have h2 : writeDb cwd (toolRoot [v]) = cwd ++ comps v ++ comps v ++ ["var".toList, "lib".toList, "pkg".toList, "DB".toList] := by
    show resolvePath (installCwd cwd (v ++ "/".toList)) ((v ++ "/".toList) ++ pkgDbDir) = _
    rw [hi, hres, comps_pkgDb]
  refine ⟨h1, h2, ?_⟩
  rw [h1, h2]
  intro e
  have := List.append_cancel_right e
  have := congrArg List.length this
  simp at this
  exact hc this

/-- The hypotheses are met by ordinary directories. -/
example : WorksOn ["home".toList] (toolRoot ["/mnt/lfs".toList]) ["mnt".toList, "lfs".toList] := (C62_root_partial _ "/mnt/lfs".toList rfl).1
example : readDb [] (upgradeRoot (some "/mnt/lfs".toList)) = ["mnt".toList, "lfsvar".toList, "lib".toList, "pkg".toList, "DB".toList] ∧
    readDb ["home".toList] (toolRoot ["lfs".toList]) ≠ writeDb ["home".toList] (toolRoot ["lfs".toList]) := by decide

end Cards.Props
