import Verif.Model.Paths
import Verif.Props.Strings
/-!
# C44: package files stay inside the root directory
-/
namespace Cards.Props
open Cards Cards.Spec

/-- The place lies in the directory `d` (or is `d`). -/
def Within (d x : List Str) : Prop := ∃ r, x = d ++ r

theorem resolveLoop_plain (acc cs : List Str) (h : "..".toList ∉ cs) :
    resolveLoop acc cs = acc ++ cs.filter (fun c => c ≠ ".".toList) := by
  induction cs generalizing acc with
  | nil => simp [resolveLoop]
  | cons c cs ih =>
    simp only [List.mem_cons, not_or] at h
    simp only [resolveLoop]
    split
    · rename_i hc; rw [ih _ h.2]; simp [hc]
    · rename_i hc
      rw [if_neg (fun e => h.1 e.symm), ih _ h.2, List.filter_cons_of_pos (by simpa using hc)]
      simp

theorem resolveLoop_append (acc a b : List Str) : resolveLoop acc (a ++ b) = resolveLoop (resolveLoop acc a) b := by
  induction a generalizing acc with
  | nil => rfl
  | cons c a ih =>
    simp only [List.cons_append, resolveLoop]
    split
    · exact ih _
    · split <;> exact ih _

theorem splitSlash_append (a b : Str) : comps (a ++ '/' :: b) = comps a ++ comps b := by
  unfold comps
  rw [← List.filter_append]
  have : splitSlash (a ++ '/' :: b) = splitSlash a ++ splitSlash b := by
    induction a with
    | nil => simp [splitSlash]
    | cons c a ih =>
      simp only [List.cons_append, splitSlash]
      split
      · simp [ih]
      · rw [ih]
        cases h : splitSlash a with
        | nil =>
          exfalso
          cases a with
          | nil => simp [splitSlash] at h
          | cons x a => simp only [splitSlash] at h; split at h; · simp at h
                        split at h <;> simp at h
        | cons x y => simp
  rw [this]

/-- Every entry whose name has no `..` component is written inside the root directory, for every root and every name. -/
theorem C44_extract_partial (root name : Str) (h : "..".toList ∉ comps name) :
    Within (resolve root) (resolve (extractPath root name)) := by
  unfold resolve extractPath
  rw [C35_same_components]
  have : root ++ "/".toList ++ name = root ++ '/' :: name := by simp
  rw [this, splitSlash_append, resolveLoop_append, resolveLoop_plain _ _ h]
  exact ⟨_, rfl⟩

/-- The same for a deleted name, when the root ends with a slash. -/
theorem C44_remove_partial (root name : Str) (h : "..".toList ∉ comps name) :
    Within (resolve root) (resolve (removePath (root ++ "/".toList) name)) := by
  unfold resolve removePath
  have : root ++ "/".toList ++ name = root ++ '/' :: name := by simp
  rw [this, splitSlash_append, resolveLoop_append, resolveLoop_plain _ _ h]
  exact ⟨_, rfl⟩

/-- The record of a package lies below the database directory, when its name has no `..` component. -/
theorem C44_record_partial (root name : Str) (h : "..".toList ∉ comps name) :
    Within (resolve (root ++ "/var/lib/pkg/DB".toList)) (resolve (recordPath (root ++ "/".toList) name)) := by
  unfold resolve recordPath
  have : root ++ "/".toList ++ "var/lib/pkg/DB/".toList ++ name = (root ++ "/var/lib/pkg/DB".toList) ++ '/' :: name := by simp
  rw [this, splitSlash_append, resolveLoop_append, resolveLoop_plain _ _ h]
  exact ⟨_, rfl⟩

/-- Names with `..` are not refused: such an entry overwrites, and at removal deletes, a file outside the root directory. -/
theorem C44_dotdot_counterexample :
    let root := "/mnt/root".toList
    resolve (extractPath root "../../etc/passwd".toList) = ["etc".toList, "passwd".toList] ∧
    resolve (removePath (root ++ "/".toList) "../../etc/passwd".toList) = ["etc".toList, "passwd".toList] ∧
    ¬ Within (resolve root) ["etc".toList, "passwd".toList] := by
  refine ⟨?_, by decide, ?_⟩
  · unfold resolve extractPath
    rw [C35_same_components]; decide
  · rintro ⟨r, hr⟩
    have : resolve "/mnt/root".toList = ["mnt".toList, "root".toList] := by decide
    rw [this] at hr
    simp at hr

/-- A package whose name is `../../../../etc` has the directory etc of the root as its database directory. -/
theorem C44_name_counterexample :
    resolve (recordPath "/".toList "../../../../etc".toList) = ["etc".toList] := by decide

example : "..".toList ∉ comps "usr/share/..x/./a".toList := by decide

end Cards.Props
