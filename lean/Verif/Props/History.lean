import Verif.Props.GuiGo
import Verif.Props.RemoveTree
import Verif.Props.CreateNoMeta
/-!
# C03 over whole histories: every program that changes the database
-/
namespace Cards.Props
open Cards Cards.Spec

/-- Whatever changes the database of a machine: the console commands, "Go !" in flcards, and `cards create` (of a port or a collection, with its build, with or without `--no-meta`). -/
inductive Change where
  | cmd (c : AnyCmd)
  | go (E : InstEnv) (junk : Nat × Nat) (opts : Opts) (locked : Bool) (remove install : List Str) (sess : RepoSess)
  | create (C : CreEnv) (arg : Str) (isColl : Bool) (sess : RepoSess)

/-- The system after it, whether it succeeds or not. -/
def Change.exec : Change → Sys → Sys
  | .cmd c, s => c.exec s
  | .go E junk opts locked remove install sess, s => (guiGo E junk opts locked remove install s sess).1.st.sys
  | .create C arg isColl sess, s => (cardsCreate C arg isColl s sess).1.inst.st.sys

/-- **C03.** Over the whole life of a machine, whatever programs of the suite are run on it in whatever order, successful or not: no non-directory is ever listed by two packages,
and the database stays readable. -/
theorem C03_unique_owner_history (cs : List Change) (s : Sys) (hw : WF s.disk) (hu : UniqueOwner s.disk) :
    WF (cs.foldl (fun s c => c.exec s) s).disk ∧ UniqueOwner (cs.foldl (fun s c => c.exec s) s).disk := by
  induction cs generalizing s with
  | nil => exact ⟨hw, hu⟩
  | cons c cs ih =>
    have : WF (c.exec s).disk ∧ UniqueOwner (c.exec s).disk := by
      cases c with
      | cmd c => exact C03_unique_owner_all_commands [c] s hw hu
      | go E junk opts locked remove install sess => exact C03_unique_owner_flcards E junk opts locked remove install s sess hw hu
      | create C arg isColl sess => 
        cases hm : C.noMeta with
        | false => exact C64_unique_owner C hm arg isColl s sess hw hu
        | true =>
          have hs := create_fewer C hm arg isColl s sess
          exact ⟨⟨List.Pairwise.sublist (hs.map _) hw.1, fun p hp => hw.2 p (hs.subset hp)⟩, unique_sub (fun p hp => hs.subset hp) hu⟩
    exact ih _ this.1 this.2

/-- From an empty database. -/
theorem C03_unique_owner_life (cs : List Change) (fs : Fs) :
    UniqueOwner (cs.foldl (fun s (c : Change) => c.exec s) ({ fs := fs, disk := [] } : Sys)).disk :=
  (C03_unique_owner_history cs { fs := fs, disk := [] } ⟨List.Pairwise.nil, by simp⟩ (by rintro n n' f ⟨i, hi, _⟩; cases hi)).2

end Cards.Props
