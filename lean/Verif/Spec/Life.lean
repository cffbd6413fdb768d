import Verif.Spec.Fs
import Verif.Model.Life
/-!
# Specification: library calls before `ush_init` and after `ush_deinit`
-/
namespace Ush.Spec

/-- `ush_init` has been called, and `ush_deinit` not since. -/
def Initialised (os : List Op) : Prop := ∃ pre post, os = pre ++ .init :: post ∧ Op.deinit ∉ post

/-- The calls that need the descriptor: formatted printing, mounting, unmounting, and changing the directory to a path that is not empty. -/
def NeedsDesc (x : Op) : Prop :=
  (∃ f, x = .api (.printf f)) ∨ x = .api .flush ∨ (∃ p i fs, x = .api (.mount p i fs)) ∨ (∃ p, x = .api (.unmount p)) ∨ ∃ p, p ≠ [] ∧ x = .api (.setCurrentDir p)

/-- Every call that needs the descriptor stands between `ush_init` and `ush_deinit`. -/
def Ordered (os : List Op) : Prop := ∀ pre x post, os = pre ++ x :: post → NeedsDesc x → Initialised pre

/-- A history that only adds and removes groups of commands, and does not use the node in the shell object. -/
def OnlyGroups (os : List FsOp) : Prop := ∀ o ∈ os, ∃ id, id ≠ 0 ∧ ((∃ files, o = .addGroup id files) ∨ o = .removeGroup id)

/-- The groups of commands after such a history on a new shell object. -/
def groupsOf (os : List FsOp) : Groups := (World.run ⟨[], [], none⟩ os).1.groups

/-- The world after `ush_init` when there are already groups of commands: the built-in commands come first. -/
def lateWorld (E : Env) (g : Groups) : World := ⟨[], (if E.commandsOn then [⟨0, builtinTable E⟩] else []) ++ g, none⟩

end Ush.Spec
