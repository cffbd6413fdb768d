import Verif.Model.Service
/-!
# Specification: shell instances with their own node objects
-/
namespace Ush.Spec

/-- A node pointer that is NULL or points to a node of `S`. -/
def PtrIn (S : NodeId → Bool) (p : Option NodeId) : Prop := ∀ i, p = some i → S i = true

/-- All pointers of the shell object, and of the nodes of `S`, stay in `S`. -/
structure Own (S : NodeId → Bool) (u : Ush) : Prop where
  node : ∀ i, S i = true → PtrIn S (u.nodes i).next ∧ PtrIn S (u.nodes i).children ∧ PtrIn S (u.nodes i).parent
  root : PtrIn S u.root
  current : PtrIn S u.current
  commands : PtrIn S u.commands
  procNode : PtrIn S u.procNode
  procChild : PtrIn S u.procChild

/-- The nodes of `S` from `a`, all others from `g`. -/
def mix (S : NodeId → Bool) (a g : NodeId → Node) : NodeId → Node := fun i => if S i then a i else g i

/-- The same shell when the other node objects have the contents `g`. -/
abbrev over (S : NodeId → Bool) (g : NodeId → Node) (u : Ush) : Ush := { u with nodes := mix S u.nodes g }

/-- A library call that is given nodes of `S` only. -/
def Names (S : NodeId → Bool) : Api → Prop
  | .mount _ i _ => S i = true
  | .commandsAdd i _ => S i = true
  | .commandsRemove i => S i = true
  | _ => True

/-- The callbacks of the application look at the nodes of `S` only, and hand over nodes of `S` only. -/
structure Private (S : NodeId → Bool) (E : Env) : Prop where
  hook : ∀ h, E.hook = some h → ∀ argv u, (∀ g, h argv (over S g u) = h argv u) ∧ ∀ a ∈ h argv u, Names S a
  exec : ∀ id argv u, (∀ g, E.userExec id argv (over S g u) = E.userExec id argv u) ∧ ∀ a ∈ E.userExec id argv u, Names S a
  proc : ∀ id u, (∀ g, E.userProc id (over S g u) = E.userProc id u) ∧ ∀ a ∈ E.userProc id u, Names S a
  set : ∀ id d u, (∀ g, E.userSet id d (over S g u) = E.userSet id d u) ∧ ∀ a ∈ E.userSet id d u, Names S a
  get : ∀ id u g, E.userGet id (over S g u) = E.userGet id u

/-- A step that is given nodes of `S` only. -/
def OpIn (S : NodeId → Bool) : Op → Prop
  | .api a => Names S a
  | _ => True

/-! ## Two instances -/

/-- Two shell objects (each with its own buffers and its own node number 0, the node inside the shell object) and the other node
objects of the program. -/
structure Two where
  a : Ush
  b : Ush
  heap : NodeId → Node

/-- What a shell object sees: its own node 0 and the node objects of the program. -/
def view (u : Ush) (heap : NodeId → Node) : Ush := { u with nodes := fun i => if i = 0 then u.nodes 0 else heap i }

/-- A step of the first (`false`) or the second (`true`) instance. -/
def Two.step (A B : Env) (t : Two) : Bool × Op → M Two
  | (false, o) => do let v ← Ush.step A (view t.a t.heap) o; return { t with a := v, heap := v.nodes }
  | (true, o) => do let v ← Ush.step B (view t.b t.heap) o; return { t with b := v, heap := v.nodes }

/-- An interleaved history. -/
def Two.run (A B : Env) (t : Two) : List (Bool × Op) → M Two
  | [] => .ok t
  | o :: os => do let t ← t.step A B o; Two.run A B t os

/-- Two shells with the same object, the same buffers, the same log, and the same contents of the nodes of `S`. -/
def Alike (S : NodeId → Bool) (u v : Ush) : Prop := { u with nodes := v.nodes } = v ∧ ∀ i, S i = true → u.nodes i = v.nodes i

/-- Two instances that have their own nodes each (number 0 is the node inside the shell object). -/
structure Apart (SA SB : NodeId → Bool) (t : Two) : Prop where
  own0 : SA 0 = true ∧ SB 0 = true
  disjoint : ∀ i, i ≠ 0 → SA i = true → SB i = false
  a : Own SA (view t.a t.heap)
  b : Own SB (view t.b t.heap)

/-- The steps of one instance. -/
def only (w : Bool) (os : List (Bool × Op)) : List Op := os.filterMap (fun x => if x.1 = w then some x.2 else none)

end Ush.Spec
