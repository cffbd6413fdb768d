import Verif.Proof.OwnRun
import Verif.Props.Safe
/-!
# C43 Shell instances do not interfere

Two shell objects in one program: each has its own buffers and the node of its built-in commands; the node objects of the application
are shared memory.  `Apart SA SB t`: every node pointer that one instance can reach leads to its own nodes (`SA`, `SB`).
`Private S E`: the callbacks of the instance look at its own nodes and name its own nodes only.
-/
namespace Ush.Props
open Spec

/-- An operation on one instance leaves the other one unchanged: its object, its buffers, and all nodes that do not belong to the
first instance. -/
theorem C43_frame (SA SB : NodeId → Bool) (A B : Env) (t t' : Two) (h : Apart SA SB t) (P : Private SA A) (o : Op) (ho : OpIn SA o)
    (e : t.step A B (false, o) = .ok t') : t'.b = t.b ∧ ∀ i, SA i = false → t'.heap i = t.heap i := by
  obtain ⟨s1, s2⟩ := step_alike (E := A) h.own0.1 P h.a ⟨rfl, fun _ _ => rfl⟩ ho
  rw [Two.step] at e
  cases hs : step A (view t.a t.heap) o with
  | error f => rw [hs] at e; cases e
  | ok v =>
    rw [hs] at e
    cases e
    obtain ⟨v', g1, -, -, g4⟩ := s1 v hs
    rw [hs] at g1
    cases g1
    refine ⟨rfl, fun i hi => ?_⟩
    show v.nodes i = _
    rw [g4 i hi]
    have : i ≠ 0 := by rintro rfl; rw [h.own0.1] at hi; cases hi
    simp [view, this]

/-- Every interleaving of two histories, each of which is possible when its instance is alone, is possible, and leads each instance
to the state it reaches alone: the same object, buffers, log (all input, output and callbacks) and nodes. -/
theorem C43_interleaved (SA SB : NodeId → Bool) (A B : Env) (t : Two) (h : Apart SA SB t) (PA : Private SA A) (PB : Private SB B)
    (os : List (Bool × Op)) (ho : ∀ x ∈ os, OpIn (if x.1 then SB else SA) x.2) (va vb : Ush)
    (ea : run A (view t.a t.heap) (only false os) = .ok va) (eb : run B (view t.b t.heap) (only true os) = .ok vb) :
    ∃ t', t.run A B os = .ok t' ∧ Alike SA va (view t'.a t'.heap) ∧ Alike SB vb (view t'.b t'.heap) :=
  (two_run h.own0.1 h.own0.2 h.disjoint PA PB os ho t (view t.a t.heap) (view t.b t.heap) ⟨rfl, fun _ _ => rfl⟩ h.a ⟨rfl, fun _ _ => rfl⟩ h.b).1 va vb ea eb

/-- Conversely an interleaving has no outcome that the instances would not have alone. -/
theorem C43_alone (SA SB : NodeId → Bool) (A B : Env) (t t' : Two) (h : Apart SA SB t) (PA : Private SA A) (PB : Private SB B)
    (os : List (Bool × Op)) (ho : ∀ x ∈ os, OpIn (if x.1 then SB else SA) x.2) (e : t.run A B os = .ok t') :
    ∃ va vb, run A (view t.a t.heap) (only false os) = .ok va ∧ run B (view t.b t.heap) (only true os) = .ok vb ∧
      Alike SA va (view t'.a t'.heap) ∧ Alike SB vb (view t'.b t'.heap) := by
  obtain ⟨k1, k2⟩ := two_run (A := A) (B := B) h.own0.1 h.own0.2 h.disjoint PA PB os ho t (view t.a t.heap) (view t.b t.heap) ⟨rfl, fun _ _ => rfl⟩ h.a ⟨rfl, fun _ _ => rfl⟩ h.b
  obtain ⟨va, vb, e1, e2⟩ := k2 t' e
  obtain ⟨t'', g1, g2, g3⟩ := k1 va vb e1 e2
  rw [e] at g1
  cases g1
  exact ⟨va, vb, e1, e2, g2, g3⟩

/-! ## A program with two shells -/

/-- Nodes of the two sample shells. -/
def setA (i : NodeId) : Bool := i == 0 || i == 1 || i == 2
def setB (i : NodeId) : Bool := i == 0 || i == 3 || i == 4

/-- Two new shell objects. -/
def twoNew : Two := ⟨blank (List.replicate 16 0) (List.replicate 40 0), blank (List.replicate 8 0) (List.replicate 32 0), fun _ => {}⟩

/-- Each is initialised and mounts its own nodes; then `cd a` is typed into the first and `pwd` into the second, alternating. -/
def twoOps : List (Bool × Op) :=
  [(false, .init), (true, .init), (false, .api (.mount b!"/" 1 [])), (true, .api (.mount b!"/" 3 [])), (true, .api (.mount b!"/b" 4 [])),
    (false, .api (.mount b!"/a" 2 [])), (true, .api (.setCurrentDir b!"/b"))] ++
  (List.replicate 40 [(false, Op.service ⟨none, true⟩), (true, .service ⟨none, true⟩)]).flatten ++
  (List.zipWith (fun x y => [(false, x), (true, y)]) (typing 12 b!"cd a\n") (typing 12 b!"pwd \n")).flatten

theorem twoNew_apart : Apart setA setB twoNew := by
  refine ⟨⟨rfl, rfl⟩, ?_, ?_, ?_⟩
  · intro i h0 h
    simp only [setA, setB, Bool.or_eq_true, beq_iff_eq, Bool.or_eq_false_iff, beq_eq_false_iff_ne] at h ⊢
    rcases h with (h | h) | h
    · exact absurd h h0
    all_goals subst h; decide
  · refine ⟨fun i _ => ?_, .none, .none, .none, .none, .none⟩
    have : (view twoNew.a twoNew.heap).nodes i = {} := by simp only [view, twoNew, blank]; split <;> rfl
    rw [this]
    exact ⟨.none, .none, .none⟩
  · refine ⟨fun i _ => ?_, .none, .none, .none, .none, .none⟩
    have : (view twoNew.b twoNew.heap).nodes i = {} := by simp only [view, twoNew, blank]; split <;> rfl
    rw [this]
    exact ⟨.none, .none, .none⟩

theorem nE_private (S : NodeId → Bool) (i o : Nat) : Private S (nE i o) :=
  ⟨(fun _ e => by cases e), fun _ _ _ => ⟨fun _ => rfl, (fun _ h => by cases h)⟩, fun _ _ => ⟨fun _ => rfl, (fun _ h => by cases h)⟩,
    fun _ _ _ => ⟨fun _ => rfl, (fun _ h => by cases h)⟩, fun _ _ _ => rfl⟩

instance (S : NodeId → Bool) (o : Op) : Decidable (OpIn S o) := by
  cases o with
  | api a => cases a <;> (simp only [OpIn, Names]; infer_instance)
  | _ => exact isTrue trivial

/-- Afterwards the first shell stands in its node 2 and the second one has printed the path of its node 4. -/
example : Apart setA setB twoNew ∧ Private setA (nE 16 40) ∧ Private setB (nE 8 32) ∧
    (∀ x ∈ twoOps, OpIn (if x.1 then setB else setA) x.2) ∧
    (match twoNew.run (nE 16 40) (nE 8 32) twoOps with
      | .ok t => t.a.current == some 2 && t.b.current == some 4 && (t.heap 2).path == some b!"/a"
      | .error _ => false) = true ∧
    (run (nE 16 40) (view twoNew.a twoNew.heap) (only false twoOps)).isOk = true ∧
    (run (nE 8 32) (view twoNew.b twoNew.heap) (only true twoOps)).isOk = true :=
  ⟨twoNew_apart, nE_private _ _ _, nE_private _ _ _, by decide +kernel, by decide +kernel, by decide +kernel, by decide +kernel⟩

/-- Own nodes are needed: when both mount the same node, the path of the first one's root node changes under it. -/
theorem C43_shared : ∃ t', twoNew.run (nE 16 40) (nE 8 32) [(false, .init), (true, .init), (false, .api (.mount b!"/" 1 [])),
      (true, .api (.mount b!"/" 3 [])), (true, .api (.mount b!"/b" 1 []))] = .ok t' ∧
    (t'.heap 1).path = some b!"/b" ∧ t'.a.root = some 1 := by
  refine ⟨_, rfl, by decide +kernel, by decide +kernel⟩

/-- The theorems for the two sample shells. -/
example : ∃ t va vb, twoNew.run (nE 16 40) (nE 8 32) twoOps = .ok t ∧ run (nE 16 40) (view twoNew.a twoNew.heap) (only false twoOps) = .ok va ∧
    run (nE 8 32) (view twoNew.b twoNew.heap) (only true twoOps) = .ok vb ∧ Alike setA va (view t.a t.heap) ∧ Alike setB vb (view t.b t.heap) := by
  have ok : (twoNew.run (nE 16 40) (nE 8 32) twoOps).isOk = true := by decide +kernel
  cases e : twoNew.run (nE 16 40) (nE 8 32) twoOps with
  | error _ => rw [e] at ok; cases ok
  | ok t =>
    obtain ⟨va, vb, ea, eb, -⟩ := C43_alone setA setB _ _ twoNew t twoNew_apart (nE_private _ _ _) (nE_private _ _ _) twoOps (by decide +kernel) e
    obtain ⟨t', e', h⟩ := C43_interleaved setA setB _ _ twoNew twoNew_apart (nE_private _ _ _) (nE_private _ _ _) twoOps (by decide +kernel) va vb ea eb
    exact ⟨t', va, vb, e.symm.trans e', ea, eb, h⟩

example : ∃ t, twoNew.step (nE 16 40) (nE 8 32) (false, .init) = .ok t ∧ t.b = twoNew.b ∧ ∀ i, setA i = false → t.heap i = twoNew.heap i :=
  ⟨_, rfl, C43_frame setA setB _ (nE 8 32) twoNew _ twoNew_apart (nE_private _ 16 40) .init trivial rfl⟩

end Ush.Props
