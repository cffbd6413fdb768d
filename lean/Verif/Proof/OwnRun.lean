import Verif.Proof.OwnStep
/-!
# Two shell instances
-/
namespace Ush
open Spec

variable {S SA SB : NodeId → Bool} {A B E : Env}

theorem Spec.Alike.over {u v : Ush} (h : Alike S u v) : v = over S v.nodes u := by
  obtain ⟨h1, h2⟩ := h
  have : mix S u.nodes v.nodes = v.nodes := by
    funext i
    by_cases hi : S i = true
    · rw [mix_in hi, h2 i hi]
    · simp [mix, hi]
  rw [Spec.over, this, h1]

theorem Alike_over (u : Ush) (g : NodeId → Node) : Alike S u (over S g u) :=
  ⟨rfl, fun _ hi => (mix_in hi).symm⟩

theorem over_self (u : Ush) : over S u.nodes u = u := (Alike.over ⟨rfl, fun _ _ => rfl⟩).symm

theorem view_self (v : Ush) : view v v.nodes = v := by
  have : (fun i => if i = 0 then v.nodes 0 else v.nodes i) = v.nodes := by
    funext i
    split
    · simp [*]
    · rfl
  rw [view, this]

/-- One step of a shell in other surroundings. -/
theorem step_alike (h0 : S 0 = true) (P : Private S E) {u v : Ush} (O : Own S u) (h : Alike S u v) {o : Op} (ho : OpIn S o) :
    (∀ u', step E u o = .ok u' → ∃ v', step E v o = .ok v' ∧ Alike S u' v' ∧ Own S u' ∧ ∀ i, S i = false → v'.nodes i = v.nodes i) ∧
    (∀ v', step E v o = .ok v' → ∃ u', step E u o = .ok u') := by
  have s := step_own (g := v.nodes) h0 P O o ho
  rw [← h.over] at s
  cases hu : step E u o with
  | error e =>
    cases hv : step E v o with
    | error f => exact ⟨(fun _ h => by cases h), (fun _ h => by cases h)⟩
    | ok b => rw [hu, hv] at s; exact s.elim
  | ok a =>
    cases hv : step E v o with
    | error f => rw [hu, hv] at s; exact s.elim
    | ok b =>
      rw [hu, hv] at s
      obtain ⟨s1, s2⟩ := s
      refine ⟨fun _ h => ?_, fun _ _ => ⟨a, rfl⟩⟩
      cases h
      refine ⟨b, rfl, s1 ▸ Alike_over a _, s2, fun i hi => ?_⟩
      rw [s1]
      simp [mix, hi]

/-- The step of one instance seen by the other. -/
theorem other_view {u w : Ush} {heap : NodeId → Node} {g : NodeId → Node} (hd : ∀ i, i ≠ 0 → S i = true → g i = heap i)
    (h : Alike S w (view u heap)) : Alike S w (view u g) := by
  refine ⟨congrArg (fun x : Ush => { x with nodes := (view u g).nodes }) h.1, fun i hi => ?_⟩
  rw [h.2 i hi]
  by_cases hz : i = 0
  · simp [view, hz]
  · simp [view, hz, hd i hz hi]

theorem two_run (hA : SA 0 = true) (hB : SB 0 = true) (hd : ∀ i, i ≠ 0 → SA i = true → SB i = false) (PA : Private SA A) (PB : Private SB B) :
    ∀ (os : List (Bool × Op)), (∀ x ∈ os, OpIn (if x.1 then SB else SA) x.2) → ∀ (t : Two) (ua ub : Ush), Alike SA ua (view t.a t.heap) → Own SA ua →
      Alike SB ub (view t.b t.heap) → Own SB ub →
      (∀ va vb, run A ua (only false os) = .ok va → run B ub (only true os) = .ok vb →
        ∃ t', t.run A B os = .ok t' ∧ Alike SA va (view t'.a t'.heap) ∧ Alike SB vb (view t'.b t'.heap)) ∧
      (∀ t', t.run A B os = .ok t' → ∃ va vb, run A ua (only false os) = .ok va ∧ run B ub (only true os) = .ok vb) := by
  have hd' : ∀ i, i ≠ 0 → SB i = true → SA i = false := by
    intro i hi h
    cases hx : SA i with
    | false => rfl
    | true => rw [hd i hi hx] at h; cases h
  intro os
  induction os with
  | nil =>
    intro _ t ua ub h1 _ h2 _
    refine ⟨fun va vb e1 e2 => ?_, fun t' _ => ⟨ua, ub, rfl, rfl⟩⟩
    cases e1; cases e2
    exact ⟨t, rfl, h1, h2⟩
  | cons x os ih =>
    intro ho t ua ub h1 O1 h2 O2
    obtain ⟨w, o⟩ := x
    have ho' := fun y hy => ho y (List.mem_cons_of_mem _ hy)
    have hx := ho (w, o) (by simp)
    cases w with
    | false =>
      have e1 : only false ((false, o) :: os) = o :: only false os := rfl
      have e2 : only true ((false, o) :: os) = only true os := rfl
      rw [e1, e2]
      obtain ⟨s1, s2⟩ := step_alike hA PA O1 h1 (o := o) hx
      constructor
      · intro va vb r1 r2
        cases hs : step A ua o with
        | error e => rw [run, hs] at r1; cases r1
        | ok u' =>
          rw [run, hs] at r1
          obtain ⟨v', g1, g2, g3, g4⟩ := s1 u' hs
          have k : t.step A B (false, o) = .ok { t with a := v', heap := v'.nodes } := by
            show (step A (view t.a t.heap) o >>= fun v => pure { t with a := v, heap := v.nodes }) = _
            rw [g1]; rfl
          rw [Two.run, k]
          refine (ih ho' { t with a := v', heap := v'.nodes } u' ub (by rw [view_self]; exact g2) g3 ?_ O2).1 va vb r1 r2
          refine other_view (heap := t.heap) (fun i hi hb => ?_) h2
          show v'.nodes i = _
          rw [g4 i (hd' i hi hb)]
          simp [view, hi]
      · intro t' r
        rw [Two.run] at r
        cases hs : step A (view t.a t.heap) o with
        | error e => rw [Two.step, hs] at r; cases r
        | ok v' =>
          obtain ⟨u', gu⟩ := s2 v' hs
          obtain ⟨v'', g1, g2, g3, g4⟩ := s1 u' gu
          rw [hs] at g1
          cases g1
          have k : t.step A B (false, o) = .ok { t with a := v', heap := v'.nodes } := by
            show (step A (view t.a t.heap) o >>= fun v => pure { t with a := v, heap := v.nodes }) = _
            rw [hs]; rfl
          rw [k] at r
          obtain ⟨va, vb, q1, q2⟩ := (ih ho' { t with a := v', heap := v'.nodes } u' ub (by rw [view_self]; exact g2) g3
            (other_view (heap := t.heap) (fun i hi hb => by show v'.nodes i = _; rw [g4 i (hd' i hi hb)]; simp [view, hi]) h2) O2).2 t' r
          exact ⟨va, vb, by rw [run, gu]; exact q1, q2⟩
    | true =>
      have e1 : only true ((true, o) :: os) = o :: only true os := rfl
      have e2 : only false ((true, o) :: os) = only false os := rfl
      rw [e1, e2]
      obtain ⟨s1, s2⟩ := step_alike hB PB O2 h2 (o := o) hx
      constructor
      · intro va vb r1 r2
        cases hs : step B ub o with
        | error e => rw [run, hs] at r2; cases r2
        | ok u' =>
          rw [run, hs] at r2
          obtain ⟨v', g1, g2, g3, g4⟩ := s1 u' hs
          have k : t.step A B (true, o) = .ok { t with b := v', heap := v'.nodes } := by
            show (step B (view t.b t.heap) o >>= fun v => pure { t with b := v, heap := v.nodes }) = _
            rw [g1]; rfl
          rw [Two.run, k]
          refine (ih ho' { t with b := v', heap := v'.nodes } ua u' ?_ O1 (by rw [view_self]; exact g2) g3).1 va vb r1 r2
          refine other_view (heap := t.heap) (fun i hi hb => ?_) h1
          show v'.nodes i = _
          rw [g4 i (hd i hi hb)]
          simp [view, hi]
      · intro t' r
        rw [Two.run] at r
        cases hs : step B (view t.b t.heap) o with
        | error e => rw [Two.step, hs] at r; cases r
        | ok v' =>
          obtain ⟨u', gu⟩ := s2 v' hs
          obtain ⟨v'', g1, g2, g3, g4⟩ := s1 u' gu
          rw [hs] at g1
          cases g1
          have k : t.step A B (true, o) = .ok { t with b := v', heap := v'.nodes } := by
            show (step B (view t.b t.heap) o >>= fun v => pure { t with b := v, heap := v.nodes }) = _
            rw [hs]; rfl
          rw [k] at r
          obtain ⟨va, vb, q1, q2⟩ := (ih ho' { t with b := v', heap := v'.nodes } ua u'
            (other_view (heap := t.heap) (fun i hi hb => by show v'.nodes i = _; rw [g4 i (hd i hi hb)]; simp [view, hi]) h1) O1 (by rw [view_self]; exact g2) g3).2 t' r
          exact ⟨va, vb, q1, by rw [run, gu]; exact q2⟩

end Ush
