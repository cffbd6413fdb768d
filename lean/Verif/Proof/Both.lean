import Mathlib.Data.Nat.Nth
import Verif.Proof.OwnRun
import Verif.Spec.Both
/-!
# Two shells, each with its terminal
-/
namespace Ush
open Spec

section
variable {S SA SB : NodeId → Bool} {E A B : Env}

theorem drive1_step (u : Ush) (inp : List UInt8) (s : Slot) : drive1 E u inp s =
    step E u (.service ⟨if s.ready then inp.head? else none, s.accept⟩) >>= fun v => .ok (v, if u.state = .readChar ∧ s.ready = true then inp.tail else inp) := by
  unfold drive1
  show _ = (service E _ u >>= fun x => pure x.1) >>= _
  cases service E ⟨if s.ready then inp.head? else none, s.accept⟩ u <;> rfl

theorem drive1_alike (h0 : S 0 = true) (P : Private S E) {u v : Ush} (O : Own S u) (h : Alike S u v) (inp : List UInt8) (s : Slot) {u' : Ush} {r : List UInt8}
    (e : drive1 E u inp s = .ok (u', r)) : ∃ v', drive1 E v inp s = .ok (v', r) ∧ Alike S u' v' ∧ Own S u' ∧ ∀ i, S i = false → v'.nodes i = v.nodes i := by
  rw [drive1_step] at e ⊢
  obtain ⟨w, e1, e2⟩ := M.bind_eq_ok.mp e
  cases e2
  obtain ⟨v', g1, g2⟩ := (step_alike h0 P O h (o := .service _) trivial).1 _ e1
  refine ⟨v', ?_, g2⟩
  have hs : v.state = u.state := by rw [← h.1]
  rw [g1, hs]
  rfl

theorem run_own (h0 : S 0 = true) (P : Private S E) : ∀ (os : List Op) (u v : Ush), Own S u → (∀ o ∈ os, OpIn S o) → run E u os = .ok v → Own S v := by
  intro os
  induction os with
  | nil => intro u v O _ e; cases e; exact O
  | cons o os ih =>
    intro u v O ho e
    rw [run] at e
    obtain ⟨w, e1, e2⟩ := M.bind_eq_ok.mp e
    obtain ⟨_, -, -, O', -⟩ := (step_alike h0 P O ⟨rfl, fun _ _ => rfl⟩ (ho o (by simp))).1 w e1
    exact ih w v O' (fun o h => ho o (List.mem_cons_of_mem _ h)) e2

theorem two_drive (hA : SA 0 = true) (hB : SB 0 = true) (hd : ∀ i, i ≠ 0 → SA i = true → SB i = false) (PA : Private SA A) (PB : Private SB B) :
    ∀ (ss : List (Bool × Slot)) (t : Two) (p q : List UInt8) (ua ub : Ush), Alike SA ua (view t.a t.heap) → Own SA ua → Alike SB ub (view t.b t.heap) → Own SB ub →
      ∀ va vb p' q', drive A ua p (slots false ss) = .ok (va, p') → drive B ub q (slots true ss) = .ok (vb, q') →
        ∃ t', driveTwo A B t p q ss = .ok (t', p', q') ∧ Alike SA va (view t'.a t'.heap) ∧ Alike SB vb (view t'.b t'.heap) := by
  have hd' : ∀ i, i ≠ 0 → SB i = true → SA i = false := by
    intro i hi h
    cases hx : SA i with
    | false => rfl
    | true => rw [hd i hi hx] at h; cases h
  intro ss
  induction ss with
  | nil =>
    intro t p q ua ub h1 _ h2 _ va vb p' q' e1 e2
    cases e1; cases e2
    exact ⟨t, rfl, h1, h2⟩
  | cons x ss ih =>
    intro t p q ua ub h1 O1 h2 O2 va vb p' q' r1 r2
    obtain ⟨w, s⟩ := x
    cases w with
    | false =>
      have e1 : slots false ((false, s) :: ss) = s :: slots false ss := rfl
      have e2 : slots true ((false, s) :: ss) = slots true ss := rfl
      rw [e1, drive] at r1
      rw [e2] at r2
      obtain ⟨⟨u', r⟩, k1, k2⟩ := M.bind_eq_ok.mp r1
      obtain ⟨v', g1, g2, g3, g4⟩ := drive1_alike hA PA O1 h1 p s k1
      rw [driveTwo, g1]
      refine ih { t with a := v', heap := v'.nodes } r q u' ub (by rw [view_self]; exact g2) g3 ?_ O2 va vb p' q' k2 r2
      refine other_view (heap := t.heap) (fun i hi hb => ?_) h2
      show v'.nodes i = _
      rw [g4 i (hd' i hi hb)]
      simp [view, hi]
    | true =>
      have e1 : slots true ((true, s) :: ss) = s :: slots true ss := rfl
      have e2 : slots false ((true, s) :: ss) = slots false ss := rfl
      rw [e1, drive] at r2
      rw [e2] at r1
      obtain ⟨⟨u', r⟩, k1, k2⟩ := M.bind_eq_ok.mp r2
      obtain ⟨v', g1, g2, g3, g4⟩ := drive1_alike hB PB O2 h2 q s k1
      rw [driveTwo, g1]
      refine ih { t with b := v', heap := v'.nodes } p r ua u' ?_ O1 (by rw [view_self]; exact g2) g3 va vb p' q' r1 k2
      refine other_view (heap := t.heap) (fun i hi hb => ?_) h1
      show v'.nodes i = _
      rw [g4 i (hd i hi hb)]
      simp [view, hi]

end

/-! ### The calls for one of them, counted -/

section
variable (f : Nat → Bool × Slot) (w : Bool)

/-- The `k`-th call for the shell `w`. -/
noncomputable def nthSlot (k : Nat) : Slot := (f (Nat.nth (fun m => (f m).1 = w) k)).2

theorem slots_range (n : Nat) : slots w ((List.range n).map f) = (List.range (Nat.count (fun m => (f m).1 = w) n)).map (nthSlot f w) := by
  induction n with
  | zero => rfl
  | succ n ih =>
    rw [List.range_succ, List.map_append, slots, List.filterMap_append, ← slots, ih, Nat.count_succ]
    by_cases h : (f n).1 = w
    · rw [if_pos h, List.range_succ, List.map_append]
      congr 1
      simp only [List.map_cons, List.map_nil, List.filterMap_cons, h, if_true, List.filterMap_nil, nthSlot]
      rw [Nat.nth_count (p := fun m => (f m).1 = w) h]
    · rw [if_neg h]
      simp [h]

variable {f} {w}

theorem fairTwo_infinite (hf : FairTwo f) : (Set.ofPred (fun m => (f m).1 = w)).Infinite := by
  rw [Set.infinite_iff_exists_gt]
  intro n
  obtain ⟨m, h1, h2, -⟩ := (hf w (n + 1)).1
  exact ⟨m, h2, h1⟩

theorem fairTwo_count (hf : FairTwo f) (N : Nat) : ∃ n, ∀ k ≥ n, N ≤ Nat.count (fun m => (f m).1 = w) k := by
  refine ⟨Nat.nth (fun m => (f m).1 = w) N, fun k hk => ?_⟩
  have := Nat.count_monotone (fun m => (f m).1 = w) hk
  rwa [Nat.count_nth_of_infinite (fairTwo_infinite hf)] at this

theorem fairTwo_fair (hf : FairTwo f) : Fair (nthSlot f w) := by
  have key : ∀ n m, m ≥ Nat.nth (fun m => (f m).1 = w) n → (f m).1 = w → ∃ k ≥ n, nthSlot f w k = (f m).2 := by
    intro n m h1 h2
    refine ⟨Nat.count (fun m => (f m).1 = w) m, ?_, ?_⟩
    · have := Nat.count_monotone (fun m => (f m).1 = w) h1
      rwa [Nat.count_nth_of_infinite (fairTwo_infinite hf)] at this
    · unfold nthSlot
      rw [Nat.nth_count (p := fun m => (f m).1 = w) h2]
  constructor
  · intro n
    obtain ⟨m, h1, h2, h3⟩ := (hf w (Nat.nth (fun m => (f m).1 = w) n)).1
    obtain ⟨k, k1, k2⟩ := key n m h1 h2
    exact ⟨k, k1, by rw [k2, h3]⟩
  · intro n
    obtain ⟨m, h1, h2, h3⟩ := (hf w (Nat.nth (fun m => (f m).1 = w) n)).2
    obtain ⟨k, k1, k2⟩ := key n m h1 h2
    exact ⟨k, k1, by rw [k2, h3]⟩

end
end Ush
