import Mathlib.Data.Nat.Find
import Verif.Proof.Write
/-!
# Fair schedules
-/
namespace Ush
open Spec

theorem service_write (E : Env) (io : Io) (u : Ush) (hc : u.current.isSome = true) (hs : u.state = .writeChar) :
    service E io u = writeChar io u >>= fun v => .ok (v, true) := by
  rw [service_eq E io u hc, hs]

theorem driveN_succ (E : Env) (f : Nat → Slot) (u : Ush) (inp : List UInt8) (n : Nat) :
    driveN E f u inp (n + 1) = driveN E f u inp n >>= fun p => drive1 E p.1 p.2 (f n) := by
  unfold driveN
  rw [List.range_succ, List.map_append, drive_append]
  congr 1
  funext p
  simp only [List.map_cons, List.map_nil, drive]
  cases drive1 E p.1 p.2 (f n) <;> rfl

/-- Under a fair schedule the shell does not stay at a configuration that is not idle and from which the next step
does not fault. -/
theorem fair_step (E : Env) (f : Nat → Slot) (hf : Fair f) (u : Ush) (inp : List UInt8) (t : Nat) (v : Ush) (r : List UInt8)
    (h : driveN E f u inp t = .ok (v, r)) (q : Ush × List UInt8) (hq : drive1 E v r .full = .ok q) (hi : ¬ Idle v r) :
    ∃ t' ≥ t, driveN E f u inp t' = .ok q := by
  -- the first time at or after `t` at which the shell is not blocked
  have hex : ∃ d, ¬ Blocked v r (f (t + d)) := by
    by_cases hs : v.state = .readChar
    · obtain ⟨m, hm, hr⟩ := hf.1 t
      refine ⟨m - t, ?_⟩
      rw [show t + (m - t) = m by omega]
      rintro (⟨-, h2⟩ | ⟨h2, -⟩)
      · rcases h2 with h2 | h2
        · rw [hr] at h2; cases h2
        · exact hi ⟨hs, h2⟩
      · rw [hs] at h2; cases h2
    · obtain ⟨m, hm, hr⟩ := hf.2 t
      refine ⟨m - t, ?_⟩
      rw [show t + (m - t) = m by omega]
      rintro (⟨h2, -⟩ | ⟨-, -, h2⟩)
      · exact hs h2
      · rw [hr] at h2; cases h2
  have hmin := Nat.find_spec hex
  have hlt : ∀ d < Nat.find hex, Blocked v r (f (t + d)) := fun d hd => Classical.not_not.mp (Nat.find_min hex hd)
  generalize Nat.find hex = d at hmin hlt
  have stay : ∀ e ≤ d, driveN E f u inp (t + e) = .ok (v, r) := by
    intro e
    induction e with
    | zero => intro _; exact h
    | succ e ih =>
      intro he
      rw [← Nat.add_assoc, driveN_succ, ih (by omega), M.ok_bind]
      rcases drive1_blocked E v r (f (t + e)) (hlt e (by omega)) with h3 | ⟨x, h3, h4⟩
      · exact h3
      · rw [hq] at h4; cases h4
  refine ⟨t + d + 1, by omega, ?_⟩
  rw [driveN_succ, stay d (Nat.le_refl _), M.ok_bind, drive1_unblocked E v r _ hmin, hq]

/-- Under a fair schedule the shell gets to the idle point of the chain and stays there. -/
theorem fair_reaches (E : Env) (f : Nat → Slot) (hf : Fair f) (u : Ush) (inp : List UInt8) (v : Ush)
    (h : Steps E u inp v []) (hi : Idle v []) (hc : v.current.isSome = true) :
    ∃ N, ∀ n ≥ N, driveN E f u inp n = .ok (v, []) := by
  obtain ⟨n, hn⟩ := h
  have key : ∀ (n : Nat) (w : Ush) (r : List UInt8) (t : Nat), chain E w r n = .ok (v, []) → driveN E f u inp t = .ok (w, r) →
      ∃ t', driveN E f u inp t' = .ok (v, []) := by
    intro n
    induction n with
    | zero => intro w r t h1 h2; cases h1; exact ⟨t, h2⟩
    | succ n ih =>
      intro w r t h1 h2
      rw [chain_succ] at h1
      obtain ⟨q, hq, h3⟩ := M.bind_eq_ok.mp h1
      by_cases hw : Idle w r
      · have hcw : w.current.isSome = true := by
          cases hcw : w.current.isSome with
          | true => rfl
          | false => rw [drive1_noroot E w r _ hcw] at hq; cases hq
        have hz := chain_idle E w r hw hcw (n + 1)
        rw [chain_succ, hq] at hz
        rw [M.ok_bind] at hz
        rw [h3] at hz
        cases hz
        exact ⟨t, h2⟩
      · obtain ⟨t', -, h4⟩ := fair_step E f hf u inp t w r h2 q hq hw
        exact ih q.1 q.2 t' h3 h4
  obtain ⟨N, hN⟩ := key n u inp 0 hn rfl
  refine ⟨N, fun m hm => ?_⟩
  obtain ⟨d, rfl⟩ := Nat.exists_eq_add_of_le hm
  clear hm
  induction d with
  | zero => exact hN
  | succ d ih =>
    rw [← Nat.add_assoc, driveN_succ, ih, M.ok_bind]
    have hb : Blocked v [] (f (N + d)) := Or.inl ⟨hi.1, Or.inr rfl⟩
    rcases drive1_blocked E v [] (f (N + d)) hb with h3 | ⟨x, -, h4⟩
    · exact h3
    · have := chain_idle E v [] hi hc 1
      rw [chain_succ, h4] at this; cases this

/-- Delivery of a message, call by call. -/
theorem serve_message (E : Env) (f : Nat → Io) (u : Ush) (d : List UInt8) (hc : u.current.isSome = true)
    (hs : u.state = .writeChar) (hp : u.writePos = 0) (hn : u.writeSize = d.length) (hr : Readable u u.writeBuf d)
    (hf : ∀ n, ∃ m ≥ n, (f m).wr = true) :
    ∃ N, (∀ n ≤ N, ∃ k ≤ d.length, serve E f u n = .ok { u with writePos := k, log := u.log ++ outs (d.take k) }) ∧
      serve E f u (N + 1) = .ok { u with writePos := d.length, log := u.log ++ outs d, state := u.writeNext } := by
  -- after the call number `t` has found `k` bytes sent
  have key : ∀ j, j ≤ d.length → ∃ N, (∀ n ≤ N, ∃ k ≤ d.length, serve E f u n = .ok { u with writePos := k, log := u.log ++ outs (d.take k) }) ∧
      serve E f u N = .ok { u with writePos := j, log := u.log ++ outs (d.take j) } := by
    intro j
    induction j with
    | zero =>
      intro _
      have e0 : serve E f u 0 = .ok { u with writePos := 0, log := u.log ++ outs (d.take 0) } := by
        simp only [List.take_zero, List.map_nil, List.append_nil]; rw [← hp, hp]; show Except.ok u = _; rw [← hp]
      exact ⟨0, fun n hn => ⟨0, Nat.zero_le _, by rw [Nat.le_zero.mp hn]; exact e0⟩, e0⟩
    | succ j ih =>
      intro hj
      obtain ⟨N, hN, eN⟩ := ih (by omega)
      have hex : ∃ e, (f (N + e)).wr = true := by
        obtain ⟨m, hm, h⟩ := hf N
        exact ⟨m - N, by rw [show N + (m - N) = m by omega]; exact h⟩
      have hmin := Nat.find_spec hex
      have hlt : ∀ e < Nat.find hex, (f (N + e)).wr = false := fun e he => by
        have := Nat.find_min hex he; simpa using this
      generalize Nat.find hex = e at hmin hlt
      have hstep : ∀ io : Io, service E io { u with writePos := j, log := u.log ++ outs (d.take j) } =
          .ok (if io.wr = true then { u with writePos := j + 1, log := u.log ++ outs (d.take (j + 1)) }
               else { u with writePos := j, log := u.log ++ outs (d.take j) }, true) := by
        intro io
        rw [service_write E io { u with writePos := j, log := u.log ++ outs (d.take j) } hc hs]
        unfold writeChar
        rw [if_neg (show ¬ j ≥ u.writeSize by omega)]
        have hrd : ptrRead { u with writePos := j, log := u.log ++ outs (d.take j) } u.writeBuf j = .ok d[j] :=
          (hr.congr rfl rfl) j (by omega)
        show (ptrRead _ u.writeBuf j >>= _) >>= _ = _
        rw [hrd]
        cases io.wr with
        | false => rfl
        | true =>
          have ht : d.take (j + 1) = d.take j ++ [d[j]] := (List.take_append_getElem (by omega)).symm
          rw [ht]
          simp only [M.ok_bind, M.pure_eq, if_true, Ush.emit, outs, List.map_append, List.map_cons, List.map_nil, List.append_assoc]
      have stay : ∀ i ≤ e, serve E f u (N + i) = .ok { u with writePos := j, log := u.log ++ outs (d.take j) } := by
        intro i
        induction i with
        | zero => intro _; exact eN
        | succ i ihi =>
          intro hi
          rw [← Nat.add_assoc, serve, ihi (by omega), M.ok_bind, hstep, hlt i (by omega)]
          rfl
      have last : serve E f u (N + e + 1) = .ok { u with writePos := j + 1, log := u.log ++ outs (d.take (j + 1)) } := by
        rw [serve, stay e (Nat.le_refl _), M.ok_bind, hstep, hmin]
        rfl
      refine ⟨N + e + 1, fun n hn' => ?_, last⟩
      by_cases h1 : n ≤ N
      · exact hN n h1
      · by_cases h2 : n ≤ N + e
        · exact ⟨j, by omega, by rw [show n = N + (n - N) by omega]; exact stay _ (by omega)⟩
        · exact ⟨j + 1, hj, by rw [show n = N + e + 1 by omega]; exact last⟩
  obtain ⟨N, hN, eN⟩ := key d.length (Nat.le_refl _)
  refine ⟨N, hN, ?_⟩
  rw [serve, eN, M.ok_bind]
  rw [service_write E (f N) { u with writePos := d.length, log := u.log ++ outs (d.take d.length) } hc hs]
  unfold writeChar
  rw [if_pos (show d.length ≥ u.writeSize by omega), List.take_length]
  rfl

end Ush
