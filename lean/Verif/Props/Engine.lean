import Verif.Proof.Fair
/-!
# Properties of the service loop (C20, C21, C22)
-/
namespace Ush.Props
open Spec

/-! ### A small shell used as witness: two characters of a line are typed -/

def eE : Env := { inSize := 8, outSize := 8, pathMax := 8, nodeCount := 2, hostname := b!"h" }

def eU : Ush := { state := .readChar, root := some 1, current := some 1, inBuf := List.replicate 8 0, outBuf := List.replicate 8 0, nodes := setNode (fun _ => {}) 1 { path := some b!"/" } }

/-- `eU` after `ab` has been typed and echoed. -/
def eV : Ush := { eU with inPos := 2, inBuf := b!"ab" ++ List.replicate 6 0, outBuf := b!"b" ++ List.replicate 7 0, writeNext := .readChar, writeBuf := .outBuf, writeSize := 1, writePos := 1, log := [.inp 97, .out 97, .inp 98, .out 98] }

theorem eSteps : Steps eE eU b!"ab" eV [] := ⟨6, rfl⟩

/-! ## C20 Output does not depend on timing -/

/-- Two schedules for the same input from the same state: what happened under one of them (input consumed, bytes
printed, callbacks called, in their order) is a beginning of what happened under the other. -/
theorem C20_prefix (E : Env) (u : Ush) (inp : List UInt8) (s1 s2 : List Slot) (v1 v2 : Ush) (r1 r2 : List UInt8)
    (h1 : drive E u inp s1 = .ok (v1, r1)) (h2 : drive E u inp s2 = .ok (v2, r2)) :
    v1.log <+: v2.log ∨ v2.log <+: v1.log := by
  obtain ⟨k1, -, e1⟩ := drive_chain E s1 u inp v1 r1 h1
  obtain ⟨k2, -, e2⟩ := drive_chain E s2 u inp v2 r2 h2
  rcases Nat.le_total k1 k2 with hk | hk <;> obtain ⟨d, rfl⟩ := Nat.exists_eq_add_of_le hk
  · left
    rw [chain_add, e1, M.ok_bind] at e2
    exact drive_log _ e2
  · right
    rw [chain_add, e2, M.ok_bind] at e1
    exact drive_log _ e1

example : ∃ v1 r1 v2 r2, drive eE eU b!"ab" [⟨false, true⟩, ⟨true, false⟩, ⟨true, false⟩, ⟨true, true⟩] = .ok (v1, r1) ∧
    drive eE eU b!"ab" (List.replicate 6 Slot.full) = .ok (v2, r2) ∧ v1.log = [.inp 97, .out 97] ∧ v2.log = eV.log :=
  ⟨_, _, _, _, rfl, rfl, rfl, rfl⟩

/-- Two schedules that both bring the shell to rest leave it in the same state, with the same log. -/
theorem C20_same_result (E : Env) (u : Ush) (inp : List UInt8) (s1 s2 : List Slot) (v1 v2 : Ush) (r1 r2 : List UInt8)
    (h1 : drive E u inp s1 = .ok (v1, r1)) (h2 : drive E u inp s2 = .ok (v2, r2)) (i1 : Idle v1 r1) (i2 : Idle v2 r2)
    (hc1 : v1.current.isSome = true) (hc2 : v2.current.isSome = true) : v1 = v2 ∧ r1 = r2 := by
  obtain ⟨k1, -, e1⟩ := drive_chain E s1 u inp v1 r1 h1
  obtain ⟨k2, -, e2⟩ := drive_chain E s2 u inp v2 r2 h2
  rcases Nat.le_total k1 k2 with hk | hk <;> obtain ⟨d, rfl⟩ := Nat.exists_eq_add_of_le hk
  · rw [chain_add, e1, M.ok_bind, chain_idle E v1 r1 i1 hc1] at e2
    cases e2; exact ⟨rfl, rfl⟩
  · rw [chain_add, e2, M.ok_bind, chain_idle E v2 r2 i2 hc2] at e1
    cases e1; exact ⟨rfl, rfl⟩

example : drive eE eU b!"ab" ((List.replicate 6 [⟨false, true⟩, ⟨true, false⟩, Slot.full]).flatten) = .ok (eV, []) ∧
    drive eE eU b!"ab" (List.replicate 6 Slot.full) = .ok (eV, []) ∧ Idle eV [] :=
  ⟨rfl, rfl, rfl, rfl⟩

/-- Whether the run faults does not depend on the schedule either: a schedule can only run into a fault that the run with
everything ready runs into. -/
theorem C20_faults (E : Env) (u : Ush) (inp : List UInt8)
    (h : ∀ n, ∃ p, drive E u inp (List.replicate n Slot.full) = .ok p) (ss : List Slot) : ∃ p, drive E u inp ss = .ok p := by
  cases e : drive E u inp ss with
  | ok p => exact ⟨p, rfl⟩
  | error f =>
    obtain ⟨k, -, ek⟩ := drive_fault E ss u inp f e
    obtain ⟨p, hp⟩ := h k
    unfold chain at ek
    rw [ek] at hp; cases hp

example : ∀ n, ∃ p, drive eE eV [] (List.replicate n Slot.full) = .ok p := fun n =>
  ⟨_, chain_idle eE eV [] ⟨rfl, rfl⟩ rfl n⟩

/-- If the run with everything ready comes to rest in `v`, then under every schedule that offers input again and again and
output again and again the shell comes to rest in exactly `v`. -/
theorem C20_fair (E : Env) (u v : Ush) (inp : List UInt8) (h : Steps E u inp v []) (hi : Idle v [])
    (hc : v.current.isSome = true) (f : Nat → Slot) (hf : Fair f) :
    ∃ N, ∀ n ≥ N, driveN E f u inp n = .ok (v, []) :=
  fair_reaches E f hf u inp v h hi hc

example : Steps eE eU b!"ab" eV [] ∧ Idle eV [] ∧ eV.current.isSome = true ∧
    Fair (fun n => if n % 2 = 0 then ⟨true, false⟩ else ⟨false, true⟩) :=
  ⟨eSteps, ⟨rfl, rfl⟩, rfl, fun n => ⟨2 * n, by omega, by simp⟩, fun n => ⟨2 * n + 1, by omega, by
    simp [show (2 * n + 1) % 2 = 1 by omega]⟩⟩

/-! ## C21 Messages are delivered completely, once, in order -/

/-- The message `d` (any bytes) at `p` is handed to the output engine, to be followed by state `next`.  The write
callback may refuse as often as it likes, as long as it accepts again and again.  Then up to some call `N` the shell
does nothing but send the bytes of `d` in order, and with call `N` it has sent all of them and goes on to `next`. -/
theorem C21_delivery (E : Env) (u0 : Ush) (p : Ptr) (d : List UInt8) (next : St) (hc : u0.current.isSome = true)
    (hr : Readable u0 p d) (f : Nat → Io) (hf : ∀ n, ∃ m ≥ n, (f m).wr = true) :
    let u := writePointerBin u0 p d.length next
    ∃ N, (∀ n ≤ N, ∃ k ≤ d.length, serve E f u n = .ok { u with writePos := k, log := u.log ++ (d.take k).map .out }) ∧
      serve E f u (N + 1) = .ok { u with writePos := d.length, log := u.log ++ d.map .out, state := next } :=
  serve_message E f (writePointerBin u0 p d.length next) d hc rfl rfl rfl (hr.congr rfl rfl) hf

example : eU.current.isSome = true ∧ Readable eU (.data [0, 10, 27, 0]) [0, 10, 27, 0] ∧
    ∀ n, ∃ m ≥ n, ((fun n => { wr := decide (n % 3 = 2) } : Nat → Io) m).wr = true :=
  ⟨rfl, Readable.data _ _, fun n => ⟨3 * n + 2, by omega, by simp⟩⟩

/-- `ush_write_pointer` on a text hands over exactly the bytes of the text. -/
theorem C21_text (E : Env) (u0 : Ush) (s : Str) (next : St) (hs : cNul ∉ s) (hc : u0.current.isSome = true)
    (f : Nat → Io) (hf : ∀ n, ∃ m ≥ n, (f m).wr = true) :
    ∃ u N v, writePointer u0 (.str s) next = .ok u ∧ serve E f u N = .ok v ∧ v.state = next ∧
      v.log = u0.log ++ s.map .out := by
  obtain ⟨N, -, h2⟩ := C21_delivery E u0 (.str s) s next hc (Readable.str u0 s) f hf
  exact ⟨_, N + 1, _, writePointer_str u0 s next hs, h2, rfl, rfl⟩

example : cNul ∉ b!"some text" := by decide

/-- `ush_write_pointer` on the output buffer hands over the text in the buffer. -/
theorem C21_buffer (E : Env) (u0 : Ush) (s rest : Str) (next : St) (hs : cNul ∉ s) (hb : u0.outBuf = s ++ cNul :: rest)
    (hc : u0.current.isSome = true) (f : Nat → Io) (hf : ∀ n, ∃ m ≥ n, (f m).wr = true) :
    ∃ u N v, writePointer u0 .outBuf next = .ok u ∧ serve E f u N = .ok v ∧ v.state = next ∧
      v.log = u0.log ++ s.map .out := by
  obtain ⟨N, -, h2⟩ := C21_delivery E u0 .outBuf s next hc (Readable.out u0 s _ hb) f hf
  refine ⟨_, N + 1, _, writePointer_of next (by simp) ?_, h2, rfl, rfl⟩
  show cstrAt u0.outBuf 0 = _
  rw [hb]; exact cstrAt_zero s rest hs

example : cNul ∉ b!"b" ∧ eV.outBuf = b!"b" ++ cNul :: List.replicate 6 0 := ⟨by decide, rfl⟩

/-! ## C22 One I/O operation per service call -/

/-- One service call adds at most one consumed or emitted byte to the log. -/
theorem C22_one_io (E : Env) (io : Io) (u v : Ush) (b : Bool) (h : service E io u = .ok (v, b)) :
    ∃ l, v.log = u.log ++ l ∧ l.countP Event.isIo ≤ 1 := service_log h

example : ∃ v, service eE ⟨some 97, true⟩ eU = .ok (v, true) ∧ v.log = [.inp 97] := ⟨_, rfl, rfl⟩

/-- A byte is consumed only if the read callback delivered it, and a byte is emitted only if the write callback
accepts. -/
theorem C22_only_offered (E : Env) (io : Io) (u v : Ush) (b : Bool) (h : service E io u = .ok (v, b)) :
    ∃ l, v.log = u.log ++ l ∧ (∀ c, .inp c ∈ l → io.rd = some c) ∧ (∀ c, .out c ∈ l → io.wr = true) := by
  have hn : ∀ l : List Event, (∀ e ∈ l, e.isIo = false) →
      (∀ c, .inp c ∈ l → io.rd = some c) ∧ (∀ c, .out c ∈ l → io.wr = true) :=
    fun l hl => ⟨fun c hc => (by cases hl _ hc), fun c hc => (by cases hl _ hc)⟩
  cases hc : u.current.isSome with
  | false => rw [service_noroot E io u hc] at h; cases h
  | true =>
    rw [service_eq E io u hc] at h
    split at h
    · refine ⟨_, readChar_log h, ?_, ?_⟩ <;> cases io.rd <;> simp_all
    · rename_i hs
      have : innerStep E u = readStart u := by unfold innerStep; rw [hs]
      obtain ⟨w, h1, h2⟩ := M.bind_eq_ok.mp h
      cases h2
      rw [← this] at h1
      obtain ⟨l, e, hl⟩ := innerStep_log h1
      exact ⟨l, e, hn l hl⟩
    · obtain ⟨w, h1, h2⟩ := M.bind_eq_ok.mp h
      cases h2
      unfold writeChar at h1
      split at h1
      · cases h1; exact ⟨[], by simp, by simp, by simp⟩
      · obtain ⟨c, -, h1⟩ := M.bind_eq_ok.mp h1
        split at h1
        · rename_i hw; cases h1; exact ⟨[.out c], rfl, by simp, fun _ _ => hw⟩
        · cases h1; exact ⟨[], by simp, by simp, by simp⟩
    · obtain ⟨w, h1, h2⟩ := M.bind_eq_ok.mp h
      cases h2
      obtain ⟨l, e, hl⟩ := innerStep_log h1
      exact ⟨l, e, hn l hl⟩

example : ∃ v, service eE ⟨none, false⟩ (writePointerBin eU (.str b!"x") 1 .reset) = .ok (v, true) ∧ v.log = [] := ⟨_, rfl, rfl⟩

/-- The call returns `false` only if afterwards the shell waits for input, and then it has neither read nor written
anything nor called a callback. -/
theorem C22_false_waiting (E : Env) (io : Io) (u v : Ush) (h : service E io u = .ok (v, false)) :
    v.state = .readChar ∧ v.log = u.log := by
  cases hc : u.current.isSome with
  | false => rw [service_noroot E io u hc] at h; cases h
  | true =>
    rw [service_eq E io u hc] at h
    split at h
    · rename_i hs
      unfold readChar at h
      split at h
      · cases h; exact ⟨hs, rfl⟩
      · obtain ⟨w, -, h⟩ := M.bind_eq_ok.mp h
        obtain ⟨w, -, h⟩ := M.bind_eq_ok.mp h
        cases h
    · obtain ⟨w, h1, h2⟩ := M.bind_eq_ok.mp h
      cases h2
      obtain ⟨w, -, h1⟩ := M.bind_eq_ok.mp h1
      cases h1
      exact ⟨rfl, rfl⟩
    · obtain ⟨w, h1, h2⟩ := M.bind_eq_ok.mp h
      cases h2
    · obtain ⟨w, h1, h2⟩ := M.bind_eq_ok.mp h
      cases h2

example : service eE ⟨none, true⟩ eU = .ok (eU, false) := rfl

/-- A shell that waits for input and is offered none returns `false` and does not change. -/
theorem C22_waiting_false (E : Env) (wr : Bool) (u : Ush) (hc : u.current.isSome = true) (hs : u.state = .readChar) :
    service E ⟨none, wr⟩ u = .ok (u, false) := by
  rw [service_eq E _ u hc, hs]; rfl

example : eU.current.isSome = true ∧ eU.state = .readChar := ⟨rfl, rfl⟩

end Ush.Props
