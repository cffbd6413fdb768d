import Verif.Proof.Sched
/-!
# Delivery of messages
-/
namespace Ush
open Spec

theorem Spec.Readable.str (u : Ush) (s : Str) : Readable u (.str s) s := by
  intro i h
  show rd (s ++ [cNul]) i = _
  rw [rd_ok (by simp; omega)]
  simp [List.getElem_append_left h]

theorem Spec.Readable.data (u : Ush) (s : Str) : Readable u (.data s) s := by
  intro i h
  exact rd_ok h

theorem Spec.Readable.out (u : Ush) (s rest : List UInt8) (h : u.outBuf = s ++ rest) : Readable u .outBuf s := by
  intro i hi
  show rd u.outBuf i = _
  rw [h, rd_ok (by simp; omega)]
  simp [List.getElem_append_left hi]

theorem Spec.Readable.inb (u : Ush) (o : Nat) (s rest : List UInt8) (h : u.inBuf.drop o = s ++ rest) : Readable u (.inBuf o) s := by
  intro i hi
  show rd u.inBuf (o + i) = _
  rw [rd_eq_ok]
  have : u.inBuf[o + i]? = (u.inBuf.drop o)[i]? := by rw [List.getElem?_drop]
  rw [this, h, List.getElem?_append_left hi, List.getElem?_eq_getElem hi]

/-- The state after the message `s` has been delivered. -/
def said (u : Ush) (p : Ptr) (s : List UInt8) (next : St) : Ush :=
  { u with state := next, writeNext := next, writeBuf := p, writeSize := s.length, writePos := s.length, log := u.log ++ outs s }

@[simp] theorem said_state (u : Ush) (p : Ptr) (s : List UInt8) (n : St) : (said u p s n).state = n := rfl
@[simp] theorem said_log (u : Ush) (p : Ptr) (s : List UInt8) (n : St) : (said u p s n).log = u.log ++ outs s := rfl
@[simp] theorem said_current (u : Ush) (p : Ptr) (s : List UInt8) (n : St) : (said u p s n).current = u.current := rfl
@[simp] theorem said_nodes (u : Ush) (p : Ptr) (s : List UInt8) (n : St) : (said u p s n).nodes = u.nodes := rfl
@[simp] theorem said_promptNext (u : Ush) (p : Ptr) (s : List UInt8) (n : St) : (said u p s n).promptNext = u.promptNext := rfl
@[simp] theorem said_inBuf (u : Ush) (p : Ptr) (s : List UInt8) (n : St) : (said u p s n).inBuf = u.inBuf := rfl
@[simp] theorem said_outBuf (u : Ush) (p : Ptr) (s : List UInt8) (n : St) : (said u p s n).outBuf = u.outBuf := rfl
@[simp] theorem said_root (u : Ush) (p : Ptr) (s : List UInt8) (n : St) : (said u p s n).root = u.root := rfl
@[simp] theorem said_commands (u : Ush) (p : Ptr) (s : List UInt8) (n : St) : (said u p s n).commands = u.commands := rfl
@[simp] theorem said_inPos (u : Ush) (p : Ptr) (s : List UInt8) (n : St) : (said u p s n).inPos = u.inPos := rfl
@[simp] theorem said_ansiEsc (u : Ush) (p : Ptr) (s : List UInt8) (n : St) : (said u p s n).ansiEsc = u.ansiEsc := rfl
@[simp] theorem said_argsCount (u : Ush) (p : Ptr) (s : List UInt8) (n : St) : (said u p s n).argsCount = u.argsCount := rfl
@[simp] theorem said_procNode (u : Ush) (p : Ptr) (s : List UInt8) (n : St) : (said u p s n).procNode = u.procNode := rfl
@[simp] theorem said_procChild (u : Ush) (p : Ptr) (s : List UInt8) (n : St) : (said u p s n).procChild = u.procChild := rfl
@[simp] theorem said_procFile (u : Ush) (p : Ptr) (s : List UInt8) (n : St) : (said u p s n).procFile = u.procFile := rfl
@[simp] theorem said_procIndex (u : Ush) (p : Ptr) (s : List UInt8) (n : St) : (said u p s n).procIndex = u.procIndex := rfl
@[simp] theorem said_procItem (u : Ush) (p : Ptr) (s : List UInt8) (n : St) : (said u p s n).procItem = u.procItem := rfl
@[simp] theorem said_procData (u : Ush) (p : Ptr) (s : List UInt8) (n : St) : (said u p s n).procData = u.procData := rfl
@[simp] theorem said_procDataSize (u : Ush) (p : Ptr) (s : List UInt8) (n : St) : (said u p s n).procDataSize = u.procDataSize := rfl

theorem ptrRead_congr {u v : Ush} (h1 : v.inBuf = u.inBuf) (h2 : v.outBuf = u.outBuf) (p : Ptr) (i : Nat) :
    ptrRead v p i = ptrRead u p i := by
  unfold ptrRead; rw [h1, h2]

theorem Spec.Readable.congr {u v : Ush} {p : Ptr} {d : List UInt8} (h : Readable u p d) (h1 : v.inBuf = u.inBuf)
    (h2 : v.outBuf = u.outBuf) : Readable v p d := by
  intro i hi; rw [ptrRead_congr h1 h2]; exact h i hi

/-- Delivery of the rest of a message. -/
theorem Spec.Steps.deliver {E : Env} (inp : List UInt8) (d : List UInt8) : ∀ (n : Nat) (u : Ush), u.current.isSome = true →
    u.state = .writeChar → u.writeSize = d.length → u.writePos + n = d.length → Readable u u.writeBuf d →
    Steps E u inp { u with state := u.writeNext, writePos := d.length, log := u.log ++ outs (d.drop u.writePos) } inp := by
  intro n
  induction n with
  | zero =>
    intro u hc hs hsz hp hr
    apply Steps.one
    unfold drive1
    rw [service_eq E _ u hc, hs]
    simp only [reduceCtorEq, false_and, if_false]
    unfold writeChar
    rw [if_pos (by omega)]
    simp only [M.ok_bind, M.pure_eq, Except.ok.injEq, Prod.mk.injEq, and_true]
    have h1 : d.drop u.writePos = [] := List.drop_of_length_le (by omega)
    have h2 : d.length = u.writePos := by omega
    rw [h1, h2]
    simp
  | succ n ih =>
    intro u hc hs hsz hp hr
    have hlt : u.writePos < d.length := by omega
    have h1 : Steps E u inp { u with writePos := u.writePos + 1, log := u.log ++ [.out d[u.writePos]] } inp := by
      apply Steps.one
      unfold drive1
      rw [service_eq E _ u hc, hs]
      simp only [reduceCtorEq, false_and, if_false]
      unfold writeChar
      rw [if_neg (by omega), hr _ hlt]
      simp [Ush.emit, hs]
    refine h1.trans ?_
    have h2 := ih { u with writePos := u.writePos + 1, log := u.log ++ [.out d[u.writePos]] } hc hs hsz
      (by show u.writePos + 1 + n = _; omega) (hr.congr rfl rfl)
    have h3 : outs (d.drop u.writePos) = .out d[u.writePos] :: outs (d.drop (u.writePos + 1)) := by
      rw [List.drop_eq_getElem_cons hlt]; rfl
    rw [h3]
    simpa using h2

/-- Delivery of a message that has just been handed to the engine. -/
theorem Spec.Steps.say {E : Env} (inp : List UInt8) (u : Ush) (p : Ptr) (s : List UInt8) (next : St) (hc : u.current.isSome = true)
    (hr : Readable u p s) : Steps E (writePointerBin u p s.length next) inp (said u p s next) inp := by
  have := Steps.deliver (E := E) inp s s.length (writePointerBin u p s.length next) hc rfl rfl (by simp [writePointerBin])
    (hr.congr rfl rfl)
  simpa [said, writePointerBin] using this

theorem writePointer_of {u : Ush} {p : Ptr} {s : Str} (next : St) (hp : p ≠ .null) (h : ptrStr u p = .ok s) :
    writePointer u p next = .ok (writePointerBin u p s.length next) := by
  unfold writePointer
  have : decide (p ≠ .null) = true := by simpa using hp
  rw [this, h]; rfl

theorem ptrStr_str (u : Ush) (s : Str) (hs : cNul ∉ s) : ptrStr u (.str s) = .ok s := cstrAt_zero s [] hs

theorem writePointer_str (u : Ush) (s : Str) (next : St) (hs : cNul ∉ s) :
    writePointer u (.str s) next = .ok (writePointerBin u (.str s) s.length next) :=
  writePointer_of next (by simp) (ptrStr_str u s hs)

/-- A step that prints the constant text `s`. -/
theorem Spec.Steps.sayStr {E : Env} (inp : List UInt8) {u : Ush} {s : Str} {next : St} (hc : u.current.isSome = true)
    (h1 : u.state ≠ .readChar) (h2 : u.state ≠ .writeChar) (hs : cNul ∉ s)
    (h : innerStep E u = writePointer u (.str s) next) : Steps E u inp (said u (.str s) s next) inp := by
  rw [writePointer_str u s next hs] at h
  exact (Steps.inner inp hc h1 h2 h).trans (Steps.say inp u (.str s) s next hc (Readable.str u s))

end Ush
