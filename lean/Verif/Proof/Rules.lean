import Verif.Proof.Printf
import Verif.Spec.Safe
/-!
# Lemmas for C82
-/
namespace Ush
open Spec
variable {E : Env} {u : Ush}

theorem cstrAt_iff {b : List UInt8} {o : Nat} : (∃ s, cstrAt b o = .ok s) ↔ cNul ∈ b.drop o := by
  unfold cstrAt
  split
  · rename_i h; exact ⟨fun _ => h, fun _ => ⟨_, rfl⟩⟩
  · rename_i h; exact ⟨fun ⟨_, k⟩ => (nomatch k), fun k => absurd k h⟩

theorem writePointer_iff {p : Ptr} {s : St} : (∃ v, writePointer u p s = .ok v) ↔ p ≠ .null ∧ ∃ s, ptrStr u p = .ok s := by
  constructor
  · rintro ⟨v, h⟩
    unfold writePointer at h
    obtain ⟨_, h1, h⟩ := M.bind_eq_ok.mp h
    obtain ⟨s, h2, -⟩ := M.bind_eq_ok.mp h
    refine ⟨?_, s, h2⟩
    rintro rfl
    cases h2
  · rintro ⟨h1, s, h2⟩
    exact ⟨_, writePointer_of _ h1 h2⟩

/-- Whether something is written outside the buffer does not depend on how much of it has been printed. -/
theorem printfError_any (m : Str) (p n : Nat) (s t : St) : (∃ v, printfError E u m = .ok v) ↔ ∃ v, printfError E { u with writePos := p, writeSize := n, state := s, writeNext := t } m = .ok v := by
  unfold printfError
  simp only
  cases strlenAt u.outBuf 0 with
  | error e => exact ⟨fun ⟨_, h⟩ => (nomatch h), fun ⟨_, h⟩ => (nomatch h)⟩
  | ok len =>
    simp only [M.ok_bind]
    split
    · cases storeStr u.outBuf len m with
      | error e => exact ⟨fun ⟨_, h⟩ => (nomatch h), fun ⟨_, h⟩ => (nomatch h)⟩
      | ok b =>
        simp only [M.ok_bind]
        cases strlenAt b len with
        | error e => exact ⟨fun ⟨_, h⟩ => (nomatch h), fun ⟨_, h⟩ => (nomatch h)⟩
        | ok k => exact ⟨fun _ => ⟨_, rfl⟩, fun _ => ⟨_, rfl⟩⟩
    · split
      · exact ⟨fun ⟨_, h⟩ => (nomatch h), fun ⟨_, h⟩ => (nomatch h)⟩
      · cases storeStr u.outBuf (E.outSize - (m.length + 1)) m with
        | error e => exact ⟨fun ⟨_, h⟩ => (nomatch h), fun ⟨_, h⟩ => (nomatch h)⟩
        | ok b => exact ⟨fun _ => ⟨_, rfl⟩, fun _ => ⟨_, rfl⟩⟩

theorem ushPrintf_any (hw : u.writeBuf = .outBuf) (f : Fmt) (p n : Nat) : (∃ v, ushPrintf E u f = .ok v) ↔ ∃ v, ushPrintf E { u with writePos := p, writeSize := n } f = .ok v := by
  unfold ushPrintf
  rw [if_neg (by simp [hw]), if_neg (by simp [hw])]
  simp only [M.pure_eq, M.ok_bind]
  cases strlenAt u.outBuf 0 with
  | error e => exact ⟨fun ⟨_, h⟩ => (nomatch h), fun ⟨_, h⟩ => (nomatch h)⟩
  | ok len =>
    simp only [M.ok_bind]
    generalize (match f with | .text s => s | .error s => s : Str).take (E.outSize - len - 1) = x
    cases storeStr u.outBuf len x with
    | error e => exact ⟨fun ⟨_, h⟩ => (nomatch h), fun ⟨_, h⟩ => (nomatch h)⟩
    | ok b =>
      simp only [M.ok_bind]
      cases strlenAt b len with
      | error e => exact ⟨fun ⟨_, h⟩ => (nomatch h), fun ⟨_, h⟩ => (nomatch h)⟩
      | ok k =>
        simp only [M.ok_bind]
        cases f with
        | error s => exact printfError_any (u := { u with state := .writeChar, writeNext := .resetPrompt, outBuf := b, writeSize := u.writeSize + k }) msgFormatError p (n + k) .writeChar .resetPrompt
        | text s =>
          simp only
          split
          · exact printfError_any (u := { u with state := .writeChar, writeNext := .resetPrompt, outBuf := b, writeSize := u.writeSize + k }) msgOverflowError p (n + k) .writeChar .resetPrompt
          · exact ⟨fun _ => ⟨_, rfl⟩, fun _ => ⟨_, rfl⟩⟩

theorem draws_iff {P : Sheet} (H : Draws E P u) (f : Fmt) : (∃ v, ushPrintf E u f = .ok v) ↔ (P.printf E.outSize f).isSome = true := by
  have := draws_printf H f
  cases h : P.printf E.outSize f with
  | none => rw [h] at this; exact ⟨fun ⟨_, k⟩ => (by rw [this] at k; cases k), fun k => (nomatch k)⟩
  | some Q => rw [h] at this; obtain ⟨o, n, e, -⟩ := this; exact ⟨fun _ => rfl, fun _ => ⟨_, e⟩⟩

/-- All states: the text that is in the buffer for `ush_printf`. -/
theorem printf_iff (hl : u.outBuf.length = E.outSize) (ho : 0 < E.outSize) (ht : u.writeBuf = .outBuf → cNul ∈ u.outBuf) (f : Fmt) :
    (∃ v, ushPrintf E u f = .ok v) ↔ (Sheet.printf E.outSize { text := if u.writeBuf = .outBuf then u.outBuf.takeWhile (· ≠ cNul) else [] } f).isSome = true := by
  by_cases hw : u.writeBuf = .outBuf
  · rw [if_pos hw]
    obtain ⟨h1, h2⟩ := nulSplit u.outBuf
    have hb : ∃ t, u.outBuf = u.outBuf.takeWhile (· ≠ cNul) ++ cNul :: t := by
      rcases h2 with ⟨-, h2⟩ | h2
      · exact absurd (ht hw) h2
      · exact h2
    rw [ushPrintf_any hw f 0 (u.outBuf.takeWhile (· ≠ cNul)).length]
    exact draws_iff (u := { u with writePos := 0, writeSize := (u.outBuf.takeWhile (· ≠ cNul)).length }) (P := { text := u.outBuf.takeWhile (· ≠ cNul) }) ⟨hl, h1, hb, Nat.zero_le _, ⟨hw, rfl, by simp [Sheet.bytes]⟩, fun h => nomatch h⟩ f
  · rw [if_neg hw]
    cases hb : u.outBuf with
    | nil => rw [hb] at hl; simp at hl; omega
    | cons x t =>
      rw [ushPrintf_rewind hw hb]
      exact draws_iff (draws_rewind hl hb) f

theorem printf_text (n k : Nat) (a s : Str) (hk : a.length = k) (hn : k < n) (hs : cNul ∉ s) :
    (Sheet.printf n { text := a } (.text s)).isSome = true ↔ 20 ≤ n ∨ k + s.length < n := by
  have hw : s.takeWhile (· ≠ cNul) = s := by
    rcases (nulSplit s).2 with h | ⟨r, h⟩
    · exact h.1
    · exact absurd (h ▸ (by simp : cNul ∈ s.takeWhile (· ≠ cNul) ++ cNul :: r)) hs
  unfold Sheet.printf complaint
  simp only [Fmt.out, hw, hs, false_or]
  by_cases h : n ≤ a.length + s.length
  · rw [if_pos h]
    have hl : ((a ++ s).take (n - 1)).length = n - 1 := by simp; omega
    have hm : (b!"...overflow error\r\n" : Str).length = 19 := rfl
    unfold Sheet.add
    simp only [hl, hm]
    rw [if_neg (by omega)]
    split
    · rename_i h'; exact ⟨fun k => (nomatch k), fun k => by omega⟩
    · rename_i h'; exact ⟨fun _ => .inl (by omega), fun _ => rfl⟩
  · rw [if_neg h]
    exact ⟨fun _ => .inr (by omega), fun _ => rfl⟩

theorem printf_error (n k : Nat) (a s : Str) (hk : a.length = k) (hn : k < n) (hs : cNul ∉ s) :
    (Sheet.printf n { text := a } (.error s)).isSome = true ↔ 18 ≤ n ∧ k + s.length + 17 ≠ n := by
  have hw : s.takeWhile (· ≠ cNul) = s := by
    rcases (nulSplit s).2 with h | ⟨r, h⟩
    · exact h.1
    · exact absurd (h ▸ (by simp : cNul ∈ s.takeWhile (· ≠ cNul) ++ cNul :: r)) hs
  unfold Sheet.printf complaint
  simp only [Fmt.out, hw]
  have hl : ((a ++ s).take (n - 1)).length = min (n - 1) (k + s.length) := by simp [hk]
  have hm : (b!"...format error\r\n" : Str).length = 17 := rfl
  unfold Sheet.add
  simp only [hl, hm]
  split
  · exact ⟨fun _ => by omega, fun _ => rfl⟩
  · split
    · exact ⟨fun k => (nomatch k), fun k => by omega⟩
    · exact ⟨fun _ => by omega, fun _ => rfl⟩

end Ush
