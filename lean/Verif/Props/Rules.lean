import Verif.Proof.Rules
import Verif.Props.Safe
import Verif.Props.Printf
/-!
# C82: the rules for library calls are exact

`Allowed` (Spec/Safe.lean) says what the library calls of the application need.  For the calls that print it is exact: a call that breaks the rule reads or writes outside an object at once.
For the others there are calls that break the rule and lead to a fault later.
-/
namespace Ush.Props
open Spec

/-- `ush_print` and `ush_print_no_newline`: the string has to be there and to end within its object; `ush_flush`: so has the text in the output buffer.  This is in all states. -/
theorem C82_print (E : Env) (L : Nat) (u : Ush) (p : Ptr) :
    ((∃ v, runApi E u (.print p) = .ok v) ↔ Allowed E L u (.print p)) ∧ ((∃ v, runApi E u (.printNoNewline p) = .ok v) ↔ Allowed E L u (.printNoNewline p)) ∧
      ((∃ v, runApi E u .flush = .ok v) ↔ Allowed E L u .flush) :=
  ⟨writePointer_iff, writePointer_iff, by
    have h : (∃ v, runApi E u .flush = .ok v) ↔ (Ptr.outBuf ≠ .null ∧ ∃ s, cstrAt u.outBuf 0 = .ok s) := writePointer_iff
    rw [h, cstrAt_iff]
    exact ⟨fun k => k.2, fun k => ⟨nofun, k⟩⟩⟩

/-- What that means for the memory. -/
theorem C82_memory (E : Env) (u : Ush) :
    (¬ ∃ v, runApi E u (.print .null) = .ok v) ∧ (∀ s, ∃ v, runApi E u (.print (.str s)) = .ok v) ∧ (∀ d, (∃ v, runApi E u (.print (.data d)) = .ok v) ↔ cNul ∈ d) ∧
      (∀ o, (∃ v, runApi E u (.print (.inBuf o)) = .ok v) ↔ cNul ∈ u.inBuf.drop o) ∧ ((∃ v, runApi E u (.print .outBuf) = .ok v) ↔ cNul ∈ u.outBuf) := by
  have h : ∀ p, (∃ v, runApi E u (.print p) = .ok v) ↔ p ≠ .null ∧ ∃ s, ptrStr u p = .ok s := fun p => writePointer_iff
  refine ⟨fun k => ((h _).mp k).1 rfl, fun s => (h _).mpr ⟨nofun, cstrAt_iff.mpr (by simp)⟩, fun d => ?_, fun o => ?_, ?_⟩
  · rw [h]; exact ⟨fun k => cstrAt_iff.mp k.2, fun k => ⟨nofun, cstrAt_iff.mpr k⟩⟩
  · rw [h]; exact ⟨fun k => cstrAt_iff.mp k.2, fun k => ⟨nofun, cstrAt_iff.mpr k⟩⟩
  · rw [h]; exact ⟨fun k => cstrAt_iff.mp k.2, fun k => ⟨nofun, cstrAt_iff.mpr k⟩⟩

/-- `ush_printf` with a formatted text, and with a format error: all states in which the text that is being printed from the output buffer is terminated (as it is at any
time in the histories of C23). -/
theorem C82_printf (E : Env) (L : Nat) (u : Ush) (hl : u.outBuf.length = E.outSize) (ho : 0 < E.outSize) (ht : u.writeBuf = .outBuf → cNul ∈ u.outBuf) (s : Str) (hs : cNul ∉ s) :
    ((∃ v, runApi E u (.printf (.text s)) = .ok v) ↔ Allowed E L u (.printf (.text s))) ∧
      ((∃ v, runApi E u (.printf (.error s)) = .ok v) ↔ Allowed E L u (.printf (.error s))) := by
  have h : ∀ f, (∃ v, runApi E u (.printf f) = .ok v) ↔ _ := fun f => printf_iff hl ho ht f
  have hb : u.writeBuf = .outBuf → (u.outBuf.takeWhile (· ≠ cNul)).length < E.outSize := by
    intro hw
    rcases (nulSplit u.outBuf).2 with k | ⟨r, k⟩
    · exact absurd (ht hw) k.2
    · have := congrArg List.length k
      rw [hl] at this
      simp only [List.length_append, List.length_cons] at this
      omega
  have hk : (if u.writeBuf = .outBuf then u.outBuf.takeWhile (· ≠ cNul) else []).length = if u.writeBuf = .outBuf then (outText u).length else 0 := by
    split <;> rfl
  have hn : (if u.writeBuf = .outBuf then (outText u).length else 0) < E.outSize := by
    split
    · rename_i hw; exact hb hw
    · exact ho
  refine ⟨(h _).trans ((printf_text _ _ _ s hk hn hs).trans ⟨fun k => ⟨hs, k⟩, fun k => k.2⟩), (h _).trans ((printf_error _ _ _ s hk hn hs).trans ⟨fun k => ⟨hs, k⟩, fun k => k.2⟩)⟩

/-- A text that the application writes to the output buffer itself, and `ush_flush`. -/
theorem C82_fill (E : Env) (u : Ush) (hl : u.outBuf.length = E.outSize) (s : Str) : (∃ v, runApis E u [.fillOut s, .flush] = .ok v) ↔ s.length < E.outSize := by
  constructor
  · rintro ⟨v, h⟩
    obtain ⟨w, h1, -⟩ := M.bind_eq_ok.mp h
    obtain ⟨o, h1, -⟩ := M.bind_eq_ok.mp h1
    unfold storeStr at h1
    split at h1
    · rename_i k; omega
    · cases h1
  · intro h
    obtain ⟨t, e⟩ := storeStr_zero (b := u.outBuf) (s := s) (by omega)
    have e1 : runApi E u (.fillOut s) = .ok { u with outBuf := s ++ cNul :: t } := by
      show (storeStr u.outBuf 0 s >>= fun o => pure { u with outBuf := o }) = _
      rw [e]; rfl
    obtain ⟨v, e2⟩ := ((C82_print E 0 { u with outBuf := s ++ cNul :: t } .null).2.2).mpr (show cNul ∈ s ++ cNul :: t by simp)
    refine ⟨v, ?_⟩
    show (runApi E u (.fillOut s) >>= fun u => runApi E u .flush >>= fun u => runApis E u []) = _
    rw [e1, M.ok_bind, e2]; rfl

/-- `ush_reset`: the next service call. -/
theorem C82_reset (E : Env) (u : Ush) (io : Io) : (∃ r, (runApi E u .reset >>= service E io) = .ok r) ↔ u.root.isSome = true := by
  have e : runApi E u .reset = .ok (writePointerBin { u with current := u.root } (.str banner) banner.length .resetPrompt) :=
    writePointer_of _ (by simp) (ptrStr_str _ _ (by decide))
  rw [e, M.ok_bind]
  cases hr : u.root.isSome with
  | false => exact ⟨fun ⟨_, k⟩ => (by rw [service_noroot E io _ hr] at k; cases k), fun k => (nomatch k)⟩
  | true =>
    refine ⟨fun _ => rfl, fun _ => ?_⟩
    unfold service
    have hc : (writePointerBin { u with current := u.root } (.str banner) banner.length .resetPrompt).current.isSome = true := hr
    rw [hc]
    cases hw : io.wr with
    | true => exact ⟨(_, true), by simp [writePointerBin, assertM, resetService, promptService, readService, autocompService, parseService, writeService, writeChar, ptrRead, banner, hw, rd, M.ok_bind, M.pure_eq]; rfl⟩
    | false => exact ⟨(_, true), by simp [writePointerBin, assertM, resetService, promptService, readService, autocompService, parseService, writeService, writeChar, ptrRead, banner, hw, rd, M.ok_bind, M.pure_eq]; rfl⟩

/-- The state of a process, when there is none: the next service call fails an assertion. -/
theorem C82_state (E : Env) (u : Ush) (io : Io) (h : u.procFile = none) (s : St) (hs : s = .processStart ∨ s = .processService ∨ s = .processFinish) :
    (runApi E u (.setState s) >>= service E io) = .error .assert := by
  show service E io { u with state := s } = _
  cases hc : u.current.isSome with
  | false => exact service_noroot E io _ hc
  | true =>
    unfold service
    rcases hs with rfl | rfl | rfl <;> simp only [hc, resetService, promptService, readService, autocompService, parseService, writeService, processService, h] <;> rfl

/-! ## Calls that are not allowed, and lead to a fault later -/

/-- The application makes the calls `as` at the prompt; the user enters `ls`. -/
def later (as : List Api) : Option Fault :=
  faultOf (run sE3 (blank (List.replicate 32 0) (List.replicate 64 0)) (steps sHist ++ typing 30 [] ++ as.map .api ++ typing 30 b!"ls\n"))

/-- The state set to one of the parser, of a process when there is none, or of the completion; `ush_process_start` with a process of the library;
`ush_reset` when there is no root directory.  A service call faults, or fails an assertion. -/
theorem C82_later : later [.setState .parsePrepare] = some .oob ∧ later [.setState .parseSearchArg] = some .oob ∧ later [.setState .processStart] = some .assert ∧
    later [.setState .processService] = some .assert ∧ later [.setState .acCandFinish] = some .assert ∧
    later [.processStart { name := b!"x", process := some (.builtin .ls) }] = some .null ∧
    later [.unmount b!"/dev/bus", .unmount b!"/dev", .unmount b!"/", .reset] = some .assert := by
  refine ⟨?_, ?_, ?_, ?_, ?_, ?_, ?_⟩ <;> decide +kernel

/-- The calls that are allowed do not. -/
example : later [] = none ∧ later [.setState .resetPrompt] = none ∧ later [.processStart { name := b!"x" }] = none ∧ later [.reset] = none := by
  refine ⟨?_, ?_, ?_, ?_⟩ <;> decide +kernel

/-! ## Examples -/

/-- A buffer of 20 bytes with `abc` that is being printed: a text of 16 bytes fits, a longer one gives the message; a format error after nothing is written behind the buffer. -/
def ruleU : Ush := { outBuf := b!"abc" ++ List.replicate 17 0, writeBuf := .outBuf, writeSize := 3 }

example : (∃ v, runApi { sE with outSize := 20 } ruleU (.printf (.text (List.replicate 16 97))) = .ok v) ∧ (∃ v, runApi { sE with outSize := 20 } ruleU (.printf (.text (List.replicate 30 97))) = .ok v) ∧
    (¬ ∃ v, runApi { sE with outSize := 20 } ruleU (.printf (.error [])) = .ok v) ∧ ∃ v, runApi { sE with outSize := 20 } ruleU (.printf (.error b!"x")) = .ok v := by
  have h := fun s hs => C82_printf { sE with outSize := 20 } 0 ruleU rfl (by decide) (fun _ => by decide) s hs
  exact ⟨((h _ (by decide)).1).mpr (by unfold Allowed; decide), ((h _ (by decide)).1).mpr (by unfold Allowed; decide), fun k => absurd (((h _ (by decide)).2).mp k) (by unfold Allowed; decide), ((h _ (by decide)).2).mpr (by unfold Allowed; decide)⟩

example : (∃ v, runApis sE { outBuf := List.replicate 64 0 } [.fillOut b!"hello", .flush] = .ok v) ∧ ¬ ∃ v, runApis sE { outBuf := List.replicate 64 0 } [.fillOut (List.replicate 64 97), .flush] = .ok v := by
  have h := fun s => C82_fill sE { outBuf := List.replicate 64 0 } rfl s
  exact ⟨(h _).mpr (by decide), fun k => absurd ((h _).mp k) (by decide)⟩

end Ush.Props
