import Verif.Props.Samples
import Verif.Proof.Format
/-!
# ush_printf (C40, C41, C45)
-/
namespace Ush.Props
open Spec

/-! ## C40 ush_printf output accumulates -/

/-- `ush_printf` calls mixed with service calls in any way, from any state in which the last text printed did not come from the
output buffer (e.g. at the prompt): as long as the combined text fits and the shell has not gone on to the prompt, what
is printed is the concatenation of all texts; then comes the prompt. -/
theorem C40_accumulate (E : Env) (cfg : Config E) (hin : 0 < E.inSize) (W : World) (u : Ush) (H : Holds E W u) (hw : u.writeBuf ≠ .outBuf)
    (s : Str) (hs : cNul ∉ s) (hfit : s.length < E.outSize) (as : List Act) (hv : Feed.ValidRun E ⟨s, 0, false⟩ as) (inp : List UInt8) :
    ∃ v w, run E u (.api (.printf (.text s)) :: as.map Act.op) = .ok v ∧ Steps E v inp w inp ∧ Waiting E W w {} ∧
      w.log = u.log ++ outs (s ++ Act.texts as ++ W.prompt E) := by
  obtain ⟨t, h1, h2⟩ := ushPrintf_fresh H.sized hw hs hfit
  have F : Feeds E W ⟨s, 0, false⟩ { u with state := .writeChar, writeNext := .resetPrompt, outBuf := s ++ cNul :: t, writeSize := s.length, writePos := 0, writeBuf := .outBuf } :=
    { sized := H.sized.out rfl h1, rep := H.rep.same ⟨rfl, rfl, rfl, rfl⟩, nul := hs, buf := ⟨t, rfl⟩, le := Nat.zero_le _, write := ⟨rfl, rfl, rfl⟩, state := ⟨rfl, rfl⟩ }
  obtain ⟨v, g1, g2, g3⟩ := feed_run as (u := { u with state := .writeChar, writeNext := .resetPrompt, outBuf := s ++ cNul :: t, writeSize := s.length, writePos := 0, writeBuf := .outBuf }) H.current F hv
  obtain ⟨w, r, h⟩ := feeds_done cfg g2 H.ok hin inp
  refine ⟨v, w, ?_, r.steps, h, ?_⟩
  · rw [run, step, runApi, h2]; exact g1
  · rw [r.log, g3]
    have e := feed_text as ⟨s, 0, false⟩
    simp only at e
    rw [← e]
    simp only [List.drop_zero, List.append_assoc]
    rw [← List.map_append, ← List.append_assoc, List.take_append_drop]

/-- The same for texts printed by a command, after the echo of Enter has been sent from the output buffer. -/
theorem C40_more (E : Env) (cfg : Config E) (hin : 0 < E.inSize) (W : World) (ok : W.Ok E) (u : Ush) (F : Feed) (H : Feeds E W F u)
    (hc : u.current.isSome = true) (as : List Act) (hv : F.ValidRun E as) (inp : List UInt8) :
    ∃ v w, run E u (as.map Act.op) = .ok v ∧ Steps E v inp w inp ∧ Waiting E W w {} ∧
      w.log = u.log ++ outs (F.text.drop F.sent ++ Act.texts as ++ W.prompt E) := by
  obtain ⟨v, g1, g2, g3⟩ := feed_run as hc H hv
  obtain ⟨w, r, h⟩ := feeds_done cfg g2 ok hin inp
  refine ⟨v, w, g1, r.steps, h, ?_⟩
  rw [r.log, g3]
  have e := feed_text as F
  obtain ⟨-, l1, l2⟩ := F.run_grow as H.le
  have e2 : F.text.drop F.sent ++ Act.texts as = (F.run as).text.drop F.sent := by
    rw [e, List.drop_append_of_le_length H.le]
  rw [e2, List.append_assoc, ← List.map_append, ← List.append_assoc]
  congr 3
  have h0 : (F.run as).text.drop (F.run as).sent = ((F.run as).text.drop F.sent).drop ((F.run as).sent - F.sent) := by
    rw [List.drop_drop]; congr 1; omega
  rw [h0, List.drop_take]
  exact List.take_append_drop _ _

example : ∃ u, Holds sE sW u ∧ u.writeBuf ≠ .outBuf ∧
    Feed.ValidRun sE ⟨b!"abc", 0, false⟩ [.service ⟨none, true⟩, .service ⟨none, false⟩, .printf b!"de", .service ⟨none, true⟩, .printf b!"f"] := by
  obtain ⟨u, H⟩ := sWaiting
  exact ⟨{ u with writeBuf := .null }, H.toHolds.same ⟨rfl, rfl, rfl, rfl⟩ ⟨H.sized.inLen, H.sized.outLen⟩, by simp,
    rfl, rfl, ⟨by decide, by decide⟩, rfl, ⟨by decide, by decide⟩, trivial⟩

example : ∃ u, Feeds sE sW ⟨b!"ab", 2, true⟩ u ∧ u.current.isSome = true ∧ Feed.ValidRun sE ⟨b!"ab", 2, true⟩ [.printf b!"c", .service ⟨none, true⟩] := by
  obtain ⟨u, H⟩ := sWaiting
  refine ⟨{ u with state := .resetPrompt, writeBuf := .outBuf, writePos := 2, writeSize := 2, outBuf := b!"ab" ++ cNul :: List.replicate 61 5 },
    { sized := ⟨H.sized.inLen, rfl⟩, rep := H.rep.same ⟨rfl, rfl, rfl, rfl⟩, nul := by decide, buf := ⟨_, rfl⟩, le := by decide, write := ⟨rfl, rfl, rfl⟩, state := by simp }, H.current, ⟨by decide, by decide⟩, rfl, trivial⟩

/-! ## C41 ush_printf overflow is contained -/

/-- The part of the property that holds: with an output buffer of at least 20 bytes, `ush_printf` of a text that does not fit stays
in the buffer, and what is printed are the first bytes of the text and the overflow message; then comes a NUL byte and
the prompt.  Missing: smaller buffers (`C41_false`), and the NUL byte should not be there (`C41_false_nul`). -/
theorem C41_overflow_partial (E : Env) (cfg : Config E) (hin : 0 < E.inSize) (ho : 20 ≤ E.outSize) (W : World) (ok : W.Ok E) (u : Ush) (F : Feed)
    (H : Feeds E W F u) (s : Str) (hs : cNul ∉ s) (hf : E.outSize ≤ F.text.length + s.length) (inp : List UInt8) :
    ∃ v w, runApi E u (.printf (.text s)) = .ok v ∧ Steps E v inp w inp ∧ Waiting E W w {} ∧
      w.log = u.log ++ outs (((F.text ++ s).take (E.outSize - 20) ++ b!"...overflow error\r\n" ++ [cNul]).drop F.sent ++ W.prompt E) := by
  obtain ⟨t, hb⟩ := H.buf
  have h1 := ushPrintf_overflow H.sized H.write.1 hb H.nul hs hf ho
  have hl : ((F.text ++ s).take (E.outSize - 20) ++ msgOverflowError ++ [cNul]).length = E.outSize := by
    have : msgOverflowError.length = 19 := rfl
    simp [this]; omega
  have hle : F.sent ≤ E.outSize := by
    have := H.le
    have h2 := H.sized.outLen
    rw [hb] at h2
    simp at h2; omega
  have HH : Holds E W { u with state := .writeChar, writeNext := .resetPrompt, outBuf := (F.text ++ s).take (E.outSize - 20) ++ msgOverflowError ++ [cNul], writeSize := E.outSize } :=
    ⟨H.sized.out rfl hl, H.rep.same ⟨rfl, rfl, rfl, rfl⟩, ok⟩
  obtain ⟨w, r, h⟩ := outbuf_done cfg HH hin rfl rfl H.write.1 hl.symm (by show u.writePos ≤ E.outSize; rw [H.write.2.1]; exact hle) inp
  refine ⟨_, w, h1, r.steps, h, ?_⟩
  rw [r.log]
  simp only [H.write.2.1]
  rfl

example : ∃ u, Feeds sE sW ⟨b!"ab", 1, false⟩ u ∧ sE.outSize ≤ 2 + (List.replicate 70 (97 : UInt8)).length := by
  obtain ⟨u, H⟩ := sWaiting
  exact ⟨{ u with state := .writeChar, writeNext := .resetPrompt, writeBuf := .outBuf, writePos := 1, writeSize := 2, outBuf := b!"ab" ++ cNul :: List.replicate 61 5 },
    { sized := ⟨H.sized.inLen, rfl⟩, rep := H.rep.same ⟨rfl, rfl, rfl, rfl⟩, nul := by decide, buf := ⟨_, rfl⟩, le := by decide, write := ⟨rfl, rfl, rfl⟩, state := ⟨rfl, rfl⟩ }, by decide⟩

/-- The property is false: with a buffer of 8 bytes (accepted by `ush_init`) `ush_printf` writes outside the buffer. -/
theorem C41_false : ushPrintf { sE with outSize := 8 } { outBuf := List.replicate 8 0 } (.text b!"123456789") = .error .oob := rfl

/-- With a buffer of exactly 20 bytes the message takes the whole buffer, and the NUL behind it is printed too. -/
theorem C41_false_nul : ∃ v, ushPrintf { sE with outSize := 20 } { outBuf := List.replicate 20 0 } (.text (List.replicate 30 97)) = .ok v ∧
    v.outBuf = b!"...overflow error\r\n" ++ [cNul] ∧ v.writePos = 0 ∧ v.writeSize = 20 := ⟨_, rfl, by decide, by decide, by decide⟩

/-! ## C45 ush_printf with a format error

`vsnprintf` may report a format error after having stored some characters `s`.  Three cases, by the room left in the buffer. -/

/-- The message and its NUL byte fit behind the text: both are printed, then the prompt. -/
theorem C45_fits_partial (E : Env) (cfg : Config E) (hin : 0 < E.inSize) (W : World) (ok : W.Ok E) (u : Ush) (F : Feed)
    (H : Feeds E W F u) (s : Str) (hs : cNul ∉ s) (hf : F.text.length + s.length + 17 < E.outSize) (inp : List UInt8) :
    ∃ v w, runApi E u (.printf (.error s)) = .ok v ∧ Steps E v inp w inp ∧ Waiting E W w {} ∧
      w.log = u.log ++ outs ((F.text ++ s ++ b!"...format error\r\n").drop F.sent ++ W.prompt E) := by
  obtain ⟨t, hb⟩ := H.buf
  obtain ⟨t', hl, h1⟩ := ushPrintf_error_fits H.sized H.write.1 hb H.nul hs hf
  have HF : Feeds E W ⟨F.text ++ s ++ msgFormatError, F.sent, false⟩ { u with state := .writeChar, writeNext := .resetPrompt, outBuf := F.text ++ s ++ msgFormatError ++ cNul :: t', writeSize := u.writeSize + s.length + 17 } :=
    { sized := H.sized.out rfl hl, rep := H.rep.same ⟨rfl, rfl, rfl, rfl⟩, nul := not_mem_append (not_mem_append H.nul hs) (by decide), buf := ⟨t', rfl⟩
      le := by have := H.le; simp only [List.length_append]; omega
      write := ⟨H.write.1, H.write.2.1, by simp only [List.length_append, H.write.2.2]; rfl⟩, state := ⟨rfl, rfl⟩ }
  obtain ⟨w, r, h⟩ := feeds_done cfg HF ok hin inp
  exact ⟨_, w, h1, r.steps, h, r.log⟩

/-- The message does not fit behind the text: it replaces the end of the text.  Missing: the NUL byte behind the message is printed too,
and the buffer needs 18 bytes. -/
theorem C45_long_partial (E : Env) (cfg : Config E) (hin : 0 < E.inSize) (ho : 18 ≤ E.outSize) (W : World) (ok : W.Ok E) (u : Ush) (F : Feed)
    (H : Feeds E W F u) (s : Str) (hs : cNul ∉ s) (hf : E.outSize < F.text.length + s.length + 17) (inp : List UInt8) :
    ∃ v w, runApi E u (.printf (.error s)) = .ok v ∧ Steps E v inp w inp ∧ Waiting E W w {} ∧
      w.log = u.log ++ outs (((F.text ++ s).take (E.outSize - 18) ++ b!"...format error\r\n" ++ [cNul]).drop F.sent ++ W.prompt E) := by
  obtain ⟨t, hb⟩ := H.buf
  have h1 := ushPrintf_error_long H.sized H.write.1 hb H.nul hs hf ho
  have hl : ((F.text ++ s).take (E.outSize - 18) ++ msgFormatError ++ [cNul]).length = E.outSize := by
    have : msgFormatError.length = 17 := rfl
    simp [this]; omega
  have hle : F.sent ≤ E.outSize := by
    have := H.le
    have h2 := H.sized.outLen
    rw [hb] at h2
    simp at h2; omega
  have HH : Holds E W { u with state := .writeChar, writeNext := .resetPrompt, outBuf := (F.text ++ s).take (E.outSize - 18) ++ msgFormatError ++ [cNul], writeSize := E.outSize } :=
    ⟨H.sized.out rfl hl, H.rep.same ⟨rfl, rfl, rfl, rfl⟩, ok⟩
  obtain ⟨w, r, h⟩ := outbuf_done cfg HH hin rfl rfl H.write.1 hl.symm (by show u.writePos ≤ E.outSize; rw [H.write.2.1]; exact hle) inp
  refine ⟨_, w, h1, r.steps, h, ?_⟩
  rw [r.log]
  simp only [H.write.2.1]
  rfl

/-- The property is false: with exactly as much room as the message has characters, its NUL byte is written behind the buffer.
This happens for every buffer size from 18 on. -/
theorem C45_false (E : Env) (W : World) (u : Ush) (F : Feed) (H : Feeds E W F u) (s : Str) (hs : cNul ∉ s)
    (hf : F.text.length + s.length + 17 = E.outSize) : runApi E u (.printf (.error s)) = .error .oob := by
  obtain ⟨t, hb⟩ := H.buf
  exact ushPrintf_error_exact H.sized H.write.1 hb H.nul hs hf

/-- The three cases occur, for texts of 4, 45 and 60 characters behind the two already there (the buffer has 64 bytes). -/
example : ∃ u, Feeds sE sW ⟨b!"ab", 1, false⟩ u ∧ 2 + (List.replicate 4 (97 : UInt8)).length + 17 < sE.outSize ∧
    2 + (List.replicate 45 (97 : UInt8)).length + 17 = sE.outSize ∧ sE.outSize < 2 + (List.replicate 60 (97 : UInt8)).length + 17 := by
  obtain ⟨u, H⟩ := sWaiting
  exact ⟨{ u with state := .writeChar, writeNext := .resetPrompt, writeBuf := .outBuf, writePos := 1, writeSize := 2, outBuf := b!"ab" ++ cNul :: List.replicate 61 5 },
    { sized := ⟨H.sized.inLen, rfl⟩, rep := H.rep.same ⟨rfl, rfl, rfl, rfl⟩, nul := by decide, buf := ⟨_, rfl⟩, le := by decide, write := ⟨rfl, rfl, rfl⟩, state := ⟨rfl, rfl⟩ }, by decide, by decide, by decide⟩

/-- A concrete shell: the format error comes after 3 characters, the buffer has 20 bytes. -/
theorem C45_false_witness : ushPrintf { sE with outSize := 20 } { outBuf := List.replicate 20 0 } (.error b!"abc") = .error .oob := rfl

/-- The three cases for the sample shell. -/
example : ∃ u, Feeds sE sW ⟨b!"ab", 1, false⟩ u ∧
    (∃ v w, runApi sE u (.printf (.error b!"xyz1")) = .ok v ∧ Steps sE v [] w [] ∧ w.log = u.log ++ outs (b!"bxyz1...format error\r\n" ++ sW.prompt sE)) ∧
    runApi sE u (.printf (.error (List.replicate 45 97))) = .error .oob ∧
    ∃ v w, runApi sE u (.printf (.error (List.replicate 60 97))) = .ok v ∧ Steps sE v [] w [] ∧ Waiting sE sW w {} := by
  obtain ⟨u, H⟩ := sWaiting
  have F : Feeds sE sW ⟨b!"ab", 1, false⟩ { u with state := .writeChar, writeNext := .resetPrompt, writeBuf := .outBuf, writePos := 1, writeSize := 2, outBuf := b!"ab" ++ cNul :: List.replicate 61 5 } :=
    { sized := ⟨H.sized.inLen, rfl⟩, rep := H.rep.same ⟨rfl, rfl, rfl, rfl⟩, nul := by decide, buf := ⟨_, rfl⟩, le := by decide, write := ⟨rfl, rfl, rfl⟩, state := ⟨rfl, rfl⟩ }
  obtain ⟨v, w, h1, h2, -, h3⟩ := C45_fits_partial sE sConfig.1 (by decide) sW H.ok _ _ F b!"xyz1" (by decide) (by decide) []
  obtain ⟨v', w', g1, g2, g3, -⟩ := C45_long_partial sE sConfig.1 (by decide) (by decide) sW H.ok _ _ F (List.replicate 60 97) (by decide +kernel) (by decide) []
  exact ⟨_, F, ⟨v, w, h1, h2, h3⟩, C45_false sE sW _ _ F (List.replicate 45 97) (by decide +kernel) (by decide), v', w', g1, g2, g3⟩

end Ush.Props
