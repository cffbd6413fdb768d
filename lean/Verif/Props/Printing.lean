import Verif.Proof.Drawn
import Verif.Props.Demo
/-!
# ush_printf: all texts, all moments (C57)
-/
namespace Ush.Props
open Spec

/-- After any history that does not fault, `ush_printf`, and further calls and service calls mixed in any way as long as the shell has not gone on to the prompt: what is printed is
what the sheet says, and then the prompt; and something is written outside the buffer if and only if the sheet says so. -/
theorem C57_calls (E : Env) (cfg : Config E) (hin : 0 < E.inSize) (tidy : EnvTidy E) (inBuf outBuf : List UInt8) (hl : outBuf.length = E.outSize) (os : List Op)
    (ht : Tidy (os.map Op.call)) (u : Ush) (hu : run E (blank inBuf outBuf) os = .ok u) (W : World) (H : Holds E W u)
    (f : Fmt) (as : List Bit) (hv : (sheet u).ValidRun E.outSize (.printf f :: as)) (inp : List UInt8) :
    match (sheet u).run E.outSize (.printf f :: as) with
    | none => run E u ((Bit.printf f :: as).map Bit.op) = .error .oob
    | some (Q, x) => ∃ v w, run E u ((Bit.printf f :: as).map Bit.op) = .ok v ∧ Steps E v inp w inp ∧ Waiting E W w {} ∧
        v.log = u.log ++ outs x ∧ w.log = u.log ++ outs (x ++ Q.bytes.drop Q.sent ++ W.prompt E) := by
  have D : Drawn E u := run_drawn tidy os ⟨hl, fun h => by cases h⟩ ht hu
  -- the call in a state that shows the sheet
  have main : ∀ {z : Ush}, Draws E (sheet u) z → SameFs u z → z.inBuf.length = E.inSize → z.log = u.log → ushPrintf E u f = ushPrintf E z f →
      match (sheet u).run E.outSize (.printf f :: as) with
      | none => run E u ((Bit.printf f :: as).map Bit.op) = .error .oob
      | some (Q, x) => ∃ v w, run E u ((Bit.printf f :: as).map Bit.op) = .ok v ∧ Steps E v inp w inp ∧ Waiting E W w {} ∧
          v.log = u.log ++ outs x ∧ w.log = u.log ++ outs (x ++ Q.bytes.drop Q.sent ++ W.prompt E) := by
    intro z Dz same hiz hlog ez
    have e0 : run E u ((Bit.printf f :: as).map Bit.op) = (do let v ← ushPrintf E z f; run E v (as.map Bit.op)) := by
      rw [List.map_cons, run]
      show (do let v ← ushPrintf E u f; run E v (as.map Bit.op)) = _
      rw [ez]
    rw [e0]
    have g := draws_printf Dz f
    rw [Sheet.run_printf]
    cases hq : (sheet u).printf E.outSize f with
    | none =>
      rw [hq] at g
      simp only at g
      rw [g]; rfl
    | some Q =>
      rw [hq] at g
      obtain ⟨o, n, g1, g2⟩ := g
      rw [g1]
      simp only [M.ok_bind, Option.bind_some]
      have hc : z.current.isSome = true := by rw [same.current]; exact H.current
      have HP : Prints E W Q { z with state := .writeChar, writeNext := .resetPrompt, outBuf := o, writeSize := n } :=
        { toDraws := g2, inLen := hiz, rep := (H.rep.same same).same ⟨rfl, rfl, rfl, rfl⟩, state := by rw [(Sheet.printf_fin hq).1]; exact ⟨rfl, rfl⟩ }
      have r := prints_run as (u := { z with state := .writeChar, writeNext := .resetPrompt, outBuf := o, writeSize := n }) hc HP
        (hv.2 Q [] (by show ((sheet u).printf E.outSize f).map (·, []) = _; rw [hq]; rfl))
      cases hr : Q.run E.outSize as with
      | none => rw [hr] at r; exact r
      | some y =>
        obtain ⟨R, x⟩ := y
        rw [hr] at r
        obtain ⟨v, r1, r2, r3, r4⟩ := r
        obtain ⟨w, d1, d2⟩ := prints_done cfg r2 H.ok hin inp
        have r3 : v.log = u.log ++ outs x := by rw [r3]; show z.log ++ _ = _; rw [hlog]
        refine ⟨v, w, r1, d1.steps, d2, r3, ?_⟩
        rw [d1.log, r3]; simp [outs]
  by_cases hw : u.writeBuf = .outBuf
  · exact main (D.sheet hw) ⟨rfl, rfl, rfl, rfl⟩ H.sized.inLen rfl rfl
  · have es : sheet u = {} := by unfold sheet; rw [if_neg hw]
    cases hb : u.outBuf with
    | nil =>
      have := H.sized.outLen
      rw [hb] at this
      exact absurd cfg.outSize (by rw [← this]; simp)
    | cons a t =>
      exact main (z := writePointerBin { u with outBuf := cNul :: t } .outBuf 0 .resetPrompt) (by rw [es]; exact draws_rewind D.len hb) ⟨rfl, rfl, rfl, rfl⟩ H.sized.inLen rfl (ushPrintf_rewind hw hb f)

/-- What the sheet says, case by case: a text without NUL bytes that fits; one that does not fit; one with a NUL byte and room for the message; and a format error with room for the message. -/
theorem C57_sheet (n : Nat) (P : Sheet) (s : Str) (hp : P.text.length < n) :
    (cNul ∉ s → P.text.length + s.length < n → P.printf n (.text s) = some { P with text := P.text ++ s, fin := false }) ∧
    (cNul ∉ s → n ≤ P.text.length + s.length → 20 ≤ n →
      P.printf n (.text s) = some { P with text := (P.text ++ s).take (n - 20) ++ b!"...overflow error\r\n", nul := true, fin := false }) ∧
    (cNul ∉ s → n ≤ P.text.length + s.length → n < 20 → P.printf n (.text s) = none) ∧
    (∀ r, cNul ∉ s → P.text.length + s.length + 19 < n →
      P.printf n (.text (s ++ cNul :: r)) = some { P with text := P.text ++ s ++ b!"...overflow error\r\n", fin := false }) ∧
    (cNul ∉ s → P.text.length + s.length + 17 < n → P.printf n (.error s) = some { P with text := P.text ++ s ++ b!"...format error\r\n", fin := false }) ∧
    (cNul ∉ s → P.text.length + s.length + 17 = n → P.printf n (.error s) = none) := by
  have hw : cNul ∉ s → ∀ r, s.takeWhile (· ≠ cNul) = s ∧ (s ++ cNul :: r).takeWhile (· ≠ cNul) = s := by
    intro h r
    have h' : ∀ x ∈ s, decide (x ≠ cNul) = true := fun x hx => by simp; rintro rfl; exact h hx
    refine ⟨by rw [List.takeWhile_eq_self_iff]; exact h', ?_⟩
    rw [List.takeWhile_append_of_pos h']; simp
  refine ⟨fun h1 h2 => ?_, fun h1 h2 h3 => ?_, fun h1 h2 h3 => ?_, fun r h1 h2 => ?_, fun h1 h2 => ?_, fun h1 h2 => ?_⟩
  · unfold Sheet.printf
    rw [show complaint n P.text (.text s) = none from if_neg (by simp [h1]; exact h2)]
    simp only [Fmt.out, (hw h1 []).1]
    rw [List.take_of_length_le (by simp; omega)]
  · unfold Sheet.printf
    rw [show complaint n P.text (.text s) = some b!"...overflow error\r\n" from if_pos (.inr h2)]
    simp only [Fmt.out, (hw h1 []).1, Sheet.add]
    rw [if_neg (by simp; omega), if_neg (by simp; omega)]
    simp only [List.take_take]
    congr 4
    show min (n - 19 - 1) (n - 1) = _
    omega
  · unfold Sheet.printf
    rw [show complaint n P.text (.text s) = some b!"...overflow error\r\n" from if_pos (.inr h2)]
    simp only [Fmt.out, (hw h1 []).1, Sheet.add]
    rw [if_neg (by simp; omega), if_pos (by simp; omega)]
  · unfold Sheet.printf
    rw [show complaint n P.text (.text (s ++ cNul :: r)) = some b!"...overflow error\r\n" from if_pos (.inl (by simp))]
    simp only [Fmt.out, (hw h1 r).2, Sheet.add]
    rw [List.take_of_length_le (by simp; omega), if_pos (by simp; omega)]
  · unfold Sheet.printf
    rw [show complaint n P.text (.error s) = some b!"...format error\r\n" from rfl]
    simp only [Fmt.out, (hw h1 []).1, Sheet.add]
    rw [List.take_of_length_le (by simp; omega), if_pos (by simp; omega)]
  · unfold Sheet.printf
    rw [show complaint n P.text (.error s) = some b!"...format error\r\n" from rfl]
    simp only [Fmt.out, (hw h1 []).1, Sheet.add]
    rw [List.take_of_length_le (by simp; omega), if_neg (by simp; omega), if_pos (by left; simp; omega)]

/-- A text with a NUL byte (e.g. `ush_printf(self, "a%cb", 0)`), with room for all of it, is reported as an overflow. -/
theorem C57_nul : ∃ v, ushPrintf { sE with outSize := 32 } { outBuf := List.replicate 32 0 } (.text [97, 0, 98]) = .ok v ∧
    v.outBuf.take v.writeSize = b!"a...overflow error\r\n" := ⟨_, rfl, by decide⟩

theorem pTidy : EnvTidy pE where
  hook := fun h hh argv u => by cases hh; trivial
  exec := fun id argv u => trivial
  proc := fun id u => trivial
  set := fun id d u => by
    show Tidy ((if id = 8 then [Api.print (.str b!"set")] else []).map some)
    split <;> trivial

/-- A history as in `C57_calls`: somebody has typed the beginning of a command. -/
example : ∃ os u, Tidy (os.map Op.call) ∧ run pE (blank (List.replicate 32 1) (List.replicate 64 2)) os = .ok u ∧ Waiting pE (after pE sHist) u ⟨b!"ls n", .none⟩ := by
  obtain ⟨u, v, N, h1, h2, h3⟩ := C47_life pE pCfg pConfig pA pDescribes (List.replicate 32 1) (List.replicate 64 2) rfl rfl sHist pOk.1 pOk.2.1 b!"ls n" (by decide +kernel)
    (fun _ => Slot.full) ⟨fun n => ⟨n, Nat.le_refl _, rfl⟩, fun n => ⟨n, Nat.le_refl _, rfl⟩⟩
  obtain ⟨ios, h⟩ := drive_run _ (h3 N (Nat.le_refl _))
  refine ⟨steps sHist ++ ios.map .service, v, ?_, ?_, ?_⟩
  · rw [List.map_append]; exact tidy_append (tidy_steps _) (tidy_services _)
  · rw [run_append, h1]; exact h
  · exact h2.waiting

/-- In such a state, with the echo of `n` in the buffer: two texts, some service calls in between, then a text that does not fit, and a format error. -/
example : (Sheet.mk b!"n" false 1 true).ValidRun 64 [.printf (.text b!"ab"), .service ⟨none, true⟩, .printf (.text (List.replicate 70 99)), .service ⟨none, false⟩, .printf (.error b!"x")] ∧
    ((Sheet.mk b!"n" false 1 true).run 64 [.printf (.text b!"ab"), .service ⟨none, true⟩, .printf (.text (List.replicate 70 99)), .service ⟨none, false⟩, .printf (.error b!"x")]).map
      (fun r => r.2 ++ r.1.bytes.drop r.1.sent) = some (b!"ab" ++ List.replicate 41 99 ++ b!".....format error\r\n" ++ [0]) := by
  refine ⟨⟨trivial, fun Q x h => ?_⟩, by decide +kernel⟩
  cases h
  refine ⟨rfl, fun Q x h => ?_⟩
  cases h
  refine ⟨trivial, fun Q x h => ?_⟩
  cases h
  refine ⟨rfl, fun Q x h => ?_⟩
  cases h
  exact ⟨trivial, fun _ _ _ => trivial⟩

end Ush.Props
