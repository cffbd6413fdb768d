import Verif.Props.Safe
import Verif.Props.Terminal
import Verif.Proof.Screen
/-!
# What the user sees on the display (C56)
-/
namespace Ush.Props
open Spec

/-- Keys: the row of the cursor is the prompt and the line being edited, and the cursor is behind it.  `r` is what is in front of the prompt; nothing, if everything that
commands print ends with the end of a row. -/
theorem rowed_keys (E : Env) (ok : Showable E) (A : App) (cs : List UInt8) : ∀ (t : Term) (r : Str), Rowed E t r → LineSeen t → t.NeatAll E A cs →
    ∃ r', Rowed E (t.keys E A cs) r' ∧ LineSeen (t.keys E A cs) ∧ (t.EndsAll E A cs → r = [] → r' = []) := by
  induction cs with
  | nil => intro t r h hl _; exact ⟨r, h, hl, fun _ h => h⟩
  | cons c cs ih =>
    intro t r h hl hn
    obtain ⟨r1, h1, l1, e1⟩ := rowed_key ok A h hl hn.1
    obtain ⟨r2, h2, l2, e2⟩ := ih _ r1 h1 l1 hn.2
    exact ⟨r2, h2, l2, fun he hr => e2 he.2 (e1 he.1 hr)⟩

/-- The terminal, from any state in which the shell waits for a key with the prompt and the line in the row of the cursor. -/
theorem C56_row (E : Env) (cfg : Config E) (hin : 0 < E.inSize) (ok : Showable E) (A : App) (hA : A.Describes E) (cs : List UInt8) (t : Term) (u : Ush) (H : Shell E t u)
    (r : Str) (h : (display u.log).Shows (r ++ t.world.promptSeen E ++ t.ed.line)) (hl : Graphic t.ed.line) (hk : t.OkAll E A cs) (hn : t.NeatAll E A cs)
    (f : Nat → Slot) (hf : Fair f) :
    ∃ v N r', (∀ n ≥ N, driveN E f u cs n = .ok (v, [])) ∧
      (display v.log).Shows (r' ++ (t.keys E A cs).world.promptSeen E ++ (t.keys E A cs).ed.line) ∧ (t.EndsAll E A cs → r = [] → r' = []) := by
  obtain ⟨v, N, V, e⟩ := C47_timing E cfg hin A hA cs t u H hk f hf
  obtain ⟨r', h', -, he⟩ := rowed_keys E ok A cs t r (by rw [H.log] at h; exact h) hl hn
  exact ⟨v, N, r', e, by rw [V.log]; exact h', he⟩

/-- The screen when the shell has been started. -/
theorem rowed_start (E : Env) (ok : Showable E) (os : List FsOp) (hd : Graphic (dirName (after E os).path)) : Rowed E (Term.start E os) [] := by
  unfold Rowed
  have e : printed (Term.start E os).log = welcome ++ (after E os).prompt E := by
    show printed (_ ++ _) = _
    rw [printed_append, printed_rets, printed_outs]
    rfl
  have h : (Screen.feed {} welcome).Shows [] := ⟨by decide, by decide, 0, by decide⟩
  unfold display
  rw [e, feed_append]
  show (Screen.feed (Screen.feed {} welcome) ((after E os).prompt E)).Shows ([] ++ (after E os).promptSeen E ++ [])
  rw [List.append_nil]
  exact h.prompt ok hd

/-- From `ush_init` on. -/
theorem C56_life (E : Env) (hc : CfgOk E) (cfg : Config E) (ok : Showable E) (A : App) (hA : A.Describes E) (inBuf outBuf : List UInt8) (h1 : inBuf.length = E.inSize)
    (h2 : outBuf.length = E.outSize) (os : List FsOp) (hv : (initWorld E).ValidRun E os) (hw : (after E os).Ok E) (hd : Graphic (dirName (after E os).path)) (cs : List UInt8)
    (hk : (Term.start E os).OkAll E A cs) (hn : (Term.start E os).NeatAll E A cs) (f : Nat → Slot) (hf : Fair f) :
    ∃ u v N r, run E (blank inBuf outBuf) (steps os) = .ok u ∧ (∀ n ≥ N, driveN E f u cs n = .ok (v, [])) ∧
      (display v.log).Shows (r ++ ((Term.start E os).keys E A cs).world.promptSeen E ++ ((Term.start E os).keys E A cs).ed.line) ∧
      ((Term.start E os).EndsAll E A cs → r = []) := by
  obtain ⟨u, v, N, e, V, h⟩ := C47_life E hc cfg A hA inBuf outBuf h1 h2 os hv hw cs hk f hf
  obtain ⟨r, h', -, he⟩ := rowed_keys E ok A cs _ [] (rowed_start E ok os hd) (fun c hc => (nomatch hc)) hn
  exact ⟨u, v, N, r, e, h, by rw [V.log]; exact h', fun x => he x rfl⟩

/-- An entered line: what the built-in commands print consists of whole rows, and so do the error messages, if the names and texts in the directories can be shown. -/
theorem C56_line (E : Env) (A : App) (t : Term) (c : UInt8) (h : lineRows E A t.world c (t.log ++ .inp c :: outs (enterEcho c)) (words (sent E.inSize t.ed.line))) :
    Printable (foretext E (t.answer E A c)) ∧ (c = cCr → t.Ends E A c) := by
  have r := lineAnswer_rows A t.world c _ _ h
  refine ⟨r.1, ?_⟩
  rintro rfl -
  have : enterEcho cCr = crlf := rfl
  rcases r.2 with e | e
  · have e : foretext E (t.answer E A cCr) = [] := e
    rw [e]
    exact ⟨[], rfl⟩
  · exact e.trans (List.suffix_append ..)

/-! ### A session -/

instance decNeatAll (E : Env) (A : App) : (cs : List UInt8) → (t : Term) → Decidable (t.NeatAll E A cs)
  | [], _ => isTrue trivial
  | c :: cs, t => by unfold Term.NeatAll Term.Neat; have := decNeatAll E A cs (t.key E A c); infer_instance

instance decEndsAll (E : Env) (A : App) : (cs : List UInt8) → (t : Term) → Decidable (t.EndsAll E A cs)
  | [], _ => isTrue trivial
  | c :: cs, t => by unfold Term.EndsAll Term.Ends; have := decEndsAll E A cs (t.key E A c); infer_instance

/-- The sample shell with colours. -/
def vE : Env := { pE with colorGreen := [27] ++ b!"[32m", colorYellow := [27] ++ b!"[33m", colorMagenta := [27] ++ b!"[35m", styleReset := [27] ++ b!"[0m" }

theorem vE_describes : pA.Describes vE := ⟨pDescribes.hook, pDescribes.exec, pDescribes.get, pDescribes.set⟩

theorem vE_cfg : CfgOk vE ∧ Config vE :=
  ⟨⟨by decide, by decide, by decide, by decide, by decide⟩, by decide, ⟨by decide, by decide, by decide, by decide, by decide, statusString_nul _ (by decide)⟩⟩

theorem vE_showable : Showable vE :=
  ⟨.inr ⟨b!"35", rfl, by decide⟩, .inr ⟨b!"0", rfl, by decide⟩, by decide⟩

/-- A directory change with TAB, an unknown command, a list of candidates, a corrected line, a cursor key, a typed line. -/
def vKeys : List UInt8 := b!"cd de\t\rfoo\rpwx" ++ [cBs] ++ b!"d\rc\t" ++ [cDel] ++ b!"ls" ++ [cEsc] ++ b!"[A\rhelp x" ++ [cBs, cBs, cBs]

theorem vOk : (initWorld vE).ValidRun vE sHist ∧ (after vE sHist).Ok vE ∧ (Term.start vE sHist).OkAll vE pA vKeys ∧ (Term.start vE sHist).NeatAll vE pA vKeys ∧
    (Term.start vE sHist).EndsAll vE pA vKeys :=
  ⟨by decide, by decide, by decide +kernel, by decide +kernel, by decide +kernel⟩

example : ∃ u v N r, run vE (blank (List.replicate 32 1) (List.replicate 64 2)) (steps sHist) = .ok u ∧
    (∀ n ≥ N, driveN vE (fun n => if n % 2 = 0 then ⟨true, false⟩ else ⟨false, true⟩) u vKeys n = .ok (v, [])) ∧
    (display v.log).Shows (r ++ ((Term.start vE sHist).keys vE pA vKeys).world.promptSeen vE ++ ((Term.start vE sHist).keys vE pA vKeys).ed.line) ∧
      ((Term.start vE sHist).EndsAll vE pA vKeys → r = []) :=
  C56_life vE vE_cfg.1 vE_cfg.2 vE_showable pA vE_describes _ _ rfl rfl sHist vOk.1 vOk.2.1 (by decide) vKeys vOk.2.2.1 vOk.2.2.2.1 _ ⟨fun n => ⟨2 * n, by omega, by simp⟩, fun n => ⟨2 * n + 1, by omega, by
    simp [show (2 * n + 1) % 2 = 1 by omega]⟩⟩

/-- The screen at the end. -/
theorem vScreen : display ((Term.start vE sHist).keys vE pA vKeys).log = {
    above := [b!"uShell 0.1.0", b!"[h /]$ cd dev", b!"[h dev]$ foo", b!"error: syntax error", b!"[h dev]$ pwd", b!"/dev", b!"[h dev]$ c", b!"cd", b!"cat", b!"[h dev]$ ls",
      b!"d---- .", b!"d---- ..", b!"d---- bus/", b!"-rw-- led              - a led"]
    row := b!"[h dev]$ hel   "
    col := 12 } := by
  decide +kernel

/-- The names and texts in the sample shell can be shown. -/
theorem vLegible : (after vE sHist).Legible vE where
  green := .inr ⟨b!"32", rfl, by decide⟩
  yellow := .inr ⟨b!"33", rfl, by decide⟩
  reset := .inr ⟨b!"0", rfl, by decide⟩
  status := fun s => by cases s <;> decide
  paths := by decide
  names := by decide
  descriptions := by decide
  helps := by decide +kernel

example (t : Term) (h1 : t.world = after vE sHist) (h2 : t.ed.line = b!"ls") : Printable (foretext vE (t.answer vE pA cCr)) ∧ (cCr = cCr → t.Ends vE pA cCr) :=
  C56_line vE pA t cCr (by
    rw [h1, h2]
    have : words (sent vE.inSize b!"ls") = [b!"ls"] := by decide
    rw [this]
    exact ⟨vLegible, trivial⟩)

/-! ### Without the conditions -/

/-- The row of the cursor, its column, and the number of bytes in the line. -/
def seen (m : M Ush) : Option (Str × Nat × Nat) :=
  match m with
  | .ok u => some ((display u.log).row, (display u.log).col, u.inPos)
  | .error _ => none

/-- A key without width (Ctrl+A): it counts as a byte of the line, and erasing it erases the last character of the prompt. -/
theorem C56_false_control :
    seen (run (nE 8 32) (blank (List.replicate 8 0) (List.replicate 32 0)) (nStart [] ++ typing 8 [1])) = some (b!"[ /]$ ", 6, 1) ∧
    seen (run (nE 8 32) (blank (List.replicate 8 0) (List.replicate 32 0)) (nStart [] ++ typing 8 [1, cBs])) = some (b!"[ /]$ ", 5, 0) := by
  constructor <;> decide +kernel

/-- A line that is too long for the buffer: the line is empty, but still on the screen. -/
theorem C56_false_long :
    seen (run (nE 8 32) (blank (List.replicate 8 0) (List.replicate 32 0)) (nStart [] ++ typing 8 b!"abcdefgh")) = some (b!"[ /]$ abcdefgh", 14, 0) := by
  decide +kernel

/-- A terminal that sends a line feed for Enter: the prompt does not begin at the left margin. -/
theorem C56_false_lf :
    seen (run (nE 8 32) (blank (List.replicate 8 0) (List.replicate 32 0)) (nStart [] ++ typing 40 b!"\n")) = some (b!"      [ /]$ ", 12, 0) := by
  decide +kernel

end Ush.Props
