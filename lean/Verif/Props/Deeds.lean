import Verif.Props.Terminal
import Verif.Proof.Deeds
/-!
# Callbacks are called when a line is entered, and only then (C53)

The calls of `exec` and `set_data` callbacks, with their arguments and in their order, are what the entered lines say: every line whose first
word names an executable file causes one call of its `exec`; a line `echo a > t` moreover one call of `set_data`.  No other key, no
timing of the terminal and nothing that is printed makes the shell call them.
-/
namespace Ush.Props
open Spec

theorem C53_spec (E : Env) (A : App) (hA : A.Aside E) (cs : List UInt8) : ∀ t : Term, deeds (t.keys E A cs).log = deeds t.log ++ t.jobs E A cs := by
  induction cs with
  | nil => intro t; simp [Term.keys, Term.jobs]
  | cons c cs ih =>
    intro t
    show deeds (Term.keys E A (t.key E A c) cs).log = _
    rw [ih, deeds_key hA, List.append_assoc]
    rfl

/-- Any keys, from any moment at which the shell waits for a key. -/
theorem C53_calls (E : Env) (cfg : Config E) (hin : 0 < E.inSize) (A : App) (hA : A.Describes E) (hh : A.Aside E) (cs : List UInt8) (t : Term) (u : Ush)
    (H : Shell E t u) (ok : t.OkAll E A cs) (inp : List UInt8) :
    ∃ v, Steps E u (cs ++ inp) v inp ∧ Shell E (t.keys E A cs) v ∧ deeds v.log = deeds u.log ++ t.jobs E A cs := by
  obtain ⟨v, s, H'⟩ := C47_keys E cfg hin A hA cs t u H ok inp
  exact ⟨v, s, H', by rw [H'.log, H.log, C53_spec E A hh]⟩

/-- At every moment, whatever the terminal does: the calls so far are the first ones of those. -/
theorem C53_moment (E : Env) (cfg : Config E) (hin : 0 < E.inSize) (A : App) (hA : A.Describes E) (hh : A.Aside E) (cs : List UInt8) (t : Term) (u : Ush)
    (H : Shell E t u) (ok : t.OkAll E A cs) (ss : List Slot) :
    ∃ w r, drive E u cs ss = .ok (w, r) ∧ deeds w.log <+: deeds u.log ++ t.jobs E A cs := by
  obtain ⟨w, r, e, h⟩ := C47_prefix E cfg hin A hA cs t u H ok ss
  refine ⟨w, r, e, ?_⟩
  rw [H.log, ← C53_spec E A hh]
  exact h.filter _

/-- From `ush_init` on. -/
theorem C53_life (E : Env) (hc : CfgOk E) (cfg : Config E) (A : App) (hA : A.Describes E) (hh : A.Aside E) (inBuf outBuf : List UInt8)
    (h1 : inBuf.length = E.inSize) (h2 : outBuf.length = E.outSize) (os : List FsOp) (hv : (initWorld E).ValidRun E os) (ok : (after E os).Ok E) (cs : List UInt8)
    (hk : (Term.start E os).OkAll E A cs) (f : Nat → Slot) (hf : Fair f) :
    ∃ u v N, run E (blank inBuf outBuf) (steps os) = .ok u ∧ (∀ n ≥ N, driveN E f u cs n = .ok (v, [])) ∧ deeds v.log = (Term.start E os).jobs E A cs := by
  obtain ⟨u, v, N, e, H, h⟩ := C47_life E hc cfg A hA inBuf outBuf h1 h2 os hv ok cs hk f hf
  refine ⟨u, v, N, e, h, ?_⟩
  rw [H.log, C53_spec E A hh]
  have : deeds (Term.start E os).log = [] := by unfold Term.start; rw [deeds_append, deeds_ret, deeds_outs]; rfl
  rw [this]
  rfl

/-! ### A session: two reads, a directory change, an erased character, a write, an unknown command, a line that is given up -/

theorem pAside : pA.Aside pE := fun _ _ _ _ => rfl

theorem pJobs : (Term.start pE sHist).jobs pE pA pKeys = [.exec (.builtin .cat) [b!"cat", b!"data", b!"data"], .exec (.builtin .cd) [b!"cd", b!"dev"],
    .exec (.builtin .pwd) [b!"pwd"], .exec (.builtin .echo) [b!"echo", b!"1", b!">", b!"led"], .setData 8 b!"1"] := by
  decide +kernel

example : ∃ u v N, run pE (blank (List.replicate 32 1) (List.replicate 64 2)) (steps sHist) = .ok u ∧
    (∀ n ≥ N, driveN pE (fun n => if n % 2 = 0 then ⟨true, false⟩ else ⟨false, true⟩) u pKeys n = .ok (v, [])) ∧
    deeds v.log = (Term.start pE sHist).jobs pE pA pKeys :=
  C53_life pE pCfg pConfig pA pDescribes pAside _ _ rfl rfl sHist pOk.1 pOk.2.1 pKeys pOk.2.2 _
    ⟨fun n => ⟨2 * n, by omega, by simp⟩, fun n => ⟨2 * n + 1, by omega, by simp [show (2 * n + 1) % 2 = 1 by omega]⟩⟩

example : ∃ u v, Shell pE (Term.start pE sHist) u ∧ Steps pE u (pKeys ++ []) v [] ∧ deeds v.log = deeds u.log ++ (Term.start pE sHist).jobs pE pA pKeys ∧
    deeds ((Term.start pE sHist).keys pE pA pKeys).log = deeds (Term.start pE sHist).log ++ (Term.start pE sHist).jobs pE pA pKeys := by
  obtain ⟨u, H⟩ := pShell
  obtain ⟨v, h1, -, h2⟩ := C53_calls pE pConfig (by decide) pA pDescribes pAside pKeys _ u H pOk.2.2 []
  exact ⟨u, v, H, h1, h2, C53_spec pE pA pAside pKeys _⟩

example : ∃ u w r, Shell pE (Term.start pE sHist) u ∧ drive pE u pKeys (List.replicate 300 ⟨true, true⟩) = .ok (w, r) ∧
    deeds w.log <+: deeds u.log ++ (Term.start pE sHist).jobs pE pA pKeys := by
  obtain ⟨u, H⟩ := pShell
  obtain ⟨w, r, h⟩ := C53_moment pE pConfig (by decide) pA pDescribes pAside pKeys _ u H pOk.2.2 (List.replicate 300 ⟨true, true⟩)
  exact ⟨u, w, r, H, h⟩

end Ush.Props
