import Verif.Spec.History
import Verif.Proof.World
/-!
# Histories that start with `ush_init`
-/
namespace Ush
open Spec

theorem run_apis (E : Env) : ∀ (as : List Api) (u : Ush), run E u (as.map Op.api) = runApis E u as := by
  intro as
  induction as with
  | nil => intro u; rfl
  | cons a as ih =>
    intro u
    simp only [List.map_cons, run, step, runApis]
    cases runApi E u a with
    | ok v => exact ih v
    | error e => rfl

theorem run_history {E : Env} (hc : CfgOk E) (inBuf outBuf : List UInt8) (os : List FsOp) (hv : (initWorld E).ValidRun E os) :
    ∃ u, run E (blank inBuf outBuf) (steps os) = .ok u ∧ WInv E u (after E os) ∧
      u.log = ((initWorld E).run os).2.map .ret := by
  obtain ⟨u0, e0, H0, l0, -⟩ := ushInit_blank hc inBuf outBuf
  obtain ⟨u, e, H, l⟩ := fsRun_sim os u0 (initWorld E) H0 hv
  refine ⟨u, ?_, H, by rw [l, l0]; rfl⟩
  have : steps os = .init :: (os.map FsOp.api).map Op.api := by simp [steps]
  rw [this, run, step, e0]
  simp only [M.ok_bind]
  rw [run_apis]; exact e

theorem Spec.Reached.inv {E : Env} {os : List FsOp} {u : Ush} (hc : CfgOk E) (h : Reached E os u) :
    WInv E u (after E os) ∧ u.log = ((initWorld E).run os).2.map .ret := by
  obtain ⟨hv, inBuf, outBuf, e⟩ := h
  obtain ⟨u', e', H, l⟩ := run_history hc inBuf outBuf os hv
  rw [e'] at e
  cases e
  exact ⟨H, l⟩

end Ush
