import Verif.Proof.Deinit
import Verif.Props.Safe
/-!
# C39 ush_deinit releases the tree

`WInv E u W`: the shell object and the node objects of `u` represent the directories, commands and working directory `W`.  All
histories of C23 lead to such states.
-/
namespace Ush.Props
open Spec

/-- `ush_deinit` ends; the objects of all mounted directories and the shell object (with the node of the built-in commands, number 0)
are zero; the buffers and all other node objects keep their contents. -/
theorem C39_deinit (E : Env) (W : World) (u : Ush) (H : WInv E u W) :
    ∃ v, step E u .deinit = .ok v ∧ (∀ m ∈ W.tree, v.nodes m.id = {}) ∧ (∀ i, i ≠ 0 → (∀ m ∈ W.tree, m.id ≠ i) → v.nodes i = u.nodes i) ∧
      v = { inBuf := u.inBuf, outBuf := u.outBuf, log := u.log, nodes := v.nodes } ∧ v.nodes 0 = {} := by
  obtain ⟨nodes, e, h0, h1, h2⟩ := deinit_sim H
  exact ⟨_, e, h1, h2, rfl, h0⟩

/-- Afterwards the shell object may be used again: after `ush_init` every history that is valid for a new shell object behaves as it
does there, in particular every node but number 0 can be mounted. -/
theorem C39_again (E : Env) (hc : CfgOk E) (W : World) (u v : Ush) (H : WInv E u W) (hd : step E u .deinit = .ok v)
    (os : List FsOp) (hv : (initWorld E).ValidRun E os) :
    ∃ w, run E v (steps os) = .ok w ∧ WInv E w (after E os) ∧ w.log = u.log ++ ((initWorld E).run os).2.map .ret := by
  obtain ⟨nodes, e, h0, h1, h2⟩ := deinit_sim H
  have hd : ushDeinit E u = .ok v := hd
  rw [e] at hd
  cases hd
  have hf : ∀ i, (nodes i).children = none := by
    intro i
    by_cases hi : ∃ m ∈ W.tree, m.id = i
    · obtain ⟨m, hm, rfl⟩ := hi; rw [h1 m hm]
    · by_cases hz : i = 0
      · rw [hz, h0]
      · have hn : ∀ m ∈ W.tree, m.id ≠ i := fun m hm h => hi ⟨m, hm, h⟩
        rw [h2 i hz hn]
        exact H.tree.free i hn
  obtain ⟨u0, e0, H0, l0, -⟩ := ushInit_free hc (v := { inBuf := u.inBuf, outBuf := u.outBuf, nodes := nodes, log := u.log }) rfl hf
  obtain ⟨w, e1, H1, l1⟩ := fsRun_sim os u0 (initWorld E) H0 hv
  refine ⟨w, ?_, H1, by rw [l1, l0]⟩
  have : steps os = .init :: (os.map FsOp.api).map Op.api := by simp [steps]
  rw [this, run, step, e0]
  simp only [M.ok_bind]
  rw [run_apis]; exact e1

/-- Both after any history within the rules of C23. -/
theorem C39_any_time (E : Env) (L : Nat) (hc : CfgOk E) (room : Roomy E) (beh : Behaves E L) (inBuf outBuf : List UInt8)
    (h1 : inBuf.length = E.inSize) (h2 : outBuf.length = E.outSize) (os : List FsOp) (hv : (initWorld E).ValidRun E os)
    (ok : (after E os).Ok E) (fits : (after E os).Fits E L) :
    ∃ u, run E (blank inBuf outBuf) (steps os) = .ok u ∧ ∀ ms, Legal E L u ms → ∃ v W, run E u (ms.flatMap Move.ops ++ [.deinit]) = .ok v ∧
      (∀ os', (initWorld E).ValidRun E os' → ∃ w, run E v (steps os') = .ok w ∧ WInv E w (after E os')) ∧
      ∃ w, run E u (ms.flatMap Move.ops) = .ok w ∧ WInv E w W ∧ ∀ m ∈ W.tree, v.nodes m.id = {} := by
  obtain ⟨u, e, B, -⟩ := boot hc inBuf outBuf h1 h2 os hv
  refine ⟨u, e, fun ms hl => ?_⟩
  obtain ⟨w, W, j, h, i⟩ := legal_inv room beh ms (B.inv ok fits) hl
  obtain ⟨v, d1, d2, -⟩ := C39_deinit E W w i.rep
  refine ⟨v, W, ?_, fun os' hv' => ?_, w, h, i.rep, d2⟩
  · rw [run_append, h]
    show (step E w .deinit >>= fun x => run E x []) = _
    rw [d1]; rfl
  · obtain ⟨x, g1, g2, -⟩ := C39_again E hc W w v i.rep d1 os' hv'
    exact ⟨x, g1, g2⟩

/-- The sample shell: three directories, two command groups; node 5 is not in use. -/
example : ∃ u, run sE2 (blank (List.replicate 32 0) (List.replicate 64 0)) (steps sHist) = .ok u ∧ WInv sE2 u sW ∧ CfgOk sE2 ∧ (initWorld sE2).ValidRun sE2 sHist := by
  obtain ⟨u, e, B, -⟩ := boot sE2_ok.1 (List.replicate 32 0) (List.replicate 64 0) rfl rfl sHist sE2_ok.2.2.1
  exact ⟨u, e, B.rep, sE2_ok.1, sE2_ok.2.2.1⟩

/-- `ush_deinit` is needed: after `ush_init` twice on the same object the next look-up of a command never ends. -/
theorem C39_init_twice : faultOf (run (nE 8 32) (blank (List.replicate 8 0) (List.replicate 32 0))
    (.init :: nStart [] ++ typing 12 b!"x\n")) = some .diverge := by decide +kernel

/-- With `ush_deinit` in between the same history is fine. -/
example : faultOf (run (nE 8 32) (blank (List.replicate 8 0) (List.replicate 32 0))
    (.init :: .deinit :: nStart [] ++ typing 12 b!"x\n")) = none := by decide +kernel

/-- The sample shell is given up and set up anew with the same nodes. -/
example : ∃ u v w, run sE2 (blank (List.replicate 32 0) (List.replicate 64 0)) (steps sHist) = .ok u ∧ step sE2 u .deinit = .ok v ∧ (∀ m ∈ sW.tree, v.nodes m.id = {}) ∧
    run sE2 v (steps sHist) = .ok w ∧ WInv sE2 w sW := by
  obtain ⟨u, e, B, -⟩ := boot sE2_ok.1 (List.replicate 32 0) (List.replicate 64 0) rfl rfl sHist sE2_ok.2.2.1
  obtain ⟨v, d, hv, -⟩ := C39_deinit sE2 sW u B.rep
  obtain ⟨w, e2, H, -⟩ := C39_again sE2 sE2_ok.1 sW u v B.rep d sHist sE2_ok.2.2.1
  exact ⟨u, v, w, e, d, hv, e2, H⟩

example : ∃ u, run sE2 (blank (List.replicate 32 0) (List.replicate 64 0)) (steps sHist) = .ok u ∧
    ∀ ms, Legal sE2 32 u ms → ∃ v, run sE2 u (ms.flatMap Move.ops ++ [.deinit]) = .ok v := by
  obtain ⟨u, e, h⟩ := C39_any_time sE2 32 sE2_ok.1 sE2_ok.2.1 (sE2_behaves 32) (List.replicate 32 0) (List.replicate 64 0) rfl rfl sHist sE2_ok.2.2.1 sE2_ok.2.2.2.1 sE2_ok.2.2.2.2
  exact ⟨u, e, fun ms hl => let ⟨v, _, hv, _⟩ := h ms hl; ⟨v, hv⟩⟩

end Ush.Props
