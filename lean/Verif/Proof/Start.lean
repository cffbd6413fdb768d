import Verif.Proof.History
import Verif.Proof.Dispatch
/-!
# Start-up
-/
namespace Ush
open Spec

/-- After `ush_init` and some directory operations the banner is going to be printed. -/
structure Booted (E : Env) (W : World) (u : Ush) : Prop where
  rep : WInv E u W
  sized : Sized E u
  pend : u.state = .writeChar ∧ u.writeNext = .resetPrompt ∧ u.writeBuf = .str banner ∧ u.writeSize = banner.length ∧ u.writePos = 0

theorem boot {E : Env} (hc : CfgOk E) (inBuf outBuf : List UInt8) (h1 : inBuf.length = E.inSize) (h2 : outBuf.length = E.outSize)
    (os : List FsOp) (hv : (initWorld E).ValidRun E os) :
    ∃ u, run E (blank inBuf outBuf) (steps os) = .ok u ∧ Booted E (after E os) u ∧ u.log = ((initWorld E).run os).2.map .ret := by
  obtain ⟨u0, e0, H0, l0, b1, b2, p1, p2, p3, p4, p5⟩ := ushInit_blank hc inBuf outBuf
  obtain ⟨u, e, H, l⟩ := fsRun_sim os u0 (initWorld E) H0 hv
  have F := fsApis_frame os e
  refine ⟨u, ?_, ⟨H, ⟨?_, ?_⟩, ?_⟩, by rw [l, l0]; rfl⟩
  · have : steps os = .init :: (os.map FsOp.api).map Op.api := by simp [steps]
    rw [this, run, step, e0]
    simp only [M.ok_bind]
    rw [run_apis]; exact e
  · rw [F]; show u0.inBuf.length = _; rw [b1]; exact h1
  · rw [F]; show u0.outBuf.length = _; rw [b2]; exact h2
  · rw [F]; exact ⟨p1, p2, p3, p4, p5⟩

theorem Booted.done {E : Env} {W : World} {u : Ush} (cfg : Config E) (B : Booted E W u) (ok : W.Ok E) (hin : 0 < E.inSize) (i : List UInt8) :
    Done E W u i (outs (banner ++ W.prompt E)) := by
  have H : Holds E W u := ⟨B.sized, B.rep, ok⟩
  obtain ⟨h1, h2, h3, h4, h5⟩ := B.pend
  have st := Steps.deliver (E := E) i banner banner.length u H.current h1 h4 (by omega) (by rw [h3]; exact Readable.str u banner)
  have r : Run E u i _ i (outs banner) := ⟨st, by simp [h5]⟩
  obtain ⟨w, r2, W2⟩ := Done.after r (done_resetPrompt cfg (u := { u with state := u.writeNext, writePos := banner.length, log := u.log ++ outs (banner.drop u.writePos) })
    (H.same ⟨rfl, rfl, rfl, rfl⟩ ⟨B.sized.inLen, B.sized.outLen⟩) hin i h2)
  exact ⟨w, r2.cast (by simp), W2⟩

/-- A shell waiting at its first prompt. -/
theorem boot_waiting {E : Env} (hc : CfgOk E) (cfg : Config E) (os : List FsOp) (hv : (initWorld E).ValidRun E os) (ok : (after E os).Ok E) :
    ∃ v, Waiting E (after E os) v {} := by
  obtain ⟨u, -, B, -⟩ := boot hc (List.replicate E.inSize 0) (List.replicate E.outSize 0) (by simp) (by simp) os hv
  obtain ⟨v, -, h⟩ := B.done cfg ok hc.inSize []
  exact ⟨v, h⟩

/-- The line has neither CR nor LF. -/
def Clean (e : Editor) : Prop := cLf ∉ e.line ∧ cCr ∉ e.line

theorem Clean.key {e : Editor} {c : UInt8} (cap : Nat) (h : Clean e) (ht : e.takes c = true) : Clean (e.key cap c).1 := by
  unfold Editor.key
  split
  · split
    · exact h
    · exact ⟨fun hm => h.1 (List.dropLast_subset _ hm), fun hm => h.2 (List.dropLast_subset _ hm)⟩
  · split
    · exact h
    · cases he : e.esc with
      | esc => exact h
      | bracket => exact h
      | none =>
        have hc : c ≠ cLf ∧ c ≠ cCr := by
          refine ⟨?_, ?_⟩ <;> (rintro rfl; rw [Editor.takes, he] at ht; revert ht; decide)
        unfold Clean
        simp only
        split
        · exact ⟨by simp [h.1, Ne.symm hc.1], by simp [h.2, Ne.symm hc.2]⟩
        · simp

theorem Clean.keys (cap : Nat) : ∀ (cs : Str) {e : Editor}, Clean e → e.takesAll cap cs = true → Clean (e.keys cap cs).1 := by
  intro cs
  induction cs with
  | nil => intro e h _; exact h
  | cons c cs ih =>
    intro e h ht
    simp only [Editor.takesAll, Bool.and_eq_true] at ht
    exact ih (h.key cap ht.1) ht.2

/-- Keys typed into the editor. -/
theorem Waiting.keys {E : Env} {W : World} {u : Ush} {e : Editor} (cfg : Config E) (H : Waiting E W u e) (cs : Str) (i : List UInt8)
    (ht : e.takesAll E.inSize cs = true) :
    ∃ v, Run E u (cs ++ i) v i (e.keys E.inSize cs).2 ∧ Waiting E W v (e.keys E.inSize cs).1 := by
  obtain ⟨v, r, S, f, z⟩ := keys_run cfg.outSize i cs u e H.shows H.sized H.current ht
  exact ⟨v, r, { sized := z, rep := H.rep.same f, ok := H.ok, shows := S, clean := Clean.keys _ cs H.clean ht }⟩

end Ush
