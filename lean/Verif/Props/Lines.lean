import Verif.Props.Demo
import Verif.Proof.Lines
/-!
# Lines entered one after the other (C48, C49)
-/
namespace Ush.Props
open Spec

/-- In an application that leaves the directories alone, lines are entered one after the other, in any number: every one is answered, in the order of entering and
before the next one is read, and nothing else happens.  From `ush_init` on, whatever the timing of the terminal. -/
theorem C48_lines (E : Env) (hc : CfgOk E) (cfg : Config E) (room : Roomy E) (A : App) (hA : A.Describes E) (L N : Nat) (inBuf outBuf : List UInt8)
    (h1 : inBuf.length = E.inSize) (h2 : outBuf.length = E.outSize) (os : List FsOp) (hv : (initWorld E).ValidRun E os) (ok : (after E os).Ok E)
    (fits : (after E os).Fits E L) (plain : (after E os).Plain E N) (tame : A.Tame E (after E os)) (ks : List Str) (hk : ∀ k ∈ ks, Types E L k)
    (f : Nat → Slot) (hf : Fair f) :
    ∃ u v K, run E (blank inBuf outBuf) (steps os) = .ok u ∧ Shell E (ks.foldl (Term.enter E A) (Term.start E os)) v ∧
      ∀ n ≥ K, driveN E f u (entered ks) n = .ok (v, []) := by
  obtain ⟨k1, k2, -⟩ := entered_keys (A := A) (N := N) ks (Term.start E os) rfl hk
  obtain ⟨u, v, K, e, H, -, h⟩ := C48_life E hc cfg room A hA L N inBuf outBuf h1 h2 os hv ok fits plain tame (entered ks) k2 f hf
  exact ⟨u, v, K, e, k1 ▸ H, h⟩

/-- DemoBasic and DemoAdvanced: whatever lines of at most `n - 6` characters are entered, in any number, with corrections, the LED and the working directory are what the
lines make of them. -/
theorem C49_lines (n : Nat) (hn : 32 ≤ n) (time : List Event → Str) (inBuf outBuf : List UInt8) (h1 : inBuf.length = n) (h2 : outBuf.length = n) (ks : List Str)
    (hk : ∀ k ∈ ks, Types (demo n time) (n - 5) k) (f : Nat → Slot) (hf : Fair f) :
    ∃ u v K, run (demo n time) (blank inBuf outBuf) (steps demoSetup) = .ok u ∧ (∀ j ≥ K, driveN (demo n time) f u (entered ks) j = .ok (v, [])) ∧
      led v.log = (Device.run {} (ks.map (edit []))).led ∧
      v.log = (ks.foldl (Term.enter (demo n time) (demoApp time)) (Term.start (demo n time) demoSetup)).log ∧
      (ks.foldl (Term.enter (demo n time) (demoApp time)) (Term.start (demo n time) demoSetup)).world.path = (Device.run {} (ks.map (edit []))).dir := by
  obtain ⟨k1, k2, k3⟩ := entered_keys (A := demoApp time) (N := 8) ks (Term.start (demo n time) demoSetup) rfl hk
  obtain ⟨u, v, K, e, h, H, hl, hp⟩ := C49_demo n hn time inBuf outBuf h1 h2 (entered ks) k2 f hf
  rw [k3] at hl hp
  rw [k1] at H hp
  exact ⟨u, v, K, e, h, hl, H.log, hp⟩

/-- Lines with corrections. -/
def demoLines : List Str := [b!"/bin/toggke\x08\x08le", b!"cd dve\x7f\x7fev", b!"echo 0 > led", b!"../bin/set 1"]

example : (∀ k ∈ demoLines, Types (demo 32 clock) 27 k) ∧
    demoLines.map (edit []) = [b!"/bin/toggle", b!"cd dev", b!"echo 0 > led", b!"../bin/set 1"] ∧
    Device.run {} (demoLines.map (edit [])) = ⟨[b!"dev"], true⟩ := by
  have h : ∀ k ∈ demoLines, (∀ c ∈ k, isText c = true) ∧ (∀ i ∈ List.range (k.length + 1), (edit [] (k.take i)).length + 1 < 32) ∧ (edit [] k).length < 27 := by decide +kernel
  exact ⟨fun k hk => ⟨(h k hk).1, fun p hp => by
      rw [List.prefix_iff_eq_take.1 hp]
      exact (h k hk).2.1 _ (List.mem_range.2 (Nat.lt_succ_of_le hp.length_le)), (h k hk).2.2⟩, by decide +kernel, by decide +kernel⟩

end Ush.Props
