import Verif.Proof.Contract
import Verif.Props.Demo
/-!
# What the application's callbacks can rely on (C50)
-/
namespace Ush.Props
open Spec

/-- In every history of library calls and service calls, whatever is typed and whatever the application does, and whether or not it keeps the other rules of the
library: as long as nothing faults, only callbacks of descriptors that were handed over are called, and the arguments and data they get fit the input buffer. -/
theorem C50_contract (E : Env) (F : FileDesc → Prop) (hE : EnvFiles E F) (inBuf outBuf : List UInt8) (h1 : inBuf.length = E.inSize) (os : List Op)
    (ho : ∀ o ∈ os, OpFiles F o) (v : Ush) (h : run E (blank inBuf outBuf) os = .ok v) : ∀ e ∈ v.log, Permitted E F e :=
  have h0 : Lawful E F (blank inBuf outBuf) := ⟨fun _ f (hf : f ∈ []) => (by cases hf), fun f (hf : none = some f) => (by cases hf), h1, fun e (he : e ∈ []) => by cases he⟩
  (run_lawful hE os h0 ho h).log

/-- In particular, a buffer with the size of the input buffer can take every argument with its terminator and everything that is written to a file, and there are at
most as many arguments as bytes in the input buffer. -/
theorem C50_sizes (E : Env) (inBuf outBuf : List UInt8) (h1 : inBuf.length = E.inSize) (os : List Op) (v : Ush) (h : run E (blank inBuf outBuf) os = .ok v) :
    (∀ cb argv, .exec cb argv ∈ v.log → 0 < argv.length ∧ argv.length ≤ E.inSize ∧ ∀ a ∈ argv, a.length < E.inSize) ∧
    (∀ id d, .setData id d ∈ v.log → d.length < E.inSize) := by
  have hA : ∀ a, ApiFiles (fun _ => True) a := fun a => by cases a <;> simp [ApiFiles]
  have H := C50_contract E (fun _ => True) ⟨fun _ _ _ => trivial, fun _ _ _ _ a _ => hA a, fun _ _ _ a _ => hA a, fun _ _ a _ => hA a, fun _ _ _ a _ => hA a⟩
    inBuf outBuf h1 os (fun o _ => by cases o <;> first | exact hA _ | trivial) v h
  have hs : ∀ l : List Str, l.length ≤ (l.map (·.length + 1)).sum ∧ ∀ a ∈ l, a.length < (l.map (·.length + 1)).sum := by
    intro l
    induction l with
    | nil => exact ⟨Nat.le_refl _, by simp⟩
    | cons b l ih =>
      simp only [List.map_cons, List.sum_cons, List.length_cons, List.mem_cons, forall_eq_or_imp]
      refine ⟨by omega, by omega, fun a ha => ?_⟩
      have := ih.2 a ha
      omega
  refine ⟨fun cb argv hm => ?_, fun id d hm => (H _ hm).2⟩
  obtain ⟨-, a1, -, a3⟩ := H _ hm
  exact ⟨List.length_pos_iff.2 a1, Nat.le_trans (hs argv).1 a3, fun a ha => Nat.lt_of_lt_of_le ((hs argv).2 a ha) a3⟩

/-- The descriptors of the example DemoBasic and the built-in commands. -/
def demoFile (f : FileDesc) : Prop := f ∈ builtinCommands ∨ f ∈ demoWorld.files

/-- The example satisfies the hypotheses, with exactly its own descriptors ... -/
example : EnvFiles (demo 32 clock) demoFile ∧ ∀ o ∈ steps demoSetup ++ List.replicate 800 (.service ⟨none, true⟩) ++ typing 120 b!"echo 1 > /dev/led\n", OpFiles demoFile o := by
  refine ⟨⟨fun _ f hf => .inl (List.mem_filter.1 hf).1, fun h hh => (nomatch hh), ?_, fun _ _ _ ha => (nomatch ha), fun _ _ _ _ ha => (nomatch ha)⟩, ?_⟩
  · intro id argv u a ha
    simp only [demo] at ha
    split at ha
    · split at ha
      · rw [List.mem_singleton.1 ha]; trivial
      · cases ha
    · rw [List.mem_singleton.1 ha]; trivial
    · cases ha
  · intro o ho
    simp only [List.mem_append, typing, List.mem_flatMap] at ho
    rcases ho with (h | h) | h
    · simp only [steps, demoSetup, List.map_cons, List.map_nil, List.mem_cons, List.not_mem_nil, or_false] at h
      rcases h with rfl | rfl | rfl | rfl | rfl
      · trivial
      all_goals
        intro f hf
        refine .inr ?_
        revert f
        decide
    · rw [(List.mem_replicate.1 h).2]; trivial
    · obtain ⟨c, -, h⟩ := h
      rcases List.mem_cons.1 h with rfl | h
      · trivial
      · rw [(List.mem_replicate.1 h).2]; trivial

/-- ... and its setter is really called. -/
example : ∃ v, run (demo 32 clock) (blank (List.replicate 32 0) (List.replicate 32 0))
    (steps demoSetup ++ List.replicate 800 (.service ⟨none, true⟩) ++ typing 120 b!"echo 1 > /dev/led\n") = .ok v ∧ .setData 5 b!"1" ∈ v.log := by
  have h : (match run (demo 32 clock) (blank (List.replicate 32 0) (List.replicate 32 0))
    (steps demoSetup ++ List.replicate 800 (.service ⟨none, true⟩) ++ typing 120 b!"echo 1 > /dev/led\n") with
    | .ok v => decide (.setData 5 b!"1" ∈ v.log)
    | .error _ => false) = true := by decide +kernel
  split at h
  · rename_i v hv; exact ⟨v, hv, of_decide_eq_true h⟩
  · cases h

example (v : Ush) (h : run (demo 32 clock) (blank (List.replicate 32 0) (List.replicate 32 0))
    (steps demoSetup ++ List.replicate 800 (.service ⟨none, true⟩) ++ typing 120 b!"echo 1 > /dev/led\n") = .ok v) : ∀ id d, .setData id d ∈ v.log → d.length < 32 :=
  (C50_sizes (demo 32 clock) _ _ rfl _ v h).2

end Ush.Props
