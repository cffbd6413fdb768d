import Verif.Proof.Unseen
import Verif.Props.Safe
/-!
# C74 What is being printed does not show what comes in the meantime
-/
namespace Ush.Props
open Spec

/-- While `help`, `ls`, `cat` or `xxd` is at work, the application mounts directories and adds commands.  Up to the moment when the shell waits for the
next key, everything the shell does is what it would have done without these calls: the same bytes are written at the same service calls, the
same callbacks are called, and the rest of its memory is the same. -/
theorem C74_unseen (E : Env) (L : Nat) (hc : CfgOk E) (room : Roomy E) (beh : Behaves E L) (una : Unaware E) (inBuf outBuf : List UInt8)
    (h1 : inBuf.length = E.inSize) (h2 : outBuf.length = E.outSize) (os : List FsOp) (hv : (initWorld E).ValidRun E os)
    (ok : (after E os).Ok E) (fits : (after E os).Fits E L) :
    ∃ u, run E (blank inBuf outBuf) (steps os) = .ok u ∧
      ∀ ms, Legal E L u ms → ∃ v, run E u (ms.flatMap Move.ops) = .ok v ∧
        ∀ b, Started v b → ∀ ns, Legal E L v ns → Meanwhile E b v ns →
          ∃ w x, run E v (ns.flatMap Move.ops) = .ok w ∧ run E v ((services ns).flatMap Move.ops) = .ok x ∧
            happened w.log = happened x.log ∧ x = { w with nodes := x.nodes, root := x.root, commands := x.commands, log := x.log } := by
  obtain ⟨u, e, B, -⟩ := boot hc inBuf outBuf h1 h2 os hv
  refine ⟨u, e, fun ms hl => ?_⟩
  obtain ⟨v, W, k, h, I⟩ := legal_inv room beh ms (B.inv ok fits) hl
  refine ⟨v, h, fun b hb ns hn hm => ?_⟩
  obtain ⟨w, x, e1, e2, S⟩ := unseen_run room beh una ns I (I.beside hb) hn hm
  refine ⟨w, x, e1, e2, S.log.symm, ?_⟩
  obtain ⟨N, R, C, l, rfl⟩ := S.eq
  rfl

/-! ## `ls` and a new directory -/

/-- The shell is at work for all these service calls. -/
def busyFor (E : Env) : Ush → List Io → Bool
  | _, [] => true
  | u, io :: ios => decide (u.state ≠ .readChar) && match service E io u with
    | .ok r => busyFor E r.1 ios
    | .error _ => true

theorem busyFor_meanwhile {E : Env} {b : Builtin} : ∀ (ios : List Io) {u : Ush}, busyFor E u ios = true → Meanwhile E b u (ios.map .service) := by
  intro ios
  induction ios with
  | nil => intro u _; trivial
  | cons io ios ih =>
    intro u h
    rw [busyFor, Bool.and_eq_true, decide_eq_true_iff] at h
    refine ⟨h.1, trivial, fun v hv => ih ?_⟩
    have hv : (service E io u >>= fun p => (pure p.1 : M Ush)) >>= (fun w => run E w []) = .ok v := hv
    obtain ⟨w, e1, e2⟩ := M.bind_eq_ok.mp hv
    cases e2
    obtain ⟨r, e3, e4⟩ := M.bind_eq_ok.mp e1
    cases e4
    have := h.2
    rw [e3] at this
    exact this

/-- Twenty service calls. -/
def someIo : List Io := List.replicate 20 ⟨none, true⟩

theorem lsBusy_then : ((run sE3 (blank (List.replicate 32 0) (List.replicate 64 0))
    (steps sHist ++ (lsBusy.map Move.service).flatMap Move.ops ++ [.api (.mount b!"/new" 5 [])])).toOption.any (fun v => busyFor sE3 v someIo)) = true := by decide +kernel

/-- The hypotheses of C74: `ls` is in the middle of its work, the directory `/new` is mounted, and `ls` goes on. -/
example : ∃ u v, run sE3 (blank (List.replicate 32 0) (List.replicate 64 0)) (steps sHist) = .ok u ∧ Legal sE3 32 u (lsBusy.map .service) ∧
    run sE3 u ((lsBusy.map Move.service).flatMap Move.ops) = .ok v ∧ Started v .ls ∧
    Legal sE3 32 v (.calls [.mount b!"/new" 5 []] :: someIo.map .service) ∧ Meanwhile sE3 .ls v (.calls [.mount b!"/new" 5 []] :: someIo.map .service) := by
  obtain ⟨u, v, e, l, e2, l2, x1, x3, hp⟩ := lsBusy_legal
  have hx := lsBusy_then
  rw [run_append, run_append, e, M.ok_bind, e2, M.ok_bind] at hx
  have hnr : v.state ≠ .readChar := by
    intro h
    unfold next at x1
    rw [h] at x1
    simp at x1
  refine ⟨u, v, e, l, e2, ?_, ⟨l2.1, fun v' _ => legal_services someIo v' (by decide +kernel)⟩, hnr, ⟨_, rfl, by decide, by rw [x3]; decide⟩, fun v' hv' => ?_⟩
  · obtain ⟨f, h1, h2⟩ := Option.map_eq_some_iff.mp hp
    exact ⟨f, h1, h2, .inl x1⟩
  · rw [show run sE3 v [.api (.mount b!"/new" 5 [])] = .ok v' from hv', Except.toOption, Option.any_some] at hx
    exact busyFor_meanwhile _ hx

/-! ## The conditions are needed -/

/-- The bytes written. -/
def textOf (r : M Ush) : Option Str := r.toOption.map (fun u => u.log.filterMap (fun e => match e with | .out c => some c | _ => none))

/-- Files with the number of their getter as data. -/
def countE : Env := { nE 16 32 with userGet := fun id _ => some (List.replicate id 33) }

/-- The line `l` is entered; `a` is called `n` service calls later. -/
def meantime (fs : List FileDesc) (l : Str) (n : Nat) (a : List Op) : Option Str :=
  textOf (run countE (blank (List.replicate 16 0) (List.replicate 32 0))
    (nStart fs ++ [.api (.mount b!"/d" 2 []), .api (.mount b!"/e" 3 [])] ++ typing 4 l ++ typing n b!"\n" ++ a ++ List.replicate 80 (.service ⟨none, true⟩)))

/-- A directory that is mounted when `ls` has been found but has not begun is listed, one service call later it is not. -/
theorem C74_false_early :
    meantime [] b!"ls" 6 [.api (.mount b!"/n" 4 [])] = some b!"uShell 0.1.0\r\n[ /]$ ls\nd---- .\r\nd---- n/\r\nd---- e/\r\nd---- d/\r\n[ /]$ " ∧
    meantime [] b!"ls" 7 [.api (.mount b!"/n" 4 [])] = some b!"uShell 0.1.0\r\n[ /]$ ls\nd---- .\r\nd---- e/\r\nd---- d/\r\n[ /]$ " := by
  constructor <;> decide +kernel

/-- A directory that is unmounted in the meantime is missing from the list. -/
theorem C74_false_unmount :
    meantime [] b!"ls" 10 [.api (.unmount b!"/d")] = some b!"uShell 0.1.0\r\n[ /]$ ls\nd---- .\r\nd---- e/\r\n[ /]$ " := by decide +kernel

/-- `cat f f` prints the file `f` and then the data of the command `f` that was added in the meantime. -/
theorem C74_false_cat :
    meantime [{ name := b!"f", getData := some 1 }] b!"cat f f" 15 [.api (.commandsAdd 4 [{ name := b!"f", getData := some 3 }])] =
      some b!"uShell 0.1.0\r\n[ /]$ cat f f\n!!!![ /]$ " ∧
    meantime [{ name := b!"f", getData := some 1 }] b!"cat f f" 15 [] = some b!"uShell 0.1.0\r\n[ /]$ cat f f\n!![ /]$ " := by
  constructor <;> decide +kernel

end Ush.Props
