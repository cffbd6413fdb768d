import Verif.Spec.Terminal
import Verif.Spec.Sched
/-!
# Specification: a hostname that changes

`desc->hostname` is a pointer (ush_types.h:248), so the application may change the text it points to, as the examples do with their
file `/etc/hostname`.  `Env.hostname` is that text.  Here it is a function of everything that has happened: a `Host`.  Every service call
is made with the text of that moment.
-/
namespace Ush

/-- The same shell with another hostname. -/
def Env.named (E : Env) (h : Str) : Env := { E with hostname := h }

namespace Spec

/-- The text `desc->hostname` points to after a history. -/
abbrev Host := List Event → Str

/-- It is a C string, and only callbacks or keys change it: not the bytes the shell prints. -/
structure Host.Ok (host : Host) : Prop where
  text : ∀ l, cNul ∉ host l
  quiet : ∀ l c, host (l ++ [.out c]) = host l

/-- The environment at the moment. -/
def Host.now (host : Host) (E : Env) (u : Ush) : Env := E.named (host u.log)

/-- `drive` (Spec/Sched.lean) where every call finds the hostname of the moment. -/
def driveH (E : Env) (host : Host) : Ush → List UInt8 → List Slot → M (Ush × List UInt8)
  | u, inp, [] => .ok (u, inp)
  | u, inp, s :: ss => do
    let (v, r) ← drive1 (host.now E u) u inp s
    driveH E host v r ss

/-- `Steps` with the hostname of the moment. -/
def StepsH (E : Env) (host : Host) (u : Ush) (inp : List UInt8) (v : Ush) (r : List UInt8) : Prop :=
  ∃ n, driveH E host u inp (List.replicate n Slot.full) = .ok (v, r)

/-- `driveN` with the hostname of the moment. -/
def driveNH (E : Env) (host : Host) (f : Nat → Slot) (u : Ush) (inp : List UInt8) (n : Nat) : M (Ush × List UInt8) :=
  driveH E host u inp ((List.range n).map f)

/-- The hostname after the key `c`. -/
def Host.after (host : Host) (E : Env) (A : App) (t : Term) (c : UInt8) : Str := host (t.key E A c).log

/-- Effect of a key: the prompt shown shows the hostname as it is after the key. -/
def Term.keyH (E : Env) (host : Host) (A : App) (t : Term) (c : UInt8) : Term := t.key (E.named (host.after E A t c)) A c

def Term.keysH (E : Env) (host : Host) (A : App) (t : Term) : List UInt8 → Term
  | [] => t
  | c :: cs => Term.keysH E host A (t.keyH E host A c) cs

def Term.OkAllH (E : Env) (host : Host) (A : App) (t : Term) : List UInt8 → Prop
  | [] => True
  | c :: cs => t.Ok E A c ∧ Term.OkAllH E host A (t.keyH E host A c) cs

/-- The terminal after start-up. -/
def Term.startH (E : Env) (host : Host) (os : List FsOp) : Term := Term.start (E.named (host (((initWorld E).run os).2.map .ret))) os

/-- The states in which the prompt is printed. -/
def isPrompt : St → Bool
  | .promptPrefix => true
  | .promptHost => true
  | .promptSpace => true
  | .promptPath => true
  | .promptSuffix => true
  | _ => false

/-- Process functions of the application do not put the shell into the middle of the prompt, or of a text. -/
def NoPrompt (E : Env) : Prop := ∀ id u, ∀ s, Api.setState s ∈ E.userProc id u → isPrompt s = false ∧ s ≠ .writeChar

end Spec
end Ush
