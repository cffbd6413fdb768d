import Verif.Spec.Printf
import Verif.Spec.Terminal
/-!
# Specification: `ush_printf` while somebody is typing
-/
namespace Ush.Spec

/-- The states in which a line is read, including completion with TAB. -/
def isTyping : St → Bool
  | .readPrepare | .readChar | .acPrepare | .acCandStart | .acCandCount | .acCandOptimise | .acCandPrint | .acCandFinish
  | .acPromptPrepare | .acPrompt | .acRecall | .acRecallSuffix => true
  | _ => false

/-- The application does not put the shell into one of these states itself, nor into the state of printing (no library function does this; a process service may assign to `self->state`). -/
def _root_.Ush.Api.Polite (a : Api) : Prop := ∀ s, a = .setState s → isTyping s = false ∧ s ≠ .writeChar

def _root_.Ush.Op.Polite (o : Op) : Prop := ∀ a, o = .api a → a.Polite

/-- The callbacks of the application keep the rules of `Tidy` and `Polite`. -/
structure EnvPolite (E : Env) : Prop extends EnvTidy E where
  hookP : ∀ h, E.hook = some h → ∀ argv u, ∀ a ∈ h argv u, a.Polite
  execP : ∀ id argv u, ∀ a ∈ E.userExec id argv u, a.Polite
  procP : ∀ id u, ∀ a ∈ E.userProc id u, a.Polite
  setP : ∀ id d u, ∀ a ∈ E.userSet id d u, a.Polite

/-- A call at the prompt: as before, and also `ush_printf`, with a text that is at least four bytes shorter than the output buffer. -/
def Term.NoteOk (E : Env) (t : Term) : Call → Prop
  | .printf s => cNul ∉ s ∧ s.length + 3 < E.outSize
  | c => t.CallOk E c

def Term.ItemOkN (E : Env) (A : App) (t : Term) : Item → Prop
  | .key c => t.Ok E A c
  | .call c => t.NoteOk E c

def Term.ItemsOkN (E : Env) (A : App) (t : Term) : List Item → Prop
  | [] => True
  | i :: is => t.ItemOkN E A i ∧ Term.ItemsOkN E A (t.item E A i) is

end Ush.Spec
