import Verif.Model.Service
import Verif.Proof.Basic
/-!
# The service function as one case distinction on the state
-/
namespace Ush

/-- `prompt_path` step. -/
def promptPathStep (u : Ush) : M Ush :=
  match u.current with
  | none => .error .null
  | some c =>
    match (u.nodes c).path with
    | none => .error .assert
    | some p => writePointer u (.str (pathLast p)) .promptSuffix

/-- Call of the process service function. -/
def processCall (E : Env) (u : Ush) : M Ush :=
  match u.procFile with
  | none => .error .assert
  | some f =>
    match f.process with
    | none => .ok { u with state := .reset }
    | some (.builtin .help) => helpService E u
    | some (.builtin .ls) => lsService E u
    | some (.builtin .cat) => catService E u
    | some (.builtin .xxd) => xxdService E u
    | some (.builtin _) => .error .null
    | some (.user id) => runApis E (u.emit (.proc id)) (E.userProc id u)

/-- The states in which a step depends on nothing but the shell. -/
def innerStep (E : Env) (u : Ush) : M Ush :=
  match u.state with
  | .reset => writePointer u (.str crlf) .resetPrompt
  | .resetPrompt => .ok (promptStart u .readPrepare)
  | .promptPrefix => writePointer u (.str (E.colorMagenta ++ b!"[")) .promptHost
  | .promptHost => writePointer u (.str E.hostname) .promptSpace
  | .promptSpace => writePointer u (.str b!" ") .promptPath
  | .promptPath => promptPathStep u
  | .promptSuffix => writePointer u (.str (b!"]$ " ++ E.styleReset)) u.promptNext
  | .readPrepare => readStart u
  | .readChar => .ok u
  | .parsePrepare => .ok (parseStart u)
  | .parseSearchArg => parseChar E u
  | .parseQuoteArg => parseChar E u
  | .parseStandardArg => parseChar E u
  | .writeChar => .ok u
  | .processStart => processCall E u
  | .processService => processCall E u
  | .processFinish => processCall E u
  | .acPrepare => acStatePrepare u
  | .acCandStart => .ok (acCandidatesStart u)
  | .acCandCount => acCandidatesProcess E u
  | .acCandOptimise => acCandidatesProcess E u
  | .acCandPrint => acCandidatesProcess E u
  | .acCandFinish => acCandidatesFinish E u
  | .acPromptPrepare => writePointer u (.str crlf) .acPrompt
  | .acPrompt => .ok (promptStart u .acRecall)
  | .acRecall => writePointer u (.inBuf 0) .readChar
  | .acRecallSuffix => acRecallSuffix u

/-- One service call of a shell whose root is mounted. -/
theorem service_eq (E : Env) (io : Io) (u : Ush) (hc : u.current.isSome = true) :
    service E io u =
      match u.state with
      | .readChar => readChar E io u
      | .readPrepare => readStart u >>= fun v => .ok (v, false)
      | .writeChar => writeChar io u >>= fun v => .ok (v, true)
      | _ => innerStep E u >>= fun v => .ok (v, true) := by
  unfold service innerStep
  rw [hc]
  simp only [assertM_true, M.ok_bind]
  have b1 : ∀ (x : M Ush) (k : Ush → M (Ush × Bool)) (k2 : M (Ush × Bool)),
      ((do return some (← x) : M (Option Ush)) >>= fun r => match r with
        | some v => k v
        | none => k2) = x >>= k := by
    intro x k k2
    cases x <;> rfl
  cases hs : u.state <;>
    simp only [resetService, promptService, readService, autocompService, parseService, writeService,
      processService, hs, M.ok_bind]
  all_goals try rfl
  all_goals try (generalize writePointer u _ _ = x; cases x <;> rfl)
  case promptPath =>
    unfold promptPathStep
    cases hcur : u.current with
    | none => rfl
    | some c =>
      simp only
      cases hp : (u.nodes c).path with
      | none => rfl
      | some p => simp only; generalize writePointer u _ _ = x; cases x <;> rfl
  case readPrepare => generalize readStart u = x; cases x <;> rfl
  case readChar => generalize readChar E io u = x; cases x <;> rfl
  case writeChar => generalize writeChar io u = x; cases x <;> rfl
  case parseSearchArg => generalize parseChar E u = x; cases x <;> rfl
  case parseQuoteArg => generalize parseChar E u = x; cases x <;> rfl
  case parseStandardArg => generalize parseChar E u = x; cases x <;> rfl
  case acPrepare => generalize acStatePrepare u = x; cases x <;> rfl
  case acCandCount => generalize acCandidatesProcess E u = x; cases x <;> rfl
  case acCandOptimise => generalize acCandidatesProcess E u = x; cases x <;> rfl
  case acCandPrint => generalize acCandidatesProcess E u = x; cases x <;> rfl
  case acCandFinish => generalize acCandidatesFinish E u = x; cases x <;> rfl
  case acRecallSuffix => generalize acRecallSuffix u = x; cases x <;> rfl
  all_goals
    unfold processCall
    cases hf : u.procFile with
    | none => rfl
    | some f =>
      simp only
      cases hp : f.process with
      | none => rfl
      | some cb =>
        cases cb with
        | user id => simp only; generalize runApis E _ _ = x; cases x <;> rfl
        | builtin b =>
          cases b <;> try rfl
          · simp only; generalize helpService E u = x; cases x <;> rfl
          · simp only; generalize lsService E u = x; cases x <;> rfl
          · simp only; generalize catService E u = x; cases x <;> rfl
          · simp only; generalize xxdService E u = x; cases x <;> rfl

theorem service_noroot (E : Env) (io : Io) (u : Ush) (hc : u.current.isSome = false) :
    service E io u = .error .assert := by
  unfold service; rw [hc]; rfl

end Ush
