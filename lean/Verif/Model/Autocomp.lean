import Verif.Model.Core
/-!
# Model of TAB completion: `ush_autocomp.c`, `ush_autocomp_state.c`, `ush_autocomp_utils.c`
-/
namespace Ush

/-- `ush_autocomp_prepare_candidates`, ush_autocomp_utils.c:41-48. -/
def acPrepareCandidates (u : Ush) : Ush :=
  { u with acCount := 0, procStage := 0, procNode := u.commands, procIndex := 0, procItem := 0 }

/-- `ush_autocomp_optimize_continue`, ush_autocomp_utils.c:50-68. -/
def acOptimizeContinue (E : Env) (u : Ush) : M Ush := do
  let u := { u with acPrevCount := u.acCount }
  let pos ← strlenAt u.inBuf u.acInput
  match u.acCand with
  | none => .error .null
  | some cand =>
    if pos ≥ cand.length then return { u with state := .acRecallSuffix }
    else
      let ch ← rd cand pos
      let buf ← wr u.inBuf u.inPos ch
      let p := u.inPos + 1
      let p := if p ≥ E.inSize then 0 else p
      let buf ← wr buf p cNul
      let u := { u with inBuf := buf, inPos := p, acSuffixLen := u.acSuffixLen + 1 }
      return { acPrepareCandidates u with state := .acCandOptimise }

/-- `ush_autocomp_check_for_finish`, ush_autocomp_utils.c:70-99. -/
def acCheckForFinish (E : Env) (u : Ush) : M Ush := do
  vla E.pathMax
  match u.procStage with
  | 0 => return { u with procNode := u.current, procIndex := 0, procItem := 0, procStage := 1 }
  | 1 =>
    let input ← cstrAt u.inBuf u.acInput
    let abs ← getAbsolutePath E u input
    let node ← (if input = [] then pure u.current
      else do
        match ← getParentByPath E u abs with
        | some n => pure (some n)
        | none => pure u.current)
    match node with
    | none => .error .null
    | some n =>
      return { u with procNode := (u.nodes n).children, procIndex := 0, procItem := 0, procStage := 2 }
  | 2 => return { u with acPrevState := u.state, state := .acCandFinish }
  | _ => .error .assert

/-- `ush_autocomp_check_for_next`, ush_autocomp_utils.c:101-124; `n` is `process_node` (not NULL). -/
def acCheckForNext (u : Ush) (n : NodeId) : M (Ush × Bool) :=
  match u.procStage with
  | 0 =>
    if u.procItem ≥ (u.nodes n).files.length then
      .ok ({ u with procItem := 0, procNode := (u.nodes n).next }, true)
    else .ok (u, false)
  | 1 =>
    if u.procItem ≥ (u.nodes n).files.length then .ok ({ u with procItem := 0, procNode := none }, true)
    else .ok (u, false)
  | 2 => .ok (u, false)
  | _ => .error .assert

/-- `ush_autocomp_process_file_prepare`, ush_autocomp_utils.c:168-191; returns also `*file`. -/
def acFilePrepare (u : Ush) (n : NodeId) : M (Ush × Option FileDesc × Bool) := do
  let input ← cstrAt u.inBuf u.acInput
  match u.procStage with
  | 0 | 1 =>
    match (u.nodes n).files[u.procItem]? with
    | none => .error .oob
    | some f =>
      if startsWith f.name input = false then
        return ({ u with procItem := u.procItem + 1, procIndex := 0 }, some f, true)
      else return (u, some f, false)
  | 2 =>
    match (u.nodes n).path with
    | none => .error .assert
    | some p =>
      let name := pathLast p
      let u := { u with acName := some name }
      if startsWith name input = false then
        return ({ u with procNode := (u.nodes n).next, procIndex := 0 }, none, true)
      else return (u, none, false)
  | _ => .error .assert

/-- `ush_autocomp_process_file_index`, ush_autocomp_utils.c:126-166. -/
def acFileIndex (u : Ush) (n : NodeId) (file : Option FileDesc) : M Ush :=
  match u.procIndex with
  | 0 => do
    let name ← (match u.procStage with
      | 0 | 1 =>
        match file with
        | none => .error Fault.null
        | some f => .ok f.name
      | 2 =>
        match u.acName with
        | none => .error Fault.assert
        | some nm => .ok nm
      | _ => .error Fault.assert)
    let u ← (if u.state = .acCandPrint then writePointer u (.str name) u.state else pure u)
    return { u with procIndex := 1, acCount := u.acCount + 1, acCand := some name }
  | 1 => do
    let u ← (if u.state = .acCandPrint then writePointer u (.str crlf) u.state else pure u)
    return { u with procIndex := 2 }
  | 2 =>
    match u.procStage with
    | 0 | 1 => .ok { u with procItem := u.procItem + 1, procIndex := 0 }
    | 2 => .ok { u with procNode := (u.nodes n).next, procIndex := 0 }
    | _ => .error .assert
  | _ => .error .assert

/-- `ush_autocomp_state_recall_suffix`, ush_autocomp_state.c:34-43. -/
def acRecallSuffix (u : Ush) : M Ush := do
  let len ← strlenAt u.inBuf u.acInput
  if u.acInput + len < u.acSuffixLen then .error .oob
  else
    let off := u.acInput + len - u.acSuffixLen
    let slen ← strlenAt u.inBuf off
    if slen > 0 then writePointer u (.inBuf off) .readChar
    else writePointer (acPrepareCandidates u) (.str crlf) .acCandPrint

/-- `ush_autocomp_state_prepare`, ush_autocomp_state.c:45-49. -/
def acStatePrepare (u : Ush) : M Ush := do
  let s ← cstrAt u.inBuf 0
  return { u with acInput := lastArgOff s, state := .acCandStart }

/-- `ush_autocomp_state_candidates_start`, ush_autocomp_state.c:51-57. -/
def acCandidatesStart (u : Ush) : Ush :=
  { acPrepareCandidates { u with acPrevCount := 0, acSuffixLen := 0 } with state := .acCandCount }

/-- `ush_autocomp_state_candidates_process`, ush_autocomp_state.c:59-75. -/
def acCandidatesProcess (E : Env) (u : Ush) : M Ush :=
  match u.procNode with
  | none => acCheckForFinish E u
  | some n => do
    let (u, next) ← acCheckForNext u n
    if next then return u
    else
      let (u, file, skip) ← acFilePrepare u n
      if skip then return u else acFileIndex u n file

/-- `ush_autocomp_state_candidates_finish`, ush_autocomp_state.c:77-115.  `autocomp_suffix_len--` on 0 would
wrap around in C; the model reports it as a fault. -/
def acCandidatesFinish (E : Env) (u : Ush) : M Ush :=
  match u.acPrevState with
  | .acCandPrint => .ok { u with state := .acPrompt }
  | .acCandCount =>
    match u.acCount with
    | 0 => .ok { u with state := .readChar }
    | 1 => do
      let len ← strlenAt u.inBuf u.acInput
      match u.acCand with
      | none => .error .null
      | some cand =>
        let buf ← storeStr u.inBuf u.acInput cand
        let p ← strlenAt buf 0
        writePointer { u with inBuf := buf, inPos := p } (.inBuf (u.acInput + len)) .readChar
    | _ => acOptimizeContinue E { u with acSuffixLen := 0 }
  | .acCandOptimise =>
    if u.acCount < u.acPrevCount then do
      let p := if u.inPos > 0 then u.inPos - 1 else u.inPos
      let buf ← wr u.inBuf p cNul
      if u.acSuffixLen = 0 then .error .oob
      else return { u with inBuf := buf, inPos := p, acSuffixLen := u.acSuffixLen - 1, state := .acRecallSuffix }
    else acOptimizeContinue E u
  | _ => .error .assert

/-- `ush_autocomp_service`, ush_autocomp.c:34-85. -/
def autocompService (E : Env) (u : Ush) : M (Option Ush) :=
  match u.state with
  | .acPrepare => do return some (← acStatePrepare u)
  | .acCandStart => .ok (some (acCandidatesStart u))
  | .acCandCount => do return some (← acCandidatesProcess E u)
  | .acCandOptimise => do return some (← acCandidatesProcess E u)
  | .acCandPrint => do return some (← acCandidatesProcess E u)
  | .acCandFinish => do return some (← acCandidatesFinish E u)
  | .acPromptPrepare => do return some (← writePointer u (.str crlf) .acPrompt)
  | .acPrompt => .ok (some (promptStart u .acRecall))
  | .acRecall => do return some (← writePointer u (.inBuf 0) .readChar)
  | .acRecallSuffix => do return some (← acRecallSuffix u)
  | _ => .ok none

end Ush
