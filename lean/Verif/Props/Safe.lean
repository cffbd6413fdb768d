import Verif.Proof.SafeRun
import Verif.Props.Samples
/-!
# C23 Memory safety, C24 The shell always returns to the prompt

Every out-of-bounds access, NULL dereference, failed assertion, endless loop inside a call and use of an uninitialised pointer is
a fault of the model: the run ends with `.error`.  The theorems say that a history ends with `.ok` if
* the buffers are large enough for the built-in commands (`Roomy`; `ush_init` accepts smaller ones),
* the callbacks of the application make allowed calls (`Behaves`), and
* every call of the application is allowed when it is made (`Legal`): texts are C strings, a built-in command or a completion that is
  at work does not mind the change of directories or commands (`World.Bears`, `World.BearsTab`), TAB is not pressed when a candidate
  does not fit.

The number `L` is the bound for which the directories leave room: a path buffer holds the path of any mounted directory and `L` more
bytes (`World.Fits`).  If `L` is the size of the input buffer, any line may be entered.  If it is smaller, because the path buffers are
small (as in the examples of the library, where they are as large as the input buffer), `Legal` asks that no line of `L` or more bytes is
entered or completed; `C23_false_path` shows what happens otherwise.
-/
namespace Ush.Props
open Spec

/-! ## C23 -/

/-- After `ush_init` and any valid history of mounts and command registrations, whatever is typed, whenever the shell is serviced,
whatever the callbacks and the application do (within the rules), nothing goes wrong.

Missing from the full statement: buffers smaller than `Roomy`, library calls and keys that are not allowed (`C23_false_line`,
`C23_false_help`, `C23_false_unmount`, `C23_false_hide`, `C23_false_cd`, `C23_false_twice`, `C23_false_path`, `C23_false_tab`, and `C27_overflow`). -/
theorem C23_memory_safe_partial (E : Env) (L : Nat) (hc : CfgOk E) (room : Roomy E) (beh : Behaves E L) (inBuf outBuf : List UInt8)
    (h1 : inBuf.length = E.inSize) (h2 : outBuf.length = E.outSize) (os : List FsOp) (hv : (initWorld E).ValidRun E os)
    (ok : (after E os).Ok E) (fits : (after E os).Fits E L) :
    ∃ u, run E (blank inBuf outBuf) (steps os) = .ok u ∧
      ∀ ms, Legal E L u ms → ∃ v, run E u (ms.flatMap Move.ops) = .ok v := by
  obtain ⟨u, e, B, -⟩ := boot hc inBuf outBuf h1 h2 os hv
  refine ⟨u, e, fun ms hl => ?_⟩
  obtain ⟨v, -, -, h, -⟩ := legal_inv room beh ms (B.inv ok fits) hl
  exact ⟨v, h⟩

theorem legal_then {E : Env} {L : Nat} : ∀ (ms : List Move) {ns : List Move} {u v : Ush}, Legal E L u ms → run E u (ms.flatMap Move.ops) = .ok v → Legal E L v ns →
    Legal E L u (ms ++ ns) := by
  intro ms
  induction ms with
  | nil => intro ns u v _ h2 h3; cases h2; exact h3
  | cons m ms ih =>
    intro ns u v h1 h2 h3
    refine ⟨h1.1, fun w hw => ih (h1.2 w hw) ?_ h3⟩
    rw [List.flatMap_cons, run_append, hw] at h2
    exact h2

theorem legal_rest {E : Env} {L : Nat} : ∀ (ms : List Move) {ns : List Move} {u v : Ush}, Legal E L u (ms ++ ns) → run E u (ms.flatMap Move.ops) = .ok v → Legal E L v ns := by
  intro ms
  induction ms with
  | nil => intro ns u v h1 h2; cases h2; exact h1
  | cons m ms ih =>
    intro ns u v h1 h2
    rw [List.flatMap_cons, run_append] at h2
    obtain ⟨w, e1, e2⟩ := M.bind_eq_ok.mp h2
    exact ih (h1.2 w e1) e2

/-- The calls that are allowed depend on the directories, the commands and the working directory the node objects stand for.  There is at most
one such world, up to the order in which the directories were mounted. -/
theorem C23_world (E : Env) (u : Ush) (W V : World) (h1 : WInv E u W) (h2 : WInv E u V) (o1 : W.Ok E) (o2 : V.Ok E) :
    V.groups = W.groups ∧ V.cwd = W.cwd ∧ V.tree.Perm W.tree := by
  have S := h1.uniq h2 o1 o2
  exact ⟨S.groups, S.cwd, (List.perm_ext_iff_of_nodup h2.tree.nodupPath.of_map h1.tree.nodupPath.of_map).mpr S.mem⟩

/-- A directory without files can be mounted at any time: at the prompt, while a command runs, while the shell prints, in the middle of `ls`
or `cat`, and even between two steps of a completion if its name fits behind the line.  The node object must not be in use. -/
theorem C23_mount_any_time (E : Env) (L : Nat) (hc : CfgOk E) (room : Roomy E) (beh : Behaves E L) (inBuf outBuf : List UInt8)
    (h1 : inBuf.length = E.inSize) (h2 : outBuf.length = E.outSize) (os : List FsOp) (hv : (initWorld E).ValidRun E os)
    (ok : (after E os).Ok E) (fits : (after E os).Fits E L) :
    ∃ u, run E (blank inBuf outBuf) (steps os) = .ok u ∧
      ∀ ms, Legal E L u ms → ∃ v, run E u (ms.flatMap Move.ops) = .ok v ∧
        ∀ (p : List Str) (i : NodeId), p ≠ [] → (∀ c ∈ p, GoodComp c) → (render p).length < E.pathMax → (fullText (render p) []).length + L ≤ E.pathMax →
          i < E.nodeCount → (∀ W, WInv E v W → W.Unlinked i) → v.current ≠ some i → Steady v (fun _ => True) (v.inPos + (dirName p).length < L) →
            Legal E L u (ms ++ [.calls [.mount (render p) i []]]) := by
  obtain ⟨u, e, B, -⟩ := boot hc inBuf outBuf h1 h2 os hv
  refine ⟨u, e, fun ms hl => ?_⟩
  obtain ⟨v, W, k, h, I⟩ := legal_inv room beh ms (B.inv ok fits) hl
  refine ⟨v, h, fun p i a1 a2 a3 a4 a5 a6 a7 a8 => legal_then ms hl h ⟨⟨I.mountBare a2 a1 a3 a4 a5 (a6 W I.rep) a7 a8, fun _ _ => trivial⟩, fun _ _ => trivial⟩⟩

/-- The same for an application without callbacks that calls nothing but `ush_service`: the only conditions on the history are that
TAB is not pressed when a candidate does not fit, and that Enter is not pressed when the line is too long for the path buffers (which
never happens if `L` is the size of the input buffer). -/
theorem C23_typing_partial (E : Env) (L : Nat) (hc : CfgOk E) (room : Roomy E) (hook : E.hook = none) (exec : ∀ id argv u, E.userExec id argv u = [])
    (proc : ∀ id u, E.userProc id u = []) (set : ∀ id d u, E.userSet id d u = []) (get : ∀ id u, ∃ d, E.userGet id u = some d ∧ d.length ≤ 16 ^ 8)
    (inBuf outBuf : List UInt8) (h1 : inBuf.length = E.inSize) (h2 : outBuf.length = E.outSize) (os : List FsOp)
    (hv : (initWorld E).ValidRun E os) (ok : (after E os).Ok E) (fits : (after E os).Fits E L) :
    ∃ u, run E (blank inBuf outBuf) (steps os) = .ok u ∧
      ∀ ios : List Io, (∀ n v, run E u ((ios.take n).map Op.service) = .ok v → v.state = .readChar →
          ((ios[n]?.bind Io.rd) = some cTab → TabOk E L v) ∧ ((ios[n]?.bind Io.rd) = some cLf ∨ (ios[n]?.bind Io.rd) = some cCr → Short E L v)) →
        ∃ v, run E u (ios.map Op.service) = .ok v := by
  have beh : Behaves E L := by
    refine ⟨fun h hh => ?_, fun id argv u _ => ?_, fun id u _ => ?_, fun id d u _ => ?_, get⟩
    · rw [hook] at hh; cases hh
    · rw [exec]; exact trivial
    · rw [proc]; exact trivial
    · rw [set]; exact trivial
  obtain ⟨u, e, h⟩ := C23_memory_safe_partial E L hc room beh inBuf outBuf h1 h2 os hv ok fits
  refine ⟨u, e, fun ios ht => ?_⟩
  have hops : ∀ ios : List Io, (ios.map Move.service).flatMap Move.ops = ios.map Op.service := by
    intro ios
    induction ios with
    | nil => rfl
    | cons io ios ih => simp only [List.map_cons, List.flatMap_cons, ih]; rfl
  rw [← hops]
  apply h
  clear e h
  induction ios generalizing u with
  | nil => trivial
  | cons io ios ih =>
    refine ⟨fun h3 => ht 0 u rfl h3, fun v hv => ih v (fun n w hw => ht (n + 1) w ?_)⟩
    simp only [List.take_succ_cons, List.map_cons, run]
    have hv : (step E u (.service io) >>= fun w => run E w []) = .ok v := hv
    cases hs : step E u (.service io) with
    | error f => rw [hs] at hv; cases hv
    | ok x => rw [hs] at hv; cases hv; exact hw

/-! ### A shell that meets the hypotheses -/

instance (f : FileDesc) : Decidable (Proper f) :=
  have d : ∀ c : Option Cb, Decidable (∀ b, c ≠ some (.builtin b)) := fun c =>
    match c with
    | none => isTrue (by simp)
    | some (.user _) => isTrue (by simp)
    | some (.builtin b) => isFalse (fun h => h b rfl)
  have := d f.exec
  have := d f.process
  by unfold Proper; infer_instance

instance (E : Env) (L : Nat) (W : World) : Decidable (W.Fits E L) :=
  decidable_of_iff ((∀ f ∈ W.files, Proper f ∧ (rowHead E f).length < E.outSize) ∧ (∀ m ∈ W.dirs, (fullText (render m.path) []).length + L ≤ E.pathMax) ∧ L ≤ E.inSize)
    ⟨fun h => ⟨h.1, h.2.1, h.2.2⟩, fun h => ⟨h.files, h.paths, h.line⟩⟩

/-- With a hook, commands that print, files with data. -/
def sE2 : Env := { sE1 with hook := some (fun _ _ => [.printf (.text b!"?")]), userProc := fun _ _ => [.print (.str b!"p")] }

theorem sE2_ok : CfgOk sE2 ∧ Roomy sE2 ∧ (initWorld sE2).ValidRun sE2 sHist ∧ sW.Ok sE2 ∧ sW.Fits sE2 32 :=
  ⟨⟨by decide, by decide, by decide, by decide, by decide⟩, ⟨by decide, by decide, by decide, by decide⟩, by decide, by decide, by decide⟩

theorem sE2_behaves (L : Nat) : Behaves sE2 L := by
  have hp : ∀ (u : Ush) (s : Str), cNul ∉ s → Allowed sE2 L u (.print (.str s)) := fun u s hs =>
    ⟨by simp, s, cstrAt_zero s [] hs⟩
  have hf : ∀ (u : Ush) (s : Str), cNul ∉ s → Allowed sE2 L u (.printf (.text s)) := fun u s hs => ⟨hs, .inl (by decide)⟩
  refine ⟨?_, ?_, ?_, ?_, ?_⟩
  · intro h hh argv u _
    cases hh
    exact ⟨hf _ _ (by decide), fun _ _ => trivial⟩
  · intro id argv u _
    by_cases hi : id = 1
    · subst hi
      exact ⟨hf _ _ (by decide), fun _ _ => ⟨hf _ _ (by decide), fun _ _ => trivial⟩⟩
    · have : sE2.userExec id argv u = [.print (.str b!"hello")] := if_neg hi
      rw [this]
      exact ⟨hp _ _ (by decide), fun _ _ => trivial⟩
  · intro id u _
    exact ⟨hp _ _ (by decide), fun _ _ => trivial⟩
  · intro id d u _
    by_cases hi : id = 8
    · subst hi
      exact ⟨hp _ _ (by decide), fun _ _ => trivial⟩
    · have : sE2.userSet id d u = [] := if_neg hi
      rw [this]; exact trivial
  · intro id u
    refine ⟨_, rfl, ?_⟩
    split
    · decide
    · decide

/-- Mounting a directory and printing a text are allowed between two service calls, and then anything may be typed. -/
example : ∃ u, run sE2 (blank (List.replicate 32 0) (List.replicate 64 0)) (steps sHist) = .ok u ∧
    Legal sE2 32 u [.calls [.mount b!"/dev/x" 5 []], .service ⟨some cTab, false⟩, .service ⟨some cLf, true⟩] := by
  obtain ⟨u, e, B, -⟩ := boot sE2_ok.1 (List.replicate 32 0) (List.replicate 64 0) rfl rfl sHist sE2_ok.2.2.1
  refine ⟨u, e, ?_, ?_⟩
  · refine ⟨⟨[b!"dev", b!"x"], by decide, sW, B.rep, sE2_ok.2.2.2.1, sE2_ok.2.2.2.2, ?_, by decide, by decide, by decide⟩, fun _ _ => trivial⟩
    have : next u = .resetPrompt := by unfold next; rw [if_pos B.pend.1, B.pend.2.1]
    unfold Steady; rw [this]; trivial
  · intro v hv
    have hv : (runApi sE2 u (.mount b!"/dev/x" 5 []) >>= fun w => .ok w) = .ok v := hv
    have hv : runApi sE2 u (.mount b!"/dev/x" 5 []) = .ok v := by
      cases h : runApi sE2 u (.mount b!"/dev/x" 5 []) with
      | error f => rw [h] at hv; cases hv
      | ok w => rw [h] at hv; exact hv
    have F := fsApi_frame (.mount [b!"dev", b!"x"] 5 []) hv
    have hs : v.state = .writeChar := by rw [F]; exact B.pend.1
    have hw : v.writePos = 0 ∧ v.writeSize = u.writeSize := by rw [F]; exact ⟨B.pend.2.2.2.2, rfl⟩
    refine ⟨fun h => by (rw [hs] at h; cases h), fun w hw2 => ⟨fun _ => ⟨fun h => (by cases h), fun _ h => absurd h (by decide)⟩, fun _ _ => trivial⟩⟩

/-- TAB may be pressed after `ru`. -/
example : ∃ u, Waiting sE sW u ⟨b!"ru", .none⟩ ∧ TabOk sE 32 u := by
  obtain ⟨u, H⟩ := sTyped b!"ru" (by decide) (by decide)
  refine ⟨u, H, ?_⟩
  have hl : u.inBuf.take u.inPos = b!"ru" := by
    obtain ⟨rest, hb⟩ := H.shows.buf
    rw [hb, H.shows.pos]; exact List.take_left' rfl
  refine fun _ => ⟨fun h => absurd h (by decide), by rw [hl]; decide, sW, H.rep, H.ok, by decide, ?_⟩
  rw [hl]
  unfold TabFits
  decide

/-! ### The full statement is false -/

/-- How a run ends. -/
def faultOf (m : M Ush) : Option Fault :=
  match m with
  | .error f => some f
  | .ok _ => none

/-- A shell with short texts. -/
def nE (i o : Nat) : Env where
  inSize := i
  outSize := o
  pathMax := 24
  nodeCount := 6
  hostname := []
  alignSpace := 8
  styleReset := []
  colorGreen := []
  colorYellow := []
  colorMagenta := []
  userGet := fun _ _ => some b!"on"

/-- The keys `cs`, with `n` service calls after each. -/
def typing (n : Nat) (cs : Str) : List Op := cs.flatMap (fun c => .service ⟨some c, true⟩ :: List.replicate n (.service ⟨none, true⟩))

/-- Start. -/
def nStart (fs : List FileDesc) : List Op := [.init, .api (.mount b!"/" 1 fs)] ++ List.replicate 40 (.service ⟨none, true⟩)

/-- An input buffer of one byte: Enter makes the parser run out of the buffer. -/
theorem C23_false_line : faultOf (run (nE 1 32) (blank [0] (List.replicate 32 0)) (nStart [] ++ typing 8 b!"\n")) = some .oob := by decide +kernel

/-- An output buffer of 8 bytes: `help` writes over its end. -/
theorem C23_false_help : faultOf (run (nE 8 8) (blank (List.replicate 8 0) (List.replicate 8 0)) (nStart [] ++ typing 12 b!"help\n")) = some .oob := by
  decide +kernel

/-- Unmounting the directory while `cat` prints a file of it: NULL is dereferenced. -/
theorem C23_false_unmount : faultOf (run (nE 16 32) (blank (List.replicate 16 0) (List.replicate 32 0))
    (nStart [] ++ [.api (.mount b!"/d" 2 [{ name := b!"f", getData := some 1 }])] ++ typing 16 b!"cat d/f d/f\n" ++ [.api (.unmount b!"/d")] ++ typing 12 b!"\n")) = some .null := by
  decide +kernel

/-- A new command hides the file while `cat` prints it, and cannot be read: NULL is called. -/
theorem C23_false_hide : faultOf (run (nE 16 32) (blank (List.replicate 16 0) (List.replicate 32 0))
    (nStart [{ name := b!"f", getData := some 1 }] ++ typing 16 b!"cat f f\n" ++ [.api (.commandsAdd 2 [{ name := b!"f" }])] ++ typing 12 b!"\n")) = some .null := by
  decide +kernel

/-- Changing the directory while `cat` prints a file of it. -/
theorem C23_false_cd : faultOf (run (nE 16 32) (blank (List.replicate 16 0) (List.replicate 32 0))
    (nStart [{ name := b!"f", getData := some 1 }] ++ [.api (.mount b!"/d" 2 [])] ++ typing 16 b!"cat f f\n" ++ [.api (.setCurrentDir b!"/d")] ++ typing 12 b!"\n")) = some .null := by
  decide +kernel

/-- The same node object given to `ush_commands_add` twice: the next look-up never ends. -/
theorem C23_false_twice : faultOf (run (nE 8 32) (blank (List.replicate 8 0) (List.replicate 32 0))
    (nStart [] ++ [.api (.commandsAdd 2 [{ name := b!"c" }]), .api (.commandsAdd 2 [{ name := b!"c" }])] ++ typing 12 b!"x\n")) = some .diverge := by
  decide +kernel

/-- A path buffer as large as the input buffer (as in all examples of the library), in the directory `/dev`: a word of 19 letters, which fits the
line, makes a path that does not fit the array on the stack. -/
theorem C23_false_path : faultOf (run (nE 24 32) (blank (List.replicate 24 0) (List.replicate 32 0))
    (nStart [] ++ [.api (.mount b!"/dev" 2 []), .api (.setCurrentDir b!"/dev")] ++ typing 4 (List.replicate 19 120) ++ typing 40 b!"\n")) = some .oob := by
  decide +kernel

/-- TAB on a line with a typed NUL, where several candidates begin with the word before the NUL: the characters of the completion are written
behind the NUL, so the word does not get longer; this goes on around the input buffer, and then the added characters are printed from
an address in front of the buffer. -/
theorem C23_false_tab : faultOf (run (nE 8 32) (blank (List.replicate 8 0) (List.replicate 32 0))
    (nStart [{ name := b!"ab" }, { name := b!"ac" }] ++ typing 4 b!"a\x00" ++ typing 200 b!"\t")) = some .oob := by
  decide +kernel

/-! ## C24 -/

/-- After any history, if the shell is serviced and its output is accepted again and again (`f` tells for every service call which
byte is there and whether the output takes a byte), it comes to wait for input, or to call a process function of the application
(which may go on for ever). -/
theorem C24_returns (E : Env) (L : Nat) (hc : CfgOk E) (room : Roomy E) (beh : Behaves E L) (inBuf outBuf : List UInt8)
    (h1 : inBuf.length = E.inSize) (h2 : outBuf.length = E.outSize) (os : List FsOp) (hv : (initWorld E).ValidRun E os)
    (ok : (after E os).Ok E) (fits : (after E os).Fits E L) :
    ∃ u, run E (blank inBuf outBuf) (steps os) = .ok u ∧
      ∀ ms, Legal E L u ms → ∃ v, run E u (ms.flatMap Move.ops) = .ok v ∧
        ∀ f : Nat → Io, (∀ n, ∃ m, n ≤ m ∧ (f m).wr = true) → ∃ n w, serve E f v n = .ok w ∧ (w.state = .readChar ∨ AppTurn w) := by
  obtain ⟨u, e, B, -⟩ := boot hc inBuf outBuf h1 h2 os hv
  refine ⟨u, e, fun ms hl => ?_⟩
  obtain ⟨v, W', j, h, i⟩ := legal_inv room beh ms (B.inv ok fits) hl
  refine ⟨v, h, fun f hf => ?_⟩
  obtain ⟨n, w, -, -, -, e1, -, e2⟩ := served_inv room beh f hf (dist v j) rfl (t := 0) rfl i
  exact ⟨n, w, e1, e2⟩

example : ∃ u, run sE2 (blank (List.replicate 32 0) (List.replicate 64 0)) (steps sHist) = .ok u ∧
    ∀ ms, Legal sE2 32 u ms → ∃ v, run sE2 u (ms.flatMap Move.ops) = .ok v ∧
      ∀ f : Nat → Io, (∀ n, ∃ m, n ≤ m ∧ (f m).wr = true) → ∃ n w, serve sE2 f v n = .ok w ∧ (w.state = .readChar ∨ AppTurn w) :=
  C24_returns sE2 32 sE2_ok.1 sE2_ok.2.1 (sE2_behaves 32) _ _ rfl rfl sHist sE2_ok.2.2.1 sE2_ok.2.2.2.1 sE2_ok.2.2.2.2

/-- The hypotheses of C23: the sample shell, also without any hook or process function. -/
example : ∃ u, run sE2 (blank (List.replicate 32 0) (List.replicate 64 0)) (steps sHist) = .ok u ∧
    ∀ ms, Legal sE2 32 u ms → ∃ v, run sE2 u (ms.flatMap Move.ops) = .ok v :=
  C23_memory_safe_partial sE2 32 sE2_ok.1 sE2_ok.2.1 (sE2_behaves 32) _ _ rfl rfl sHist sE2_ok.2.2.1 sE2_ok.2.2.2.1 sE2_ok.2.2.2.2

/-- The sample shell with callbacks that do nothing. -/
def sE3 : Env := { sE1 with hook := none, userExec := fun _ _ _ => [], userProc := fun _ _ => [], userSet := fun _ _ _ => [], userGet := fun _ _ => some b!"data" }

theorem sE3_ok : CfgOk sE3 ∧ Roomy sE3 ∧ (initWorld sE3).ValidRun sE3 sHist ∧ sW.Ok sE3 ∧ sW.Fits sE3 32 :=
  ⟨⟨by decide, by decide, by decide, by decide, by decide⟩, ⟨by decide, by decide, by decide, by decide⟩, by decide, by decide, by decide⟩

example : ∃ u, run sE3 (blank (List.replicate 32 0) (List.replicate 64 0)) (steps sHist) = .ok u ∧
    ∀ ios : List Io, (∀ n v, run sE3 u ((ios.take n).map Op.service) = .ok v → v.state = .readChar →
        ((ios[n]?.bind Io.rd) = some cTab → TabOk sE3 32 v) ∧ ((ios[n]?.bind Io.rd) = some cLf ∨ (ios[n]?.bind Io.rd) = some cCr → Short sE3 32 v)) →
      ∃ v, run sE3 u (ios.map Op.service) = .ok v :=
  C23_typing_partial sE3 32 sE3_ok.1 sE3_ok.2.1 rfl (fun _ _ _ => rfl) (fun _ _ => rfl) (fun _ _ _ => rfl)
    (fun _ _ => ⟨_, rfl, by decide⟩) _ _ rfl rfl sHist sE3_ok.2.2.1 sE3_ok.2.2.2.1 sE3_ok.2.2.2.2

/-- Service calls without TAB are legal when the lines may be as long as the input buffer. -/
theorem legal_services : ∀ (ios : List Io) (u : Ush), (∀ io ∈ ios, io.rd ≠ some cTab) → Legal sE3 32 u (ios.map .service) := by
  intro ios
  induction ios with
  | nil => intro u _; trivial
  | cons io ios ih =>
    intro u h
    exact ⟨fun _ => ⟨fun ht => absurd ht (h io (by simp)), fun _ hl => absurd hl (by decide)⟩, fun v _ => ih v (fun x hx => h x (by simp [hx]))⟩

/-- `ls` is in the middle of its work. -/
def lsBusy : List Io := List.replicate 50 ⟨none, true⟩ ++ (b!"ls\n").flatMap (fun c => ⟨some c, true⟩ :: List.replicate 10 ⟨none, true⟩)

/-- The moment: what runs, the working directory, the list of commands, and the node object 5. -/
theorem lsBusy_at : ((run sE3 (blank (List.replicate 32 0) (List.replicate 64 0)) (steps sHist ++ (lsBusy.map Move.service).flatMap Move.ops)).toOption.any
    (fun v => decide (next v = .processService ∧ v.current = some 1 ∧ v.commands = some 4 ∧ (v.nodes 4).next = some 0 ∧ (v.nodes 0).next = none ∧
      (v.nodes 5).path = none ∧ v.procFile.map (·.process) = some (some (.builtin .ls))))) = true := by decide +kernel

/-- In the middle of `ls` the directory `/new` can be mounted. -/
theorem lsBusy_legal : ∃ u v, run sE3 (blank (List.replicate 32 0) (List.replicate 64 0)) (steps sHist) = .ok u ∧ Legal sE3 32 u (lsBusy.map .service) ∧
    run sE3 u ((lsBusy.map Move.service).flatMap Move.ops) = .ok v ∧ Legal sE3 32 v [.calls [.mount b!"/new" 5 []]] ∧
    next v = .processService ∧ v.current = some 1 ∧ v.procFile.map (·.process) = some (some (.builtin .ls)) := by
  obtain ⟨u, e, h⟩ := C23_mount_any_time sE3 32 sE3_ok.1 sE3_ok.2.1
    ⟨fun h hh => (by cases hh), fun _ _ _ _ => trivial, fun _ _ _ => trivial, fun _ _ _ _ => trivial, fun _ _ => ⟨_, rfl, by decide⟩⟩
    (List.replicate 32 0) (List.replicate 64 0) rfl rfl sHist sE3_ok.2.2.1 sE3_ok.2.2.2.1 sE3_ok.2.2.2.2
  have l := legal_services lsBusy u (by decide +kernel)
  obtain ⟨v, e2, h⟩ := h _ l
  have hx := lsBusy_at
  rw [run_append, e, M.ok_bind, e2] at hx
  rw [Except.toOption, Option.any_some, decide_eq_true_iff] at hx
  obtain ⟨x1, x3, x4, x5, x6, x7, x8⟩ := hx
  refine ⟨u, v, e, l, e2, legal_rest _ (h [b!"new"] 5 (by decide) (by decide) (by decide) (by decide) (by decide) ?_ (by rw [x3]; decide) ?_) e2, x1, x3, x8⟩
  · refine fun W H => ⟨fun m hm e => ?_, fun c hc e => ?_⟩
    · have := H.tree.path m hm
      rw [e, x7] at this
      cases this
    · have : IsChain v.nodes v.commands [4, 0] := ⟨x4, x5, x6⟩
      have := (H.cmds.chain.det this) ▸ List.mem_map_of_mem (f := Group.id) hc
      rw [e] at this
      exact absurd this (by decide)
  · unfold Steady
    rw [x1]
    exact fun _ _ _ _ => trivial

example : ∃ u, run sE3 (blank (List.replicate 32 0) (List.replicate 64 0)) (steps sHist) = .ok u ∧
    Legal sE3 32 u (lsBusy.map .service ++ [.calls [.mount b!"/new" 5 []]]) := by
  obtain ⟨u, v, e, l, e2, h, -⟩ := lsBusy_legal
  exact ⟨u, e, legal_then _ l e2 h⟩

end Ush.Props
