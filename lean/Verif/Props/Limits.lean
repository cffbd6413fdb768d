import Verif.Props.Safe
/-!
# Limits: what happens where the rules of the other theorems are not respected
-/
namespace Ush.Props
open Spec

/-- The log. -/
def logOf (m : M Ush) : Option (List Event) :=
  match m with
  | .ok u => some u.log
  | .error _ => none

/-- A mount path with an empty component (excluded in C06-C08): mounting reports success, but the directory is never found, neither under this nor under
another name, and cannot be unmounted. -/
theorem C07_double_slash : logOf (run (nE 16 32) (blank (List.replicate 16 0) (List.replicate 32 0))
    [.init, .api (.mount b!"/" 1 []), .api (.mount b!"//a" 2 []), .api (.setCurrentDir b!"//a"), .api (.setCurrentDir b!"/a"), .api (.unmount b!"//a"), .api (.unmount b!"/a")]) =
    some [.ret .ok, .ret .ok, .ret .nodeNotFound, .ret .nodeNotFound, .ret .nodeNotFound, .ret .nodeNotFound] := by
  decide +kernel

/-- A typed NUL (excluded in C13-C15) ends a word and what follows it is lost. -/
theorem C13_nul : (logOf (run { nE 16 32 with hook := some fun _ _ => [] } (blank (List.replicate 16 0) (List.replicate 32 0))
    (nStart [] ++ typing 4 b!"e a\x00b" ++ typing 60 b!"\n"))).map (fun l => l.filter (fun e => match e with | .hook _ => true | _ => false)) =
    some [.hook [b!"e", b!"a"]] := by
  decide +kernel

/-- A getter that does not set the pointer to the data (excluded in C30; `null_data_getter` of the example demo_linux is one): `cat` reads an
uninitialised pointer. -/
theorem C30_uninitialised : faultOf (run { nE 16 32 with userGet := fun _ _ => none } (blank (List.replicate 16 0) (List.replicate 32 0))
    (nStart [{ name := b!"f", getData := some 1 }] ++ typing 4 b!"cat f" ++ typing 60 b!"\n")) = some .uninit := by
  decide +kernel

/-- `ush_flush` before anything has been written to the output buffer (excluded in C42): the buffer has no end of the text. -/
theorem C42_flush_first : faultOf (run (nE 16 32) (blank (List.replicate 16 0) (List.replicate 32 65)) [.init, .api .flush]) = some .oob := by
  decide +kernel

/-! ### `USH_CONFIG_CMD_XXD_COLUMNS = 0` -/

/-- `xxd` is at work and has not printed all of the data. -/
structure Dumping (u : Ush) : Prop where
  current : u.current.isSome = true
  file : ∃ f, u.procFile = some f ∧ f.process = some (.builtin .xxd)
  left : u.procItem < u.procDataSize
  state : u.state = .processService ∨ (u.state = .writeChar ∧ u.writeNext = .processService)

theorem Dumping.say {u v : Ush} (h : Dumping u) {p : Ptr} (hv : writePointer u p .processService = .ok v) : Dumping v := by
  unfold writePointer at hv
  cases hp : assertM (p ≠ .null) with
  | error f => rw [hp] at hv; cases hv
  | ok x =>
    rw [hp, M.ok_bind] at hv
    cases hs : ptrStr u p with
    | error f => rw [hs] at hv; cases hv
    | ok s =>
      rw [hs, M.ok_bind] at hv
      cases hv
      exact ⟨h.current, h.file, h.left, .inr ⟨rfl, rfl⟩⟩

theorem Dumping.next {E : Env} (hE : E.xxdColumns = 0) {u v : Ush} (h : Dumping u) (io : Io) (hv : Ush.step E u (.service io) = .ok v) : Dumping v := by
  have hv : (service E io u >>= fun r => .ok r.1) = .ok v := by
    unfold Ush.step at hv
    exact hv
  rw [service_eq E io u h.current] at hv
  rcases h.state with hs | ⟨hs, hn⟩
  · obtain ⟨f, h1, h2⟩ := h.file
    simp only [hs] at hv
    have he : innerStep E u = xxdService E u := by simp [innerStep, hs, processCall, h1, h2]
    rw [he] at hv
    cases hx : xxdService E u with
    | error g => rw [hx] at hv; cases hv
    | ok w =>
      rw [hx] at hv
      cases hv
      unfold xxdService at hx
      simp only [hs, hE] at hx
      match hi : u.procIndex with
      | 0 =>
        rw [hi] at hx
        cases ho : storeStr u.outBuf 0 (hex8 u.procItem ++ b!": ") with
        | error g => rw [ho] at hx; cases hx
        | ok o =>
          rw [ho, M.ok_bind] at hx
          exact Dumping.say (u := { u with outBuf := o, procIndex := 1 }) ⟨h.current, h.file, h.left, h.state⟩ hx
      | 1 =>
        rw [hi] at hx
        simp only [xxdHexLoop] at hx
        cases ho : wr u.outBuf 0 cNul with
        | error g => rw [ho] at hx; cases hx
        | ok o =>
          rw [ho, M.ok_bind] at hx
          cases ho' : appendStr o b!" " with
          | error g => simp [ho'] at hx
          | ok o' =>
            simp [ho'] at hx
            exact Dumping.say (u := { u with outBuf := o', procIndex := 2 }) ⟨h.current, h.file, h.left, h.state⟩ hx
      | 2 =>
        rw [hi] at hx
        simp only [xxdTextLoop] at hx
        cases ho : wr u.outBuf 0 cNul with
        | error g => rw [ho] at hx; cases hx
        | ok o =>
          rw [ho, M.ok_bind, M.ok_bind] at hx
          exact Dumping.say (u := { u with state := .processService, outBuf := o, procIndex := 3, procItem := u.procItem }) ⟨h.current, h.file, h.left, .inl rfl⟩ hx
      | 3 =>
        rw [hi] at hx
        simp only [if_neg (show ¬ u.procItem ≥ u.procDataSize from Nat.not_le.mpr h.left)] at hx
        exact Dumping.say (u := { u with procIndex := 0 }) ⟨h.current, h.file, h.left, h.state⟩ hx
      | n + 4 => rw [hi] at hx; cases hx
  · simp only [hs] at hv
    unfold writeChar at hv
    split at hv
    · cases hv
      exact ⟨h.current, h.file, h.left, .inl hn⟩
    · cases hr : ptrRead u u.writeBuf u.writePos with
      | error g => rw [hr] at hv; cases hv
      | ok ch =>
        rw [hr] at hv
        cases hw : io.wr with
        | true => simp [hw] at hv; cases hv; exact ⟨h.current, h.file, h.left, .inr ⟨hs, hn⟩⟩
        | false => simp [hw] at hv; cases hv; exact ⟨h.current, h.file, h.left, .inr ⟨hs, hn⟩⟩

/-- With a configuration of 0 columns `xxd` never ends: the shell never waits for a key again, however often it is serviced. -/
theorem C24_columns (E : Env) (hE : E.xxdColumns = 0) (ios : List Io) : ∀ (u v : Ush), Dumping u → run E u (ios.map .service) = .ok v →
    Dumping v ∧ v.state ≠ .readChar := by
  induction ios with
  | nil =>
    intro u v h hv
    cases hv
    refine ⟨h, ?_⟩
    rcases h.state with hs | ⟨hs, -⟩ <;> rw [hs] <;> decide
  | cons io ios ih =>
    intro u v h hv
    simp only [List.map_cons, run] at hv
    cases hs : Ush.step E u (.service io) with
    | error g => rw [hs] at hv; cases hv
    | ok w => rw [hs, M.ok_bind] at hv; exact ih w v (h.next hE io hs) hv

/-- It is reached by typing `xxd f`, for a file of one byte. -/
theorem C24_columns_reached : (match run { nE 16 32 with xxdColumns := 0 } (blank (List.replicate 16 0) (List.replicate 32 0))
      (nStart [{ name := b!"f", getData := some 1 }] ++ typing 4 b!"xxd f" ++ typing 60 b!"\n") with
    | .ok u => decide (u.current.isSome = true ∧ (u.procFile.bind (·.process)) = some (.builtin .xxd) ∧ u.procItem < u.procDataSize ∧
        (u.state = .processService ∨ (u.state = .writeChar ∧ u.writeNext = .processService)))
    | .error _ => false) = true := by
  decide +kernel

example : ∃ u, run { nE 16 32 with xxdColumns := 0 } (blank (List.replicate 16 0) (List.replicate 32 0))
      (nStart [{ name := b!"f", getData := some 1 }] ++ typing 4 b!"xxd f" ++ typing 60 b!"\n") = .ok u ∧
    ∀ (ios : List Io) (v : Ush), run { nE 16 32 with xxdColumns := 0 } u (ios.map .service) = .ok v → v.state ≠ .readChar := by
  have h := C24_columns_reached
  split at h
  · rename_i u e
    obtain ⟨h1, h2, h3, h4⟩ := of_decide_eq_true h
    refine ⟨u, e, fun ios v hv => (C24_columns _ rfl ios u v ⟨h1, ?_, h3, ?_⟩ hv).2⟩
    · cases hf : u.procFile with
      | none => rw [hf] at h2; cases h2
      | some f => rw [hf] at h2; exact ⟨f, rfl, h2⟩
    · exact h4
  · cases h

end Ush.Props
