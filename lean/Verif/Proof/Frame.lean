import Verif.Proof.World
import Verif.Proof.Log
/-!
# What library calls of the application do not change
-/
namespace Ush
open Spec

/-- Only directories, commands, the working directory and the log differ. -/
def FsFrame (u v : Ush) : Prop :=
  v = { u with nodes := v.nodes, root := v.root, current := v.current, commands := v.commands, log := v.log }

theorem FsFrame.refl (u : Ush) : FsFrame u u := rfl

theorem FsFrame.trans {u v w : Ush} (h1 : FsFrame u v) (h2 : FsFrame v w) : FsFrame u w := by
  unfold FsFrame at *
  rw [h1] at h2
  exact h2

theorem nodeMount_frame {E : Env} {u : Ush} {p : Str} {i : NodeId} {fs : List FileDesc} {r : Ush × Status}
    (h : nodeMount E u p i fs = .ok r) : FsFrame u r.1 := by
  unfold nodeMount at h
  mgo h <;> (cases h; rfl)

theorem nodeUnmount_frame {E : Env} {u : Ush} {p : Str} {r : Ush × Status}
    (h : nodeUnmount E u p = .ok r) : FsFrame u r.1 := by
  unfold nodeUnmount at h
  mgo h <;> (cases h; rfl)

theorem setCurrentDir_frame {E : Env} {u : Ush} {p : Str} {r : Ush × Status}
    (h : setCurrentDir E u p = .ok r) : FsFrame u r.1 := by
  unfold setCurrentDir at h
  mgo h <;> (cases h; rfl)

theorem commandsAdd_frame {u : Ush} {i : NodeId} {fs : List FileDesc} {r : Ush × Status}
    (h : commandsAdd u i fs = .ok r) : FsFrame u r.1 := by
  unfold commandsAdd at h
  rw [M.bind_eq_ok] at h
  obtain ⟨_, _, h⟩ := h
  cases h; rfl

theorem commandsRemove_frame {E : Env} {u : Ush} {i : NodeId} {r : Ush × Status}
    (h : commandsRemove E u i = .ok r) : FsFrame u r.1 := by
  unfold commandsRemove at h
  mgo h <;> (cases h; rfl)

theorem FsFrame.emit {u v : Ush} (h : FsFrame u v) (e : Event) : FsFrame u (v.emit e) := by
  unfold FsFrame Ush.emit at *
  rw [h]

/-- Directory and command operations. -/
theorem fsApi_frame {E : Env} {u v : Ush} (o : FsOp) (h : runApi E u o.api = .ok v) : FsFrame u v := by
  cases o with
  | mount p i fs =>
    obtain ⟨r, h1, h⟩ := M.bind_eq_ok.mp h
    cases h; exact (nodeMount_frame h1).emit _
  | unmount p =>
    obtain ⟨r, h1, h⟩ := M.bind_eq_ok.mp h
    cases h; exact (nodeUnmount_frame h1).emit _
  | cd a c s =>
    obtain ⟨r, h1, h⟩ := M.bind_eq_ok.mp h
    cases h; exact (setCurrentDir_frame h1).emit _
  | addGroup i fs =>
    obtain ⟨r, h1, h⟩ := M.bind_eq_ok.mp h
    cases h; exact (commandsAdd_frame h1).emit _
  | removeGroup i =>
    obtain ⟨r, h1, h⟩ := M.bind_eq_ok.mp h
    cases h; exact (commandsRemove_frame h1).emit _

theorem fsApis_frame {E : Env} : ∀ (os : List FsOp) {u v : Ush}, runApis E u (os.map FsOp.api) = .ok v → FsFrame u v := by
  intro os
  induction os with
  | nil => intro u v h; cases h; exact FsFrame.refl _
  | cons o os ih =>
    intro u v h
    obtain ⟨w, h1, h2⟩ := M.bind_eq_ok.mp h
    exact (fsApi_frame o h1).trans (ih h2)

/-- Everything the line editor, the parser, the process services and the completion work with is the same. -/
def ApiFrame (u v : Ush) : Prop :=
  v = { u with state := v.state, writeNext := v.writeNext, writeBuf := v.writeBuf, writeSize := v.writeSize, writePos := v.writePos,
               outBuf := v.outBuf, procFile := v.procFile,
               nodes := v.nodes, root := v.root, current := v.current, commands := v.commands, log := v.log }

theorem ApiFrame.refl (u : Ush) : ApiFrame u u := rfl

theorem ApiFrame.trans {u v w : Ush} (h1 : ApiFrame u v) (h2 : ApiFrame v w) : ApiFrame u w := by
  unfold ApiFrame at *
  rw [h1] at h2
  exact h2

theorem FsFrame.api {u v : Ush} (h : FsFrame u v) : ApiFrame u v := by
  unfold FsFrame at h; unfold ApiFrame; rw [h]

theorem ApiFrame.inBuf {u v : Ush} (h : ApiFrame u v) : v.inBuf = u.inBuf := by unfold ApiFrame at h; rw [h]

theorem writePointer_frame {u v : Ush} {p : Ptr} {st : St} (h : writePointer u p st = .ok v) : ApiFrame u v := by
  unfold writePointer at h
  mgo h
  cases h; rfl

theorem printfError_frame {E : Env} {u v : Ush} {m : Str} (h : printfError E u m = .ok v) : ApiFrame u v := by
  unfold printfError at h
  mgo h <;> (cases h; rfl)

theorem ushPrintf_frame {E : Env} {u v : Ush} {f : Fmt} (h : ushPrintf E u f = .ok v) : ApiFrame u v := by
  unfold ushPrintf at h
  obtain ⟨u1, h1, h⟩ := M.bind_eq_ok.mp h
  have e1 : ApiFrame u u1 := by
    split at h1
    · obtain ⟨o, _, h1⟩ := M.bind_eq_ok.mp h1
      have e0 : ApiFrame u { u with outBuf := o } := rfl
      exact e0.trans (writePointer_frame h1)
    · cases h1; rfl
  obtain ⟨_, _, h⟩ := M.bind_eq_ok.mp h
  obtain ⟨o, _, h⟩ := M.bind_eq_ok.mp h
  obtain ⟨n, _, h⟩ := M.bind_eq_ok.mp h
  have e2 : ApiFrame u1 { u1 with outBuf := o, writeSize := u1.writeSize + n } := rfl
  split at h
  · exact (e1.trans e2).trans (printfError_frame h)
  · split at h
    · exact (e1.trans e2).trans (printfError_frame h)
    · cases h; exact e1.trans e2

theorem runApi_frame {E : Env} {u v : Ush} {a : Api} (h : runApi E u a = .ok v) : ApiFrame u v := by
  cases a with
  | print p => exact writePointer_frame h
  | printNoNewline p => exact writePointer_frame h
  | printStatus s => exact writePointer_frame h
  | printf f => exact ushPrintf_frame h
  | flush => exact writePointer_frame h
  | reset =>
    have e0 : ApiFrame u { u with current := u.root } := rfl
    exact e0.trans (writePointer_frame h)
  | mount p i fs =>
    obtain ⟨r, h1, h⟩ := M.bind_eq_ok.mp h
    cases h; exact ((nodeMount_frame h1).emit _).api
  | unmount p =>
    obtain ⟨r, h1, h⟩ := M.bind_eq_ok.mp h
    cases h; exact ((nodeUnmount_frame h1).emit _).api
  | setCurrentDir p =>
    obtain ⟨r, h1, h⟩ := M.bind_eq_ok.mp h
    cases h; exact ((setCurrentDir_frame h1).emit _).api
  | commandsAdd i fs =>
    obtain ⟨r, h1, h⟩ := M.bind_eq_ok.mp h
    cases h; exact ((commandsAdd_frame h1).emit _).api
  | commandsRemove i =>
    obtain ⟨r, h1, h⟩ := M.bind_eq_ok.mp h
    cases h; exact ((commandsRemove_frame h1).emit _).api
  | processStart f => cases h; rfl
  | setState s => cases h; rfl
  | fillOut s =>
    obtain ⟨r, h1, h⟩ := M.bind_eq_ok.mp h
    cases h; rfl

theorem runApis_frame {E : Env} : ∀ (as : List Api) {u v : Ush}, runApis E u as = .ok v → ApiFrame u v := by
  intro as
  induction as with
  | nil => intro u v h; cases h; exact ApiFrame.refl _
  | cons a as ih =>
    intro u v h
    obtain ⟨w, h1, h2⟩ := M.bind_eq_ok.mp h
    exact (runApi_frame h1).trans (ih h2)

/-- The log of `v` is that of `u` and some reported statuses. -/
def RetExt (u v : Ush) : Prop := ∃ ss : List Status, v.log = u.log ++ ss.map .ret

theorem RetExt.of_eq {u v : Ush} (h : v.log = u.log) : RetExt u v := ⟨[], by simp [h]⟩

theorem RetExt.trans {u v w : Ush} (h1 : RetExt u v) (h2 : RetExt v w) : RetExt u w := by
  obtain ⟨a, h1⟩ := h1
  obtain ⟨b, h2⟩ := h2
  exact ⟨a ++ b, by rw [h2, h1]; simp⟩

theorem RetExt.ret {u v : Ush} (s : Status) (h : v.log = u.log) : RetExt u (v.emit (.ret s)) := ⟨[s], by simp [Ush.emit, h]⟩

theorem runApi_ret {E : Env} {u v : Ush} {a : Api} (h : runApi E u a = .ok v) : RetExt u v := by
  cases a with
  | print p => (have hz := writePointer_log h; exact .of_eq hz)
  | printNoNewline p => (have hz := writePointer_log h; exact .of_eq hz)
  | printStatus s => (have hz := writePointer_log h; exact .of_eq hz)
  | printf f => exact .of_eq (ushPrintf_log h)
  | flush => (have hz := writePointer_log h; exact .of_eq hz)
  | reset => exact .of_eq (by have := writePointer_log h; exact this)
  | mount p i fs =>
    obtain ⟨r, h1, h⟩ := M.bind_eq_ok.mp h
    cases h; exact .ret _ (nodeMount_log h1)
  | unmount p =>
    obtain ⟨r, h1, h⟩ := M.bind_eq_ok.mp h
    cases h; exact .ret _ (nodeUnmount_log h1)
  | setCurrentDir p =>
    obtain ⟨r, h1, h⟩ := M.bind_eq_ok.mp h
    cases h; exact .ret _ (setCurrentDir_log h1)
  | commandsAdd i fs =>
    obtain ⟨r, h1, h⟩ := M.bind_eq_ok.mp h
    cases h; exact .ret _ (commandsAdd_log h1)
  | commandsRemove i =>
    obtain ⟨r, h1, h⟩ := M.bind_eq_ok.mp h
    cases h; exact .ret _ (commandsRemove_log h1)
  | processStart f => cases h; exact .of_eq rfl
  | setState s => cases h; exact .of_eq rfl
  | fillOut s =>
    obtain ⟨r, h1, h⟩ := M.bind_eq_ok.mp h
    cases h; exact .of_eq rfl

theorem runApis_ret {E : Env} : ∀ (as : List Api) {u v : Ush}, runApis E u as = .ok v → RetExt u v := by
  intro as
  induction as with
  | nil => intro u v h; cases h; exact .of_eq rfl
  | cons a as ih =>
    intro u v h
    obtain ⟨w, h1, h2⟩ := M.bind_eq_ok.mp h
    exact (runApi_ret h1).trans (ih h2)

end Ush
