import Verif.Proof.Dispatch
/-!
# Replies of the shell to a command line
-/
namespace Ush
open Spec

/-- Enter (`c`) is pressed with a line whose words are `argv`; the hook makes calls that leave the talk `T` and report the
statuses `rs`; there is room for the lookup of the command. -/
structure Entered (E : Env) (W : World) (u : Ush) (e : Editor) (c : UInt8) (argv : List Str) (T : Talk) (rs : List Status) : Prop where
  waiting : Waiting E W u e
  esc : e.esc = .none
  enter : c = cLf ∨ c = cCr
  inSize : 2 ≤ E.inSize
  words : words (sent E.inSize e.line) = argv
  hook : ∃ cs, HookSays E (u.log ++ .inp c :: outs (enterEcho c)) argv cs ∧ (Talk.start W c).ValidRun E cs ∧ (Talk.start W c).run E cs = (T, rs)
  ok : T.world.Ok E
  near : ∀ name ∈ argv.head?, T.world.Near E name

/-- After the echo of Enter and the call of the hook the shell logs `l` and waits at the prompt, in the world `W'`. -/
def Replies (E : Env) (u : Ush) (c : UInt8) (argv : List Str) (rs : List Status) (l : List Event) (W' : World) : Prop :=
  ∀ inp, ∃ v, Steps E u (c :: inp) v inp ∧ Waiting E W' v {} ∧
    v.log = u.log ++ .inp c :: outs (enterEcho c) ++ hookEvents E argv ++ rs.map .ret ++ l

/-- The log when the callback of the command is called. -/
def atExec (E : Env) (u : Ush) (c : UInt8) (argv : List Str) (rs : List Status) (cb : Cb) : List Event :=
  u.log ++ .inp c :: outs (enterEcho c) ++ hookEvents E argv ++ rs.map .ret ++ [.exec cb argv]

/-- The service call in state `w` calls the callback of the file `f`; `l0` has been logged in this service call. -/
structure Called (E : Env) (T : Talk) (w v : Ush) (f : FileDesc) (cb : Cb) (argv : List Str) (l0 : List Event) : Prop where
  s1 : w.state ≠ .readChar
  s2 : w.state ≠ .writeChar
  s3 : w.current.isSome = true
  step : innerStep E w = callExec E v f cb (offs 0 argv) argv
  log : v.log = w.log ++ l0
  talks : Talks E T v
  args : Args v argv
  ok : T.world.Ok E
  inSize : 0 < E.inSize

/-- How the command works. -/
def Serves (E : Env) (T : Talk) (f : FileDesc) (cb : Cb) (argv : List Str) (L : List Event) (l : List Event) (W' : World) : Prop :=
  ∀ w v l0 i, Called E T w v f cb argv l0 → v.log ++ [.exec cb argv] = L → Done E W' w i (l0 ++ .exec cb argv :: l)

theorem Entered.reply {E : Env} {W W' : World} {u : Ush} {e : Editor} {c : UInt8} {name : Str} {as : List Str} {T : Talk} {rs : List Status}
    (cfg : Config E) (h : Entered E W u e c (name :: as) T rs) {f : FileDesc} {cb : Cb} (hf : T.world.file? name = some f) (hx : f.exec = some cb)
    {l : List Event} (S : Serves E T f cb (name :: as) (atExec E u c (name :: as) rs cb) l W') :
    Replies E u c (name :: as) rs (.exec cb (name :: as) :: l) W' := by
  intro inp
  obtain ⟨cs, hh, hv, hr⟩ := h.hook
  obtain ⟨w, v, r, s1, s2, s3, T1, hl, hs⟩ := enter_hook cfg h.waiting c inp h.esc h.enter h.inSize h.words hh hv (by rw [hr]; exact h.ok) (by rw [hr]; exact h.near name rfl)
  rw [hr] at hs T1 hl
  simp only [hf, hx] at hs
  have C : Called E T w v f cb (name :: as) (hookEvents E (name :: as) ++ rs.map .ret) :=
    ⟨s1, s2, s3, hs, by rw [hl, List.append_assoc], T1.talks, T1.args, h.ok, by have := h.inSize; omega⟩
  obtain ⟨x, r2, hx⟩ := Done.after r (S w v _ inp C (by rw [hl, r.log]; rfl))
  exact ⟨x, r2.steps, hx, by rw [r2.log]; simp⟩

theorem Called.holds {E : Env} {T : Talk} {w v : Ush} {f : FileDesc} {cb : Cb} {argv : List Str} {l0 : List Event}
    (C : Called E T w v f cb argv l0) : Holds E T.world (v.emit (.exec cb argv)) :=
  (C.talks.emit _).holds C.ok

theorem Called.arg {E : Env} {T : Talk} {w v : Ush} {f : FileDesc} {cb : Cb} {argv : List Str} {l0 : List Event}
    (C : Called E T w v f cb argv l0) {a : Str} (h : a ∈ argv) : cNul ∉ a ∧ a.length < E.inSize := by
  refine ⟨C.args.nul a h, ?_⟩
  obtain ⟨t, ht⟩ := C.args.buf
  have hl := C.talks.sized.inLen
  rw [ht] at hl
  have : a.length < (packed argv).length := by
    clear ht hl C
    induction argv with
    | nil => cases h
    | cons x ws ih =>
      rcases List.mem_cons.mp h with rfl | h
      · simp [packed]
      · have := ih h; simp [packed] at this ⊢; omega
  simp at hl; omega

/-- A command that prints a status. -/
theorem Called.status {E : Env} {T : Talk} {w v : Ush} {f : FileDesc} {cb : Cb} {argv : List Str} {l0 : List Event} (cfg : Config E)
    (C : Called E T w v f cb argv l0) (s : Status) (i : List UInt8) {v' : Ush} (hv' : SameFs v v') (hz : Sized E v')
    (hl : v'.log = v.log ++ [.exec cb argv])
    (h : callExec E v f cb (offs 0 argv) argv = printStatus E v' s) :
    Done E T.world w i (l0 ++ .exec cb argv :: outs (statusString E.tr s ++ crlf ++ T.world.prompt E)) := by
  have := done_status cfg s i C.s3 C.inSize C.s1 C.s2 (by rw [C.step, h]) (l := l0 ++ [.exec cb argv]) (by rw [hl, C.log, List.append_assoc])
    (C.talks.holds C.ok |>.same hv' hz)
  simpa using this

/-- A command that prints a text and a new line. -/
theorem Called.sayLn {E : Env} {T : Talk} {w v : Ush} {f : FileDesc} {cb : Cb} {argv : List Str} {l0 : List Event} (cfg : Config E)
    (C : Called E T w v f cb argv l0) (i : List UInt8) {v' : Ush} {p : Ptr} {s : Str} (hv' : SameFs v v') (hz : Sized E v')
    (hl : v'.log = v.log ++ [.exec cb argv])
    (hp : p ≠ .null) (hs : ptrStr v' p = .ok s) (hr : Readable v' p s)
    (h : callExec E v f cb (offs 0 argv) argv = writePointer v' p .reset) :
    Done E T.world w i (l0 ++ .exec cb argv :: outs (s ++ crlf ++ T.world.prompt E)) := by
  have := done_sayLn cfg i C.s3 C.inSize C.s1 C.s2 (by rw [C.step, h]) hp hs hr (l := l0 ++ [.exec cb argv]) (by rw [hl, C.log, List.append_assoc])
    (C.talks.holds C.ok |>.same hv' hz)
  simpa using this

/-- A command that prints a text. -/
theorem Called.say {E : Env} {T : Talk} {w v : Ush} {f : FileDesc} {cb : Cb} {argv : List Str} {l0 : List Event} (cfg : Config E)
    (C : Called E T w v f cb argv l0) (i : List UInt8) {v' : Ush} {p : Ptr} {s : Str} (hv' : SameFs v v') (hz : Sized E v')
    (hl : v'.log = v.log ++ [.exec cb argv])
    (hp : p ≠ .null) (hs : ptrStr v' p = .ok s) (hr : Readable v' p s)
    (h : callExec E v f cb (offs 0 argv) argv = writePointer v' p .resetPrompt) :
    Done E T.world w i (l0 ++ .exec cb argv :: outs (s ++ T.world.prompt E)) := by
  have := done_say cfg i C.s3 C.inSize C.s1 C.s2 (by rw [C.step, h]) hp hs hr (l := l0 ++ [.exec cb argv]) (by rw [hl, C.log, List.append_assoc])
    (C.talks.holds C.ok |>.same hv' hz)
  simpa using this

/-- A command that goes on with `v'`. -/
theorem Called.goOn {E : Env} {T : Talk} {w v : Ush} {f : FileDesc} {cb : Cb} {argv : List Str} {l0 l : List Event} {W' : World}
    (C : Called E T w v f cb argv l0) (i : List UInt8) {v' : Ush} (hl : v'.log = v.log ++ [.exec cb argv])
    (h : callExec E v f cb (offs 0 argv) argv = .ok v') (D : Done E W' v' i l) :
    Done E W' w i (l0 ++ .exec cb argv :: l) := by
  have r := Run.inner i C.s3 C.s1 C.s2 (by rw [C.step, h]) (l := l0 ++ [.exec cb argv]) (by rw [hl, C.log, List.append_assoc])
  simpa [Done] using Done.after r D

theorem Called.sized {E : Env} {T : Talk} {w v : Ush} {f : FileDesc} {cb : Cb} {argv : List Str} {l0 : List Event}
    (C : Called E T w v f cb argv l0) : Sized E v := C.talks.sized

end Ush
