import Verif.Spec.Session
import Verif.Proof.Shell
import Verif.Proof.Resolve
/-!
# A session at the prompt: from Enter to the next prompt
-/
namespace Ush
open Spec

/-- The shell represents `W`, which is fine, and its buffers have the right size. -/
structure Holds (E : Env) (W : World) (u : Ush) : Prop where
  sized : Sized E u
  rep : WInv E u W
  ok : W.Ok E

/-- The shell waits for a key with the line editor in state `e`. -/
structure Waiting (E : Env) (W : World) (u : Ush) (e : Editor) : Prop extends Holds E W u where
  shows : Shows u e
  clean : cLf ∉ e.line ∧ cCr ∉ e.line

/-- From `u` the shell gets to an empty line; `l` is what is added to the log. -/
def Done (E : Env) (W : World) (u : Ush) (i : List UInt8) (l : List Event) : Prop :=
  ∃ v, Run E u i v i l ∧ Waiting E W v {}

theorem Holds.same {E : Env} {W : World} {u v : Ush} (H : Holds E W u) (S : SameFs u v) (z : Sized E v) : Holds E W v :=
  ⟨z, H.rep.same S, H.ok⟩

theorem Holds.cwd {E : Env} {W : World} {u : Ush} (H : Holds E W u) : ∃ m, W.cwd = some m ∧ W.path = m.path ∧
    u.current = some m.id ∧ (u.nodes m.id).path = some (render m.path) ∧ (∀ c ∈ m.path, GoodComp c) ∧ m ∈ W.dirs := by
  cases h : W.cwd with
  | none => exact absurd h H.ok.cwd
  | some m =>
    obtain ⟨h1, h2, h3⟩ := H.rep.at h
    exact ⟨m, rfl, by simp [World.path, h], h1, h2, h3, mem_dirs.mpr (.inr h)⟩

theorem Holds.current {E : Env} {W : World} {u : Ush} (H : Holds E W u) : u.current.isSome = true := by
  obtain ⟨m, -, -, h, -⟩ := H.cwd
  rw [h]; rfl

theorem Done.after {E : Env} {W : World} {u v : Ush} {i j : List UInt8} {l l' : List Event} (r : Run E u i v j l) (d : Done E W v j l') :
    ∃ w, Run E u i w j (l ++ l') ∧ Waiting E W w {} := by
  obtain ⟨w, r2, h⟩ := d
  exact ⟨w, r.trans r2, h⟩

theorem Prompted.waiting {E : Env} {W : World} {u v : Ush} (H : Holds E W u) (p : Prompted E u v) : Waiting E W v {} :=
  { toHolds := H.same p.fs p.sized, shows := p.shows, clean := ⟨by simp, by simp⟩ }

theorem done_resetPrompt {E : Env} {W : World} {u : Ush} (cfg : Config E) (H : Holds E W u) (hin : 0 < E.inSize) (i : List UInt8)
    (hs : u.state = .resetPrompt) : Done E W u i (outs (W.prompt E)) := by
  obtain ⟨m, -, h1, h2, h3, h4, -⟩ := H.cwd
  obtain ⟨v, r, p, -⟩ := resetPrompt_run cfg.texts (u := u) i hs h2 h3 h4 H.sized hin
  rw [← h1] at r
  exact ⟨v, r, p.waiting H⟩

theorem done_reset {E : Env} {W : World} {u : Ush} (cfg : Config E) (H : Holds E W u) (hin : 0 < E.inSize) (i : List UInt8)
    (hs : u.state = .reset) : Done E W u i (outs (crlf ++ W.prompt E)) := by
  obtain ⟨m, -, h1, h2, h3, h4, -⟩ := H.cwd
  obtain ⟨v, r, p, -⟩ := reset_run cfg.texts (u := u) i hs h2 h3 h4 H.sized hin
  rw [← h1] at r
  exact ⟨v, r, p.waiting H⟩

/-- A step that logs `l` and hands over the text `s`, and the delivery of the text. -/
theorem Run.say' {E : Env} {u u' : Ush} {p : Ptr} {s : Str} {next : St} {l : List Event} (i : List UInt8) (hc : u.current.isSome = true)
    (h1 : u.state ≠ .readChar) (h2 : u.state ≠ .writeChar) (h : innerStep E u = writePointer u' p next)
    (hp : p ≠ .null) (hs : ptrStr u' p = .ok s) (hr : Readable u' p s) (hl : u'.log = u.log ++ l) (hc' : u'.current.isSome = true) :
    Run E u i (said u' p s next) i (l ++ outs s) := by
  rw [writePointer_of next hp hs] at h
  exact ⟨(Steps.inner i hc h1 h2 h).trans (Steps.say i u' p s next hc' hr), by simp [hl]⟩

/-- A step that prints a text and then a prompt. -/
theorem done_say {E : Env} {W : World} {u u' : Ush} (cfg : Config E) {p : Ptr} {s : Str} {l : List Event} (i : List UInt8)
    (hc : u.current.isSome = true) (hin : 0 < E.inSize)
    (h1 : u.state ≠ .readChar) (h2 : u.state ≠ .writeChar) (h : innerStep E u = writePointer u' p .resetPrompt)
    (hp : p ≠ .null) (hs : ptrStr u' p = .ok s) (hr : Readable u' p s) (hl : u'.log = u.log ++ l) (H : Holds E W u') :
    Done E W u i (l ++ outs (s ++ W.prompt E)) := by
  have r := Run.say' i hc h1 h2 h hp hs hr hl H.current
  obtain ⟨w, r2, h3⟩ := Done.after r (done_resetPrompt cfg (W := W) (u := said u' p s .resetPrompt)
    ⟨⟨H.sized.inLen, H.sized.outLen⟩, H.rep.same ⟨rfl, rfl, rfl, rfl⟩, H.ok⟩ hin i rfl)
  exact ⟨w, r2.cast (by simp [outs]), h3⟩

/-- A step that prints a text, a new line and then a prompt. -/
theorem done_sayLn {E : Env} {W : World} {u u' : Ush} (cfg : Config E) {p : Ptr} {s : Str} {l : List Event} (i : List UInt8)
    (hc : u.current.isSome = true) (hin : 0 < E.inSize)
    (h1 : u.state ≠ .readChar) (h2 : u.state ≠ .writeChar) (h : innerStep E u = writePointer u' p .reset)
    (hp : p ≠ .null) (hs : ptrStr u' p = .ok s) (hr : Readable u' p s) (hl : u'.log = u.log ++ l) (H : Holds E W u') :
    Done E W u i (l ++ outs (s ++ crlf ++ W.prompt E)) := by
  have r := Run.say' i hc h1 h2 h hp hs hr hl H.current
  obtain ⟨w, r2, h3⟩ := Done.after r (done_reset cfg (W := W) (u := said u' p s .reset)
    ⟨⟨H.sized.inLen, H.sized.outLen⟩, H.rep.same ⟨rfl, rfl, rfl, rfl⟩, H.ok⟩ hin i rfl)
  exact ⟨w, r2.cast (by simp [outs]), h3⟩

theorem done_status {E : Env} {W : World} {u u' : Ush} (cfg : Config E) (s : Status) {l : List Event} (i : List UInt8)
    (hc : u.current.isSome = true) (hin : 0 < E.inSize)
    (h1 : u.state ≠ .readChar) (h2 : u.state ≠ .writeChar) (h : innerStep E u = printStatus E u' s)
    (hl : u'.log = u.log ++ l) (H : Holds E W u') : Done E W u i (l ++ outs (statusString E.tr s ++ crlf ++ W.prompt E)) :=
  done_sayLn cfg i hc hin h1 h2 h (by simp) (ptrStr_str _ _ (cfg.texts.status s)) (Readable.str _ _) hl H

/-- A step that only logs `l` and leads to the prompt. -/
theorem done_quiet {E : Env} {W : World} {u u' : Ush} (cfg : Config E) {l : List Event} (i : List UInt8)
    (hc : u.current.isSome = true) (hin : 0 < E.inSize) (h1 : u.state ≠ .readChar) (h2 : u.state ≠ .writeChar)
    (h : innerStep E u = .ok u') (hs : u'.state = .resetPrompt) (hl : u'.log = u.log ++ l) (H : Holds E W u') :
    Done E W u i (l ++ outs (W.prompt E)) :=
  Done.after (Run.inner i hc h1 h2 h hl) (done_resetPrompt cfg H hin i hs)

/-! ## Enter -/

/-- The state in which a command is about to be looked up: the words of the line are in the input buffer, the echo of Enter
has been delivered from the output buffer. -/
structure Parsed (E : Env) (W : World) (u : Ush) (ws : List Str) (nl : Str) : Prop extends Holds E W u where
  args : Args u ws
  state : u.state = .resetPrompt
  echoed : u.writeBuf = .outBuf ∧ u.writePos = nl.length ∧ u.writeSize = nl.length ∧ ∃ t, u.outBuf = nl ++ cNul :: t

theorem enter_parse {E : Env} {W : World} {u : Ush} {e : Editor} (cfg : Config E) (H : Waiting E W u e) (c : UInt8) (i : List UInt8)
    (hesc : e.esc = .none) (hen : c = cLf ∨ c = cCr) (hin : 2 ≤ E.inSize) :
    ∃ w w', Run E u (c :: i) w i (.inp c :: outs (enterEcho c)) ∧ w.state ≠ .readChar ∧ w.state ≠ .writeChar ∧
      w.current.isSome = true ∧ innerStep E w = parseFinish E w' ∧ w'.log = w.log ∧ Parsed E W w' (words (sent E.inSize e.line)) (enterEcho c) := by
  obtain ⟨v, rest, r1, hs, hb, f1, z1, ech⟩ := enter_run c i H.shows H.sized H.current cfg.outSize hesc hen hin
  obtain ⟨w, buf, ip, op, ac, ef, s1, s2, s3, s4, s5, s6, s7, s8⟩ := parse_run E v (by rw [f1.current]; exact H.current) hs i (sent E.inSize e.line) c
    rest hen (fun h => (sent_mem h).elim (by decide) H.clean.1) (fun h => (sent_mem h).elim (by decide) H.clean.2) hb
  refine ⟨w, _, ⟨r1.steps.trans s1, by rw [s5, r1.log]⟩, s2, s3, by rw [s4, f1.current]; exact H.current, s6, s5.symm, ?_⟩
  exact { sized := ⟨s7.trans z1.inLen, z1.outLen⟩, rep := H.rep.same (f1.trans ⟨rfl, rfl, rfl, rfl⟩), ok := H.ok, args := s8, state := rfl, echoed := ech }

/-- What a word can be used for: it has no NUL and is short enough to be resolved. -/
theorem Parsed.arg {E : Env} {W : World} {u : Ush} {ws : List Str} {nl : Str} (P : Parsed E W u ws nl) {w : Str} (hw : w ∈ ws) :
    cNul ∉ w ∧ w.length < E.inSize := by
  refine ⟨P.args.nul w hw, ?_⟩
  obtain ⟨t, ht⟩ := P.args.buf
  have hl := P.sized.inLen
  rw [ht] at hl
  have : w.length < (packed ws).length := by
    clear ht hl P
    induction ws with
    | nil => cases hw
    | cons x ws ih =>
      rcases List.mem_cons.mp hw with rfl | hw
      · simp [packed]
      · have := ih hw; simp [packed] at this ⊢; omega
  simp at hl; omega

/-- A text for which there is room resolves. -/
theorem Holds.abs {E : Env} {W : World} {u : Ush} (H : Holds E W u) {a : Str} (hn : cNul ∉ a) (hl : W.Room E a) :
    getAbsolutePath E u a = .ok (resolveText W.path a) ∧ (resolveText W.path a).length < E.pathMax ∧
      (resolveText W.path a).head? = some cSlash := by
  obtain ⟨m, h0, h1, -, -, h4, -⟩ := H.cwd
  have C := H.rep.cwd m h0
  unfold World.Room at hl
  rw [h1] at hl ⊢
  have e1 := getAbsolutePath_resolve H.rep.tree.pathMax C.path h4 a hn C.fits hl
  obtain ⟨r, e2, e3, -, e5⟩ := getAbsolutePath_any H.rep.tree.pathMax C.path a C.fits hl
    (render_nul _ (fun c hc => (h4 c hc).2.2)) (render_head _) hn
  rw [e1] at e2
  cases e2
  exact ⟨e1, e5, e3⟩

theorem find_mem_names {l : List FileDesc} {a : Str} (h : a ∈ l.map (·.name)) : ∃ f, l.find? (fun f => f.name == a) = some f := by
  rw [← Option.isSome_iff_exists, List.find?_isSome]
  obtain ⟨f, hf, rfl⟩ := List.mem_map.mp h
  exact ⟨f, hf, by simp⟩

/-- File lookup. -/
theorem Holds.find {E : Env} {W : World} {u : Ush} (H : Holds E W u) {a : Str} (hn : cNul ∉ a) (hl : W.Near E a) :
    fileFindByName E u a = .ok (W.file? a) := by
  rcases hl with hl | hl
  · obtain ⟨f, hf⟩ := find_mem_names hl
    unfold fileFindByName World.file?
    rw [vla_ok H.rep.tree.pathMax]
    simp only [M.ok_bind]
    rw [findCommand_chain u.nodes a W.groups _ _ H.rep.cmds.chain H.rep.cmds.files H.rep.cmds.length, hf]
    rfl
  · obtain ⟨m, h0, h1, -⟩ := H.cwd
    obtain ⟨e1, -, -⟩ := H.abs hn hl
    unfold World.Room at hl
    rw [h1] at hl
    obtain ⟨abs, e2, e3⟩ := fileFindByName_sim H.rep.tree H.rep.cmds H.ok.names (H.rep.cwd m h0) a hn hl
    rw [e1] at e2
    cases e2
    exact e3

/-- Directory lookup. -/
theorem Holds.dir {E : Env} {W : World} {u : Ush} (H : Holds E W u) {a : Str} (hn : cNul ∉ a) (hl : W.Room E a) :
    getByPath E u (resolveText W.path a) = .ok ((W.dir? a).map Mount.id) := by
  obtain ⟨e1, e2, e3⟩ := H.abs hn hl
  exact getByPath_eq H.rep.tree _ e2 (by intro h; rw [h] at e3; cases e3)

theorem parseFinish_empty {E : Env} {W : World} {u : Ush} {nl : Str} (P : Parsed E W u [] nl) : parseFinish E u = .ok u := by
  unfold parseFinish
  rw [P.args.getArgs]
  rfl

/-- Enter with the line `e.line`, in any state of the shell that represents `W`: the shell logs `l` and shows the prompt
again, in the world `W'`. -/
def Answers (E : Env) (W : World) (argv : List Str) (l : List Event) (W' : World) : Prop :=
  ∀ (u : Ush) (e : Editor) (c : UInt8) (i : List UInt8), Waiting E W u e → e.esc = .none → (c = cLf ∨ c = cCr) →
    2 ≤ E.inSize → words (sent E.inSize e.line) = argv →
    ∃ v, Run E u (c :: i) v i (.inp c :: outs (enterEcho c) ++ l) ∧ Waiting E W' v {}

/-- How to show `Answers`. -/
theorem answers_of {E : Env} {W W' : World} {argv : List Str} {l : List Event} (cfg : Config E)
    (h : ∀ (w w' : Ush) (nl : Str) (i : List UInt8), w.state ≠ .readChar → w.state ≠ .writeChar → w.current.isSome = true →
      innerStep E w = parseFinish E w' → w'.log = w.log → Parsed E W w' argv nl → 0 < E.inSize → Done E W' w i l) :
    Answers E W argv l W' := by
  intro u e c i H hesc hen hin hw
  obtain ⟨w, w', r, s1, s2, s3, s4, s5, P⟩ := enter_parse cfg H c i hesc hen hin
  rw [hw] at P
  exact Done.after r (h w w' _ i s1 s2 s3 s4 s5 P (by omega))

end Ush
