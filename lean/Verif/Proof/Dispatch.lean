import Verif.Proof.Calls
/-!
# Dispatch of a command line with an arbitrary hook and an application command
-/
namespace Ush
open Spec

theorem enterEcho_nul {c : UInt8} (h : c = cLf ∨ c = cCr) : cNul ∉ enterEcho c := by
  rcases h with rfl | rfl <;> decide

theorem Talks.emit {E : Env} {T : Talk} {u : Ush} (H : Talks E T u) (ev : Event) : Talks E T (u.emit ev) :=
  { sized := ⟨H.sized.inLen, H.sized.outLen⟩, rep := H.rep.same ⟨rfl, rfl, rfl, rfl⟩, nul := H.nul, buf := H.buf, pend := H.pend }

theorem Talks.holds {E : Env} {T : Talk} {u : Ush} (H : Talks E T u) (ok : T.world.Ok E) : Holds E T.world u := ⟨H.sized, H.rep, ok⟩

theorem Args.same {u v : Ush} {ws : List Str} (H : Args u ws) (h1 : v.inBuf = u.inBuf) (h2 : v.argsCount = u.argsCount) : Args v ws :=
  ⟨by rw [h2]; exact H.count, H.nul, by rw [h1]; exact H.buf⟩

/-- The hook. -/
theorem callHook_sim {E : Env} (cfg : Config E) {T : Talk} {u : Ush} {argv : List Str} {cs : List Call} (H : Talks E T u)
    (hh : HookSays E u.log argv cs) (hv : T.ValidRun E cs) :
    ∃ v, callHook E u argv = .ok v ∧ Talks E (T.run E cs).1 v ∧
      v.log = u.log ++ hookEvents E argv ++ (T.run E cs).2.map .ret ∧ v.inBuf = u.inBuf ∧ v.argsCount = u.argsCount := by
  unfold callHook hookEvents
  unfold HookSays at hh
  cases h : E.hook with
  | none =>
    rw [h] at hh
    subst hh
    exact ⟨u, rfl, H, by simp [Talk.run], rfl, rfl⟩
  | some f =>
    rw [h] at hh
    simp only
    rw [hh u rfl]
    obtain ⟨v, h1, h2, h3⟩ := calls_sim cfg cs (H.emit (.hook argv)) hv
    have F := runApis_frame _ h1
    refine ⟨v, h1, h2, by simpa [Ush.emit] using h3, ?_, ?_⟩
    · rw [F]; rfl
    · rw [F]; rfl

/-- The state after the hook. -/
structure Hooked (E : Env) (T : Talk) (u : Ush) (argv : List Str) : Prop where
  talks : Talks E T u
  args : Args u argv

/-- Enter, the parser and the hook; the service call ends with the lookup of the command. -/
theorem enter_hook {E : Env} {W : World} {u : Ush} {e : Editor} (cfg : Config E) (H : Waiting E W u e) (c : UInt8) (i : List UInt8)
    (hesc : e.esc = .none) (hen : c = cLf ∨ c = cCr) (hin : 2 ≤ E.inSize)
    {name : Str} {as : List Str} (hw : words (sent E.inSize e.line) = name :: as) {cs : List Call}
    (hh : HookSays E (u.log ++ .inp c :: outs (enterEcho c)) (name :: as) cs)
    (hv : (Talk.start W c).ValidRun E cs) (ok : ((Talk.start W c).run E cs).1.world.Ok E)
    (near : ((Talk.start W c).run E cs).1.world.Near E name) :
    ∃ w v, Run E u (c :: i) w i (.inp c :: outs (enterEcho c)) ∧ w.state ≠ .readChar ∧ w.state ≠ .writeChar ∧
      w.current.isSome = true ∧ Hooked E ((Talk.start W c).run E cs).1 v (name :: as) ∧
      v.log = w.log ++ hookEvents E (name :: as) ++ ((Talk.start W c).run E cs).2.map .ret ∧
      innerStep E w = (match ((Talk.start W c).run E cs).1.world.file? name with
        | none => printStatus E v .cmdSyntaxError
        | some file =>
          match file.exec with
          | none => printStatus E v .fileNotExecutable
          | some cb => callExec E v file cb (offs 0 (name :: as)) (name :: as)) := by
  obtain ⟨w, w', r, s1, s2, s3, s4, s5, P⟩ := enter_parse cfg H c i hesc hen hin
  rw [hw] at P
  have Tk : Talks E (Talk.start W c) w' := P.talks (enterEcho_nul hen)
  have hlog : w'.log = u.log ++ .inp c :: outs (enterEcho c) := by rw [s5, r.log]
  obtain ⟨v, h1, h2, h3, h4, h5⟩ := callHook_sim cfg (argv := name :: as) (cs := cs) Tk (by rw [hlog]; exact hh) hv
  have hargs := P.args.same h4 h5
  refine ⟨w, v, r, s1, s2, s3, ⟨h2, hargs⟩, by rw [h3, s5], ?_⟩
  rw [s4]
  unfold parseFinish
  rw [P.args.getArgs]
  simp only [M.ok_bind]
  rw [if_neg (by simp [offs]), P.args.argStrs]
  simp only [M.ok_bind]
  rw [h1]
  simp only [M.ok_bind]
  obtain ⟨o, g1, g2, -⟩ := hargs.at (i := 0) (w := name) rfl
  rw [g1]
  simp only [M.ok_bind]
  rw [g2]
  simp only [M.ok_bind]
  rw [(h2.holds ok).find (P.args.nul name (by simp)) near]
  simp only [M.ok_bind]
  cases ((Talk.start W c).run E cs).1.world.file? name with
  | none => rfl
  | some f => cases hf : f.exec <;> simp only [hf]

/-- A step that makes calls and lets the shell show the prompt. -/
theorem done_calls {E : Env} (cfg : Config E) {T : Talk} {w v : Ush} {l : List Event} {cs : List Call} (i : List UInt8) (hin : 0 < E.inSize)
    (s1 : w.state ≠ .readChar) (s2 : w.state ≠ .writeChar) (s3 : w.current.isSome = true) (H : Talks E T v) (hl : v.log = w.log ++ l)
    (hs : innerStep E w = runApis E v (cs.flatMap Call.apis)) (hv : T.ValidRun E cs) (ok : (T.run E cs).1.world.Ok E) :
    Done E (T.run E cs).1.world w i (l ++ (T.run E cs).2.map .ret ++ outs ((T.run E cs).1.output ++ (T.run E cs).1.world.prompt E)) := by
  obtain ⟨x, h1, h2, h3⟩ := calls_sim cfg cs H hv
  rw [h1] at hs
  have r := Run.inner i s3 s1 s2 hs (l := l ++ (T.run E cs).2.map .ret) (by rw [h3, hl, List.append_assoc])
  exact Done.after r (talks_done cfg h2 ok hin i)

end Ush
