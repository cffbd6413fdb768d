import Verif.Proof.Host
import Verif.Proof.Start
import Verif.Props.Terminal
/-!
# The specified terminal and the hostname
-/
namespace Ush.Props
open Spec

section
variable {E : Env} {A : App} {W : World} {u : Ush} {h : Str}

theorem run_named (E : Env) (h : Str) : ∀ (os : List FsOp) (u : Ush), run (E.named h) u (os.map (fun o => Op.api o.api)) = run E u (os.map (fun o => Op.api o.api)) := by
  intro os
  induction os with
  | nil => intro u; rfl
  | cons o os ih =>
    intro u
    simp only [List.map_cons, run, step, runApi_named, ih]

theorem steps_named (E : Env) (h : Str) (os : List FsOp) (u : Ush) : run (E.named h) u (steps os) = run E u (steps os) := by
  simp only [steps, run, run_named]
  rfl

theorem validRun_named (E : Env) (h : Str) : ∀ (os : List FsOp) (W : World), W.ValidRun (E.named h) os = W.ValidRun E os := by
  intro os
  induction os with
  | nil => intro W; rfl
  | cons o os ih =>
    intro W
    simp only [World.ValidRun, ih]
    rfl

theorem Config.named (cfg : Config E) (hh : cNul ∉ h) : Config (E.named h) :=
  ⟨cfg.outSize, ⟨hh, cfg.texts.styleReset, cfg.texts.green, cfg.texts.yellow, cfg.texts.magenta, cfg.texts.status⟩⟩

theorem World.Ok.named (H : W.Ok E) (h : Str) : W.Ok (E.named h) := ⟨H.cwd, H.names, H.treeTexts, H.cmdTexts⟩

theorem Shell.named {t : Term} (H : Shell E t u) (h : Str) : Shell (E.named h) t u :=
  ⟨{ sized := ⟨H.waiting.sized.inLen, H.waiting.sized.outLen⟩
     rep := ⟨⟨H.waiting.rep.tree.pathMax, H.waiting.rep.tree.good, H.waiting.rep.tree.fits, H.waiting.rep.tree.nodupPath, H.waiting.rep.tree.nodupId,
        H.waiting.rep.tree.idLt, H.waiting.rep.tree.closed, H.waiting.rep.tree.root, H.waiting.rep.tree.path, H.waiting.rep.tree.files,
        H.waiting.rep.tree.parent, H.waiting.rep.tree.kids, H.waiting.rep.tree.rootNext, H.waiting.rep.tree.free⟩,
        ⟨H.waiting.rep.cmds.nodupId, H.waiting.rep.cmds.idLt, H.waiting.rep.cmds.chain, H.waiting.rep.cmds.files, H.waiting.rep.cmds.path⟩,
        H.waiting.rep.disj, fun m hm => let C := H.waiting.rep.cwd m hm; ⟨C.cur, C.linked, C.good, C.fits, C.pathField, C.files, C.parent⟩, H.waiting.rep.apart⟩
     ok := World.Ok.named H.waiting.ok h
     shows := H.waiting.shows
     clean := H.waiting.clean }, H.log⟩

theorem Shell.unnamed {t : Term} (H : Shell (E.named h) t u) : Shell E t u := Shell.named H E.hostname

theorem Describes.named (hA : A.Describes E) (h : Str) : A.Describes (E.named h) := ⟨hA.hook, hA.exec, hA.get, hA.set⟩

theorem run_talk (cs : List Call) : ∀ T : Talk, T.run (E.named h) cs = T.run E cs := by
  induction cs with
  | nil => intro T; rfl
  | cons c cs ih =>
    intro T
    simp only [Talk.run, ih]
    rfl

theorem valid_talk (cs : List Call) : ∀ T : Talk, T.ValidRun (E.named h) cs = T.ValidRun E cs := by
  induction cs with
  | nil => intro T; rfl
  | cons c cs ih =>
    intro T
    simp only [Talk.ValidRun, ih]
    rfl

theorem ok_named (W : World) : W.Ok (E.named h) = W.Ok E := propext ⟨fun H => World.Ok.named H E.hostname, fun H => World.Ok.named H h⟩

theorem catNear_named (W : World) (as : List Str) : W.CatNear (E.named h) as = W.CatNear E as := by
  induction as with
  | nil => rfl
  | cons a as ih => simp only [World.CatNear, ih]; rfl

theorem builtinOk_named (T : Talk) (l : List Event) (f : FileDesc) (b : Builtin) (as : List Str) : builtinOk (E.named h) A T l f b as = builtinOk E A T l f b as := by
  unfold builtinOk
  simp only [run_talk, valid_talk, ok_named, catNear_named]
  rfl

theorem fileOk_named (T : Talk) (l : List Event) (f : FileDesc) (n : Str) (as : List Str) : fileOk (E.named h) A T l f n as = fileOk E A T l f n as := by
  unfold fileOk
  simp only [run_talk, valid_talk, ok_named, builtinOk_named]

theorem lineOk_named (W : World) (c : UInt8) (l : List Event) (argv : List Str) : lineOk (E.named h) A W c l argv = lineOk E A W c l argv := by
  unfold lineOk
  simp only [run_talk, valid_talk, ok_named, fileOk_named]
  rfl

theorem Ok_named (t : Term) (c : UInt8) : t.Ok (E.named h) A c = t.Ok E A c := by
  unfold Term.Ok
  simp only [lineOk_named]
  rfl

/-- Up to what is printed at the end. -/
def Alike (a b : List Event) : Prop := ∃ x s s', a = x ++ outs s ∧ b = x ++ outs s'

theorem Alike.refl (a : List Event) : Alike a a := ⟨a, [], [], by simp, by simp⟩

theorem Alike.outs (s s' : Str) : Alike (outs s) (Spec.outs s') := ⟨[], s, s', rfl, rfl⟩

theorem Alike.left {a b : List Event} (H : Alike a b) (x : List Event) : Alike (x ++ a) (x ++ b) := by
  obtain ⟨y, s, s', rfl, rfl⟩ := H
  exact ⟨x ++ y, s, s', by simp, by simp⟩

theorem Alike.host {a b : List Event} (H : Alike a b) {host : Host} (hh : host.Ok) : host a = host b := by
  obtain ⟨y, s, s', rfl, rfl⟩ := H
  have key : ∀ (s : Str) (y : List Event), host (y ++ Spec.outs s) = host y := by
    intro s
    induction s with
    | nil => intro y; simp
    | cons c s ih =>
      intro y
      rw [show y ++ Spec.outs (c :: s) = (y ++ [.out c]) ++ Spec.outs s by simp, ih, hh.quiet]
  rw [key, key]

theorem tells_alike (W : World) (s : Str) : Alike (tells (E.named h) W s).1 (tells E W s).1 := .outs _ _

theorem errs_alike (W : World) (s : Status) : Alike (errs (E.named h) W s).1 (errs E W s).1 := .outs _ _

theorem builtin_alike (T : Talk) (l : List Event) (b : Builtin) (as : List Str) :
    Alike (builtinAnswer (E.named h) A T l b as).1 (builtinAnswer E A T l b as).1 := by
  unfold builtinAnswer
  simp only [run_talk]
  repeat' split
  all_goals first
    | exact .outs _ _
    | exact Alike.left (.outs _ _) _
    | exact Alike.left (.outs _ _) [_]

theorem line_alike (W : World) (c : UInt8) (l : List Event) (argv : List Str) :
    Alike (lineAnswer (E.named h) A W c l argv).1 (lineAnswer E A W c l argv).1 := by
  unfold lineAnswer
  split
  · exact .outs _ _
  · simp only [run_talk]
    refine Alike.left ?_ _
    split
    · exact .outs _ _
    · unfold fileAnswer
      split
      · exact .outs _ _
      · simp only [run_talk]
        exact Alike.left (.outs _ _) _
      · exact Alike.left (builtin_alike _ _ _ _) _

theorem key_alike (t : Term) (c : UInt8) : Alike (t.key (E.named h) A c).log (t.key E A c).log := by
  unfold Term.key Term.add
  split
  · exact Alike.left (Alike.left (.outs (b!"^C" ++ crlf ++ t.world.prompt (E.named h)) (b!"^C" ++ crlf ++ t.world.prompt E)) [.inp c]) t.log
  · split
    · simp only [show (E.named h).autocomplete = E.autocomplete from rfl]
      split
      · exact Alike.left (Alike.left (.outs (t.world.press (E.named h) t.ed.line).2 (t.world.press E t.ed.line).2) [.inp c]) t.log
      · exact .refl _
    · split
      · exact Alike.left (Alike.left (line_alike _ _ _ _) (.inp c :: Spec.outs (enterEcho c))) t.log
      · exact .refl _

end

end Ush.Props
