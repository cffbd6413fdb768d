import Verif.Spec.Later
import Verif.Spec.Terminal
/-!
# Specification: a terminal whose commands may answer later

`Lives S E A t cs t'`: the keys `cs` lead from the terminal `t` to `t'`.  The commands in `S` start processes; all other callbacks are described by `A`.
-/
namespace Ush.Spec

/-- What a line does whose command starts a process: log and world when Enter `c` has been typed with the words `name :: as`. -/
inductive LateLine (E : Env) (A : App) (t : Term) (c : UInt8) (name : Str) (as : List Str) : List Event → World → Prop
  | mk {f : FileDesc} {id : Nat} {cs : List Call} {g : FileDesc} {T : Talk} {rs : List Status} {T2 : Talk} {rs2 : List Status} {ev : List Event} {W : World}
      (hook : (Talk.start t.world c).ValidRun E (A.hook (t.log ++ .inp c :: outs (enterEcho c)) (name :: as)))
      (run : (Talk.start t.world c).run E (A.hook (t.log ++ .inp c :: outs (enterEcho c)) (name :: as)) = (T, rs))
      (ok : T.world.Ok E) (near : T.world.Near E name) (file : T.world.file? name = some f) (exec : f.exec = some (.user id))
      (starts : SaysThenStarts (t.log ++ .inp c :: outs (enterEcho c) ++ hookEvents E (name :: as) ++ rs.map .ret ++ [.exec (.user id) (name :: as)])
        (E.userExec id (name :: as)) cs g)
      (valid : T.ValidRun E cs) (run2 : T.run E cs = (T2, rs2)) (ok2 : T2.world.Ok E)
      (proc : (∃ p T3, g.process = some (.user p) ∧ W = T3.world ∧
          Later E p (t.log ++ .inp c :: outs (enterEcho c) ++ hookEvents E (name :: as) ++ rs.map .ret ++ [.exec (.user id) (name :: as)] ++ rs2.map .ret) T2 ev T3) ∨
        (g.process = none ∧ W = T2.world ∧ ev = outs (crlf ++ T2.world.prompt E))) :
      LateLine E A t c name as (.inp c :: outs (enterEcho c) ++ hookEvents E (name :: as) ++ rs.map .ret ++ .exec (.user id) (name :: as) :: (rs2.map .ret ++ ev)) W

/-- The keys `cs` lead from `t` to `t'`. -/
inductive Lives (S : Nat → Prop) (E : Env) (A : App) : Term → List UInt8 → Term → Prop
  | done {t : Term} : Lives S E A t [] t
  | key {t : Term} {c : UInt8} {cs : List UInt8} {t' : Term} (ok : t.Ok E A c) (spares : t.Spares S E A c) (rest : Lives S E A (t.key E A c) cs t') :
      Lives S E A t (c :: cs) t'
  | late {t : Term} {c : UInt8} {cs : List UInt8} {t' : Term} {name : Str} {as : List Str} {l : List Event} {W : World} (enter : isEnter c = true)
      (esc : t.ed.esc = .none) (size : 2 ≤ E.inSize) (words : words (sent E.inSize t.ed.line) = name :: as) (line : LateLine E A t c name as l W)
      (rest : Lives S E A ⟨W, {}, t.log ++ l⟩ cs t') : Lives S E A t (c :: cs) t'

end Ush.Spec
