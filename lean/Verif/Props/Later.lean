import Verif.Proof.Later
import Verif.Props.Samples
/-!
# Properties of commands that answer later

The vocabulary is that of `Verif/Props/Builtin.lean`; `Later` and `SaysThenStarts` are in `Verif/Spec/Later.lean`.
-/
namespace Ush.Props
open Spec

variable (E : Env) (cfg : Config E) (W : World) (u : Ush) (e : Editor) (c : UInt8) (T : Talk) (rs : List Status)
  (name : Str) (as : List Str) (f : FileDesc) (id : Nat) (cs : List Call) (g : FileDesc) (T2 : Talk) (rs2 : List Status)

/-! ### A shell with such commands, for the examples -/

def lateAct : Option Event → List Api
  | some (.proc _) => [.mount (render [b!"new"]) 5 []]
  | some (.ret _) => [.printf (.text b!"late")]
  | _ => []

/-- `run` starts the process 3, which does nothing when it is called first, then mounts a directory, then prints; `say` starts the
process 4, which never does anything; with an argument it names a descriptor without process function. -/
def lateE : Env :=
  { sE1 with
    userExec := fun id argv _ =>
      if id = 1 then [.printf (.text b!"..."), .processStart { name := b!"run", process := some (.user 3) }]
      else [.print (.str b!"lost"), .processStart { name := b!"say", process := if argv.length = 1 then some (.user 4) else none }]
    userProc := fun id u => if id = 4 then [] else lateAct u.log.getLast? }

/-- What the process 3 does depends on the last event. -/
theorem late_says {l : List Event} {x : Event} {cs : List Call} (h : l.getLast? = some x) (hx : lateAct (some x) = cs.flatMap Call.apis) :
    Says l (lateE.userProc 3) cs := by
  intro v hv
  show lateAct v.log.getLast? = _
  rw [hv, h, hx]

theorem lateConfig : Config lateE :=
  ⟨by decide, ⟨by decide, by decide, by decide, by decide, by decide, statusString_nul _ (by decide)⟩⟩

theorem lateEntered (cs : Str) (hcs : ∀ c ∈ cs, isText c = true ∧ isErase c = false) (hl : cs.length < 31) (argv : List Str)
    (hw : words cs = argv) (hn : ∀ name ∈ argv.head?, sW.Near lateE name) : ∃ u, Entered lateE sW u ⟨cs, .none⟩ cLf argv (Talk.start sW cLf) [] := by
  have ok : sW.Ok lateE := by decide
  obtain ⟨u, H⟩ := boot_waiting (E := lateE) ⟨by decide, by decide, by decide, by decide, by decide⟩ lateConfig sHist (by decide) ok
  have hin : lateE.inSize = 32 := rfl
  obtain ⟨v, H⟩ := typed lateConfig H cs hcs (by omega)
  exact ⟨v, { waiting := H, esc := rfl, enter := Or.inl rfl, inSize := by rw [hin]; omega, words := (congrArg words (sent_fit (by simp [hin]; omega))).trans hw, hook := ⟨[], rfl, trivial, rfl⟩, ok := ok, near := hn }⟩

include cfg

/-- The process function is called by every service call until it prints; what it prints is shown, then the prompt.  No key
typed meanwhile is read. -/
theorem C64_answer (h : Entered E W u e c (name :: as) T rs) (hf : T.world.file? name = some f) (hx : f.exec = some (.user id))
    (hd : SaysThenStarts (atExec E u c (name :: as) rs (.user id)) (E.userExec id (name :: as)) cs g) (hv : T.ValidRun E cs)
    (hT : T.run E cs = (T2, rs2)) (ok : T2.world.Ok E) (p : Nat) (hp : g.process = some (.user p)) (ev : List Event) (T3 : Talk)
    (hl : Later E p (atExec E u c (name :: as) rs (.user id) ++ rs2.map .ret) T2 ev T3) :
    Replies E u c (name :: as) rs (.exec (.user id) (name :: as) :: (rs2.map .ret ++ ev)) T3.world := by
  refine h.reply cfg hf hx ?_
  intro w v l0 i C hL
  obtain ⟨x, r, q, s, pf⟩ := C.starts cfg (by rw [hL]; exact hd) hv i
  rw [hT] at r q
  have hlog : x.log = atExec E u c (name :: as) rs (.user id) ++ rs2.map .ret := by
    rw [r.log, ← hL, C.log]; simp
  obtain ⟨y, r2, hy⟩ := Done.after r (later_done cfg C.inSize hp i hl hlog ok q s pf)
  exact ⟨y, r2.cast (by simp), hy⟩

/-- `run` has printed `...`; the process waits, mounts `/new` and prints `late`; both texts are shown. -/
example : ∃ u W', Replies lateE u cLf [b!"run"] [] (.exec (.user 1) [b!"run"] :: .proc 3 :: .proc 3 :: .ret .ok :: .proc 3 ::
    outs (b!"...late" ++ W'.prompt lateE)) W' ∧ (W'.tree.find [b!"new"]).isSome = true := by
  obtain ⟨u, H⟩ := lateEntered b!"run" (by decide) (by decide) [b!"run"] (by decide) (by decide)
  refine ⟨u, _, C64_answer lateE lateConfig _ _ _ _ _ _ _ _ _ _ [.printf b!"..."] _ _ _ H rfl rfl (fun _ _ => rfl) (by decide) rfl (by decide) 3 rfl _ _
    (.wait (cs := []) (late_says (x := .exec (.user 1) [b!"run"]) (by show ((_ ++ [_]) ++ []).getLast? = _; simp; rfl) rfl) (by decide) (by decide) (by decide)
      (.wait (cs := [.fs (.mount [b!"new"] 5 [])]) (late_says (x := .proc 3) (by show ((_ ++ []) ++ [_]).getLast? = _; simp) rfl) (by decide) (by decide) (by decide)
        (.answer (cs := [.printf b!"late"]) (late_says (x := .ret .ok) (by show ((_ ++ [_]) ++ [_, _]).getLast? = _; simp; decide) rfl) (by decide) (by decide) (by decide)))), by decide⟩

/-- A descriptor without process function: only a new line and the prompt are printed, whatever the callback has printed. -/
theorem C64_none (h : Entered E W u e c (name :: as) T rs) (hf : T.world.file? name = some f) (hx : f.exec = some (.user id))
    (hd : SaysThenStarts (atExec E u c (name :: as) rs (.user id)) (E.userExec id (name :: as)) cs g) (hv : T.ValidRun E cs)
    (hT : T.run E cs = (T2, rs2)) (ok : T2.world.Ok E) (hp : g.process = none) :
    Replies E u c (name :: as) rs (.exec (.user id) (name :: as) :: (rs2.map .ret ++ outs (crlf ++ T2.world.prompt E))) T2.world := by
  refine h.reply cfg hf hx ?_
  intro w v l0 i C hL
  obtain ⟨x, r, q, s, pf⟩ := C.starts cfg (by rw [hL]; exact hd) hv i
  rw [hT] at r q
  have hi : isProc x.state = true := by rw [s]; rfl
  have H := q.holds ok
  have r1 := Run.inner (E := E) i H.current (isProc.read hi) (isProc.write hi) (l := [])
    (by rw [isProc.inner hi, processCall_none pf hp]) (by simp)
  obtain ⟨y, r2, hy⟩ := Done.after (r.trans r1) (done_reset (u := { x with state := .reset }) cfg (H.same ⟨rfl, rfl, rfl, rfl⟩ ⟨H.sized.inLen, H.sized.outLen⟩) C.inSize i rfl)
  exact ⟨y, r2.cast (by simp), hy⟩

/-- The text `lost` is not shown. -/
example : ∃ u, Replies lateE u cLf [b!"say", b!"1"] [] (.exec (.user 2) [b!"say", b!"1"] :: outs (crlf ++ sW.prompt lateE)) sW := by
  obtain ⟨u, H⟩ := lateEntered b!"say 1" (by decide) (by decide) [b!"say", b!"1"] (by decide) (by decide)
  exact ⟨u, C64_none lateE lateConfig _ _ _ _ _ _ _ _ _ _ [.print b!"lost"] _ _ _ H rfl rfl (fun _ _ => rfl) (by decide) rfl (by decide) rfl⟩

/-- As long as the process function prints nothing, every service call, with whatever input and output, calls it exactly once and
reads nothing; what it mounts or unmounts takes effect. -/
theorem C64_each (h : Entered E W u e c (name :: as) T rs) (hf : T.world.file? name = some f) (hx : f.exec = some (.user id))
    (hd : SaysThenStarts (atExec E u c (name :: as) rs (.user id)) (E.userExec id (name :: as)) cs g) (hv : T.ValidRun E cs)
    (hT : T.run E cs = (T2, rs2)) (ok : T2.world.Ok E) (p : Nat) (hp : g.process = some (.user p)) (inp : List UInt8) :
    ∃ x, Steps E u (c :: inp) x inp ∧ x.log = atExec E u c (name :: as) rs (.user id) ++ rs2.map .ret ∧
      ∀ (n : Nat) (ev : List Event) (T3 : Talk), Silent E p n x.log T2 ev T3 → ∀ ss : List Slot, ss.length = n →
        ∃ y, drive E x inp ss = .ok (y, inp) ∧ y.log = x.log ++ ev := by
  obtain ⟨ds, hh, hv1, hr⟩ := h.hook
  obtain ⟨w, v, r, s1, s2, s3, T1, hl, hs⟩ := enter_hook cfg h.waiting c inp h.esc h.enter h.inSize h.words hh hv1 (by rw [hr]; exact h.ok) (by rw [hr]; exact h.near name rfl)
  rw [hr] at hs T1 hl
  simp only [hf, hx] at hs
  have C : Called E T w v f (.user id) (name :: as) (hookEvents E (name :: as) ++ rs.map .ret) :=
    ⟨s1, s2, s3, hs, by rw [hl, List.append_assoc], T1.talks, T1.args, h.ok, by have := h.inSize; omega⟩
  have hL : v.log ++ [.exec (.user id) (name :: as)] = atExec E u c (name :: as) rs (.user id) := by rw [hl, r.log]; rfl
  obtain ⟨x, r2, q, s, pf⟩ := C.starts cfg (by rw [hL]; exact hd) hv inp
  rw [hT] at r2 q
  have hlog : x.log = atExec E u c (name :: as) rs (.user id) ++ rs2.map .ret := by
    rw [r2.log, ← hL, C.log]; simp
  exact ⟨x, (r.trans r2).steps, hlog, fun n ev T3 hS ss hss => silent_drive hp inp hS rfl ok q s pf ss hss⟩

/-- Two calls of the process of `run`, whatever the input and the output do. -/
example : ∃ u x, Steps lateE u [cLf, cEtx] x [cEtx] ∧ ∀ s1 s2 : Slot, ∃ y, drive lateE x [cEtx] [s1, s2] = .ok (y, [cEtx]) ∧
    y.log = x.log ++ [.proc 3, .proc 3, .ret .ok] := by
  obtain ⟨u, H⟩ := lateEntered b!"run" (by decide) (by decide) [b!"run"] (by decide) (by decide)
  obtain ⟨x, h1, h2, h3⟩ := C64_each lateE lateConfig _ _ _ _ _ _ _ _ _ _ [.printf b!"..."] _ _ _ H rfl rfl (fun _ _ => rfl) (by decide) rfl (by decide) 3 rfl [cEtx]
  refine ⟨u, x, h1, fun s1 s2 => h3 2 _ _ (.one (cs := []) (late_says (x := .exec (.user 1) [b!"run"]) ?_ rfl) (by decide) (by decide) (by decide)
      (.one (cs := [.fs (.mount [b!"new"] 5 [])]) (late_says (x := .proc 3) ?_ rfl) (by decide) (by decide) (by decide) .none)) [s1, s2] rfl⟩
  · rw [h2]; show ((_ ++ [_]) ++ []).getLast? = _; simp; rfl
  · show (_ ++ [_]).getLast? = _; simp

/-- A process function that never does anything: the shell gets to a state in which every further service call, with
whatever input (also Ctrl+C) and output, calls the function once, reads nothing and prints nothing. -/
theorem C64_deaf (h : Entered E W u e c (name :: as) T rs) (hf : T.world.file? name = some f) (hx : f.exec = some (.user id))
    (hd : SaysThenStarts (atExec E u c (name :: as) rs (.user id)) (E.userExec id (name :: as)) cs g) (hv : T.ValidRun E cs)
    (hT : T.run E cs = (T2, rs2)) (ok : T2.world.Ok E) (p : Nat) (hp : g.process = some (.user p))
    (hq : ∀ v : Ush, (∃ n, v.log = atExec E u c (name :: as) rs (.user id) ++ rs2.map .ret ++ List.replicate n (.proc p)) → E.userProc p v = [])
    (inp : List UInt8) :
    ∃ x, Steps E u (c :: inp) x inp ∧ x.log = atExec E u c (name :: as) rs (.user id) ++ rs2.map .ret ∧
      ∀ ss : List Slot, ∃ y, drive E x inp ss = .ok (y, inp) ∧ y.log = x.log ++ List.replicate ss.length (.proc p) := by
  obtain ⟨ds, hh, hv1, hr⟩ := h.hook
  obtain ⟨w, v, r, s1, s2, s3, T1, hl, hs⟩ := enter_hook cfg h.waiting c inp h.esc h.enter h.inSize h.words hh hv1 (by rw [hr]; exact h.ok) (by rw [hr]; exact h.near name rfl)
  rw [hr] at hs T1 hl
  simp only [hf, hx] at hs
  have C : Called E T w v f (.user id) (name :: as) (hookEvents E (name :: as) ++ rs.map .ret) :=
    ⟨s1, s2, s3, hs, by rw [hl, List.append_assoc], T1.talks, T1.args, h.ok, by have := h.inSize; omega⟩
  have hL : v.log ++ [.exec (.user id) (name :: as)] = atExec E u c (name :: as) rs (.user id) := by rw [hl, r.log]; rfl
  obtain ⟨x, r2, q, s, pf⟩ := C.starts cfg (by rw [hL]; exact hd) hv inp
  rw [hT] at r2 q
  have hlog : x.log = atExec E u c (name :: as) rs (.user id) ++ rs2.map .ret := by
    rw [r2.log, ← hL, C.log]; simp
  refine ⟨x, (r.trans r2).steps, hlog, fun ss => ?_⟩
  obtain ⟨y, h1, h2, -⟩ := idle_drive hp inp ss x (q.holds ok).current s pf (by rw [hlog]; exact hq)
  exact ⟨y, h1, h2⟩

/-- Ctrl+C and Enter are not read, in however many service calls. -/
example : ∃ u x, Steps lateE u [cLf, cEtx, cLf] x [cEtx, cLf] ∧
    ∀ ss : List Slot, ∃ y, drive lateE x [cEtx, cLf] ss = .ok (y, [cEtx, cLf]) ∧ y.log = x.log ++ List.replicate ss.length (.proc 4) := by
  obtain ⟨u, H⟩ := lateEntered b!"say" (by decide) (by decide) [b!"say"] (by decide) (by decide)
  obtain ⟨x, h1, -, h2⟩ := C64_deaf lateE lateConfig _ _ _ _ _ _ _ _ _ _ [.print b!"lost"] _ _ _ H rfl rfl (fun _ _ => rfl) (by decide) rfl (by decide) 4 rfl
    (fun _ _ => rfl) [cEtx, cLf]
  exact ⟨u, x, h1, h2⟩

end Ush.Props
