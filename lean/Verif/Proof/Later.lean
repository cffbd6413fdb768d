import Verif.Proof.Process
import Verif.Spec.Later
/-!
# Commands that answer later
-/
namespace Ush
open Spec

variable {E : Env} {T : Talk} {u v w : Ush} {g : FileDesc} {p : Nat}

/-- What a process starts with: as after the calls that led to `T`, except for the state of the shell. -/
def Resting (E : Env) (T : Talk) (u : Ush) : Prop := ∃ s nx, Talks E T { u with state := s, writeNext := nx }

theorem Resting.emit (H : Resting E T u) (ev : Event) : Resting E T (u.emit ev) := by
  obtain ⟨s, nx, H⟩ := H
  exact ⟨s, nx, H.emit ev⟩

theorem Resting.holds (H : Resting E T u) (ok : T.world.Ok E) : Holds E T.world u := by
  obtain ⟨s, nx, H⟩ := H
  exact (H.holds ok).same ⟨rfl, rfl, rfl, rfl⟩ ⟨H.sized.inLen, H.sized.outLen⟩

theorem quiet_fs (H : Resting E T u) (o : FsOp) (hv : T.world.Valid E o) :
    ∃ v, runApi E u o.api = .ok v ∧ Resting E { T with world := (T.world.step o).1 } v ∧ v.log = u.log ++ [.ret (T.world.step o).2] ∧
      v.state = u.state ∧ v.procFile = u.procFile := by
  obtain ⟨s, nx, H⟩ := H
  have rep : WInv E u T.world := H.rep.same ⟨rfl, rfl, rfl, rfl⟩
  obtain ⟨v, h1, h2, h3⟩ := fsStep_sim rep o hv
  have F := fsApi_frame o h1
  refine ⟨v, h1, ⟨s, nx, ?_⟩, h3, by rw [F], by rw [F]⟩
  have hb : v.outBuf = u.outBuf := by rw [F]
  refine { sized := ⟨?_, ?_⟩, rep := h2.same ⟨rfl, rfl, rfl, rfl⟩, nul := H.nul, buf := ?_, pend := ?_ }
  · show v.inBuf.length = _; rw [F]; exact H.sized.inLen
  · show v.outBuf.length = _; rw [hb]; exact H.sized.outLen
  · show ∃ t, v.outBuf = _; rw [hb]; exact H.buf
  · have hp := H.pend
    have e2 : v.writeBuf = u.writeBuf := by rw [F]
    have e3 : v.writePos = u.writePos := by rw [F]
    have e4 : v.writeSize = u.writeSize := by rw [F]
    simp only [e2, e3, e4]
    exact hp

/-- A call that prints does not depend on the state of the shell. -/
theorem speak_eq (c : Call) (hc : c.speaks = true) (s nx : St) : runApis E u c.apis = runApis E { u with state := s, writeNext := nx } c.apis := by
  cases c with
  | fs o => cases hc
  | print t => rfl
  | printNoNewline t => rfl
  | printStatus t => rfl
  | printf t =>
    simp only [Call.apis, runApis, runApi]
    congr 1
  | flush => rfl
  | «show» t =>
    simp only [Call.apis, runApis, runApi]
    cases storeStr u.outBuf 0 t <;> rfl
  | reset => rfl

theorem quiet_calls : ∀ (cs : List Call) {T : Talk} {u : Ush}, Resting E T u → (∀ c ∈ cs, c.speaks = false) → T.ValidRun E cs →
    ∃ v, runApis E u (cs.flatMap Call.apis) = .ok v ∧ Resting E (T.run E cs).1 v ∧ v.log = u.log ++ (T.run E cs).2.map .ret ∧
      v.state = u.state ∧ v.procFile = u.procFile := by
  intro cs
  induction cs with
  | nil => intro T u H _ _; exact ⟨u, rfl, H, by simp [Talk.run], rfl, rfl⟩
  | cons c cs ih =>
    intro T u H hq hv
    cases c with
    | fs o =>
      obtain ⟨v, h1, h2, h3, h4, h5⟩ := quiet_fs H o hv.1
      obtain ⟨w, k1, k2, k3, k4, k5⟩ := ih h2 (fun c hc => hq c (by simp [hc])) hv.2
      refine ⟨w, ?_, k2, ?_, k4.trans h4, k5.trans h5⟩
      · rw [List.flatMap_cons, runApis_append]
        simp only [Call.apis, runApis, h1, M.ok_bind]
        exact k1
      · rw [k3, h3]; simp [Talk.run, Talk.step]
    | _ => exact absurd (hq _ List.mem_cons_self) (by simp [Call.speaks])

theorem spoken_calls (cfg : Config E) : ∀ (cs : List Call) {T : Talk} {u : Ush}, Resting E T u → (∃ c ∈ cs, c.speaks = true) → T.ValidRun E cs →
    ∃ v, runApis E u (cs.flatMap Call.apis) = .ok v ∧ Talks E (T.run E cs).1 v ∧ v.log = u.log ++ (T.run E cs).2.map .ret := by
  intro cs
  induction cs with
  | nil => rintro T u - ⟨c, hc, -⟩ _; cases hc
  | cons c cs ih =>
    intro T u H hq hv
    cases hc : c.speaks with
    | false =>
      cases c with
      | fs o =>
        obtain ⟨v, h1, h2, h3, -, -⟩ := quiet_fs H o hv.1
        have hq' : ∃ c ∈ cs, c.speaks = true := by
          obtain ⟨d, hd, hd'⟩ := hq
          rcases List.mem_cons.mp hd with rfl | hd
          · cases hd'
          · exact ⟨d, hd, hd'⟩
        obtain ⟨w, k1, k2, k3⟩ := ih h2 hq' hv.2
        refine ⟨w, ?_, k2, ?_⟩
        · rw [List.flatMap_cons, runApis_append]
          simp only [Call.apis, runApis, h1, M.ok_bind]
          exact k1
        · rw [k3, h3]; simp [Talk.run, Talk.step]
      | _ => cases hc
    | true =>
      obtain ⟨s, nx, H⟩ := H
      obtain ⟨v, h1, h2, h3⟩ := call_sim cfg H c hv.1
      rw [← speak_eq c hc] at h1
      obtain ⟨w, k1, k2, k3⟩ := calls_sim cfg cs h2 hv.2
      refine ⟨w, ?_, k2, ?_⟩
      · rw [List.flatMap_cons, runApis_append, h1]; exact k1
      · rw [k3, h3]; simp [Talk.run]

theorem processCall_user (h : u.procFile = some g) (hp : g.process = some (.user p)) :
    processCall E u = runApis E (u.emit (.proc p)) (E.userProc p u) := by
  unfold processCall; rw [h]; simp only [hp]

theorem processCall_none (h : u.procFile = some g) (hp : g.process = none) : processCall E u = .ok { u with state := .reset } := by
  unfold processCall; rw [h]; simp only [hp]

/-- A process of the application runs to its answer. -/
theorem later_done (cfg : Config E) (hin : 0 < E.inSize) (hp : g.process = some (.user p)) (i : List UInt8) {l ev : List Event} {T T' : Talk}
    (L : Later E p l T ev T') : ∀ {u : Ush}, u.log = l → T.world.Ok E → Resting E T u → u.state = .processStart → u.procFile = some g →
    Done E T'.world u i ev := by
  induction L with
  | @wait l T cs ev T' hsay quiet valid ok rest ih =>
    intro u hl ok0 H hs hf
    have hi : isProc u.state = true := by rw [hs]; rfl
    obtain ⟨v, h1, h2, h3, h4, h5⟩ := quiet_calls cs (H.emit (.proc p)) quiet valid
    have hv : v.log = u.log ++ (.proc p :: (T.run E cs).2.map .ret) := by rw [h3]; simp [Ush.emit]
    have r := Run.inner (E := E) i (H.holds ok0).current (isProc.read hi) (isProc.write hi)
      (by rw [isProc.inner hi, processCall_user hf hp, hsay u hl, h1]) hv
    exact Done.after r (ih (by rw [hv, hl]) ok h2 (h4.trans hs) (h5.trans hf))
  | @answer l T cs hsay speaks valid ok =>
    intro u hl ok0 H hs hf
    have hi : isProc u.state = true := by rw [hs]; rfl
    obtain ⟨v, h1, h2, h3⟩ := spoken_calls cfg cs (H.emit (.proc p)) speaks valid
    have hv : v.log = u.log ++ (.proc p :: (T.run E cs).2.map .ret) := by rw [h3]; simp [Ush.emit]
    have r := Run.inner (E := E) i (H.holds ok0).current (isProc.read hi) (isProc.write hi)
      (by rw [isProc.inner hi, processCall_user hf hp, hsay u hl, h1]) hv
    exact Done.after r (talks_done cfg h2 ok hin i)

/-- The callback of a command makes calls and starts a process. -/
theorem Called.starts (cfg : Config E) {f : FileDesc} {id : Nat} {argv : List Str} {l0 : List Event} (C : Called E T w v f (.user id) argv l0) {cs : List Call}
    (hd : SaysThenStarts (v.log ++ [.exec (.user id) argv]) (E.userExec id argv) cs g) (hv : T.ValidRun E cs) (i : List UInt8) :
    ∃ x, Run E w i x i (l0 ++ .exec (.user id) argv :: (T.run E cs).2.map .ret) ∧ Resting E (T.run E cs).1 x ∧ x.state = .processStart ∧ x.procFile = some g := by
  obtain ⟨y, h1, h2, h3⟩ := calls_sim cfg cs (C.talks.emit (.exec (.user id) argv)) hv
  refine ⟨processStart y g, Run.inner i C.s3 C.s1 C.s2 ?_ ?_, ⟨y.state, y.writeNext, ?_⟩, rfl, rfl⟩
  · rw [C.step]
    show runApis E (v.emit (.exec (.user id) argv)) (E.userExec id argv (v.emit (.exec (.user id) argv))) = _
    rw [hd (v.emit (.exec (.user id) argv)) rfl, runApis_append, h1]
    rfl
  · show y.log = _
    rw [h3]
    simp [Ush.emit, C.log]
  · exact { sized := ⟨h2.sized.inLen, h2.sized.outLen⟩, rep := h2.rep.same ⟨rfl, rfl, rfl, rfl⟩, nul := h2.nul, buf := h2.buf, pend := h2.pend }

/-- One service call of a silent process function. -/
theorem silent_drive1 (hp : g.process = some (.user p)) (inp : List UInt8) (s : Slot) (hc : u.current.isSome = true) (hs : u.state = .processStart)
    (hf : u.procFile = some g) {v : Ush} (h : runApis E (u.emit (.proc p)) (E.userProc p u) = .ok v) : drive1 E u inp s = .ok (v, inp) := by
  have hi : isProc u.state = true := by rw [hs]; rfl
  unfold drive1
  rw [service_eq E _ u hc, hs]
  have : innerStep E u = .ok v := by rw [isProc.inner hi, processCall_user hf hp, h]
  simp only [this, M.ok_bind, M.pure_eq]
  rw [if_neg (by simp)]

theorem silent_drive (hp : g.process = some (.user p)) (inp : List UInt8) {n : Nat} {l ev : List Event} {T T' : Talk} (L : Silent E p n l T ev T') :
    ∀ {u : Ush}, u.log = l → T.world.Ok E → Resting E T u → u.state = .processStart → u.procFile = some g → ∀ ss : List Slot, ss.length = n →
    ∃ v, drive E u inp ss = .ok (v, inp) ∧ v.log = u.log ++ ev := by
  induction L with
  | none =>
    intro u _ _ _ _ _ ss hss
    cases ss with
    | nil => exact ⟨u, rfl, by simp⟩
    | cons s ss => cases hss
  | @one n l T cs ev T' hsay quiet valid ok rest ih =>
    intro u hl ok0 H hs hf ss hss
    cases ss with
    | nil => cases hss
    | cons s ss =>
      obtain ⟨v, h1, h2, h3, h4, h5⟩ := quiet_calls cs (H.emit (.proc p)) quiet valid
      have hv : v.log = u.log ++ (.proc p :: (T.run E cs).2.map .ret) := by rw [h3]; simp [Ush.emit]
      obtain ⟨w, k1, k2⟩ := ih (by rw [hv, hl]) ok h2 (h4.trans hs) (h5.trans hf) ss (by simpa using hss)
      refine ⟨w, ?_, by rw [k2, hv]; simp⟩
      unfold drive
      rw [silent_drive1 hp inp s (H.holds ok0).current hs hf (by rw [hsay u hl]; exact h1)]
      exact k1

/-- While its function does nothing, the process goes on; no input is read. -/
theorem idle_drive (hp : g.process = some (.user p)) (inp : List UInt8) : ∀ (ss : List Slot) (u : Ush), u.current.isSome = true → u.state = .processStart →
    u.procFile = some g → (∀ v : Ush, (∃ n, v.log = u.log ++ List.replicate n (.proc p)) → E.userProc p v = []) →
    ∃ v, drive E u inp ss = .ok (v, inp) ∧ v.log = u.log ++ List.replicate ss.length (.proc p) ∧ v = { u with log := v.log } := by
  intro ss
  induction ss with
  | nil => intro u _ _ _ _; exact ⟨u, rfl, by simp, rfl⟩
  | cons s ss ih =>
    intro u hc hs hf hq
    obtain ⟨v, h1, h2, h3⟩ := ih (u.emit (.proc p)) hc hs hf (by
      rintro v ⟨n, hn⟩
      refine hq v ⟨n + 1, ?_⟩
      rw [hn]; simp [Ush.emit, List.replicate_succ])
    refine ⟨v, ?_, ?_, ?_⟩
    · unfold drive
      rw [silent_drive1 hp inp s hc hs hf (v := u.emit (.proc p)) (by rw [hq u ⟨0, by simp⟩]; rfl)]
      exact h1
    · rw [h2]; simp [Ush.emit, List.replicate_succ]
    · rw [h3]; rfl

end Ush
