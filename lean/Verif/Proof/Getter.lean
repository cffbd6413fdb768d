import Verif.Spec.Getter
import Verif.Proof.Sched
/-!
# Getters that make library calls: what a step does

A service call is the one of the model without calls of getters, or it is one of the two places where a getter is called.
-/
namespace Ush
open Spec

variable {E : Env}

/-- What `cat` makes of the data `d`. -/
def catGot (w : Ush) (d : List UInt8) : Ush :=
  { writePointerBin w (.data d) d.length w.state with procItem := w.procItem + 1 }

/-- What `xxd` makes of the data. -/
def xxdGot (w : Ush) (file : FileDesc) : Option (List UInt8) → Ush
  | none => processStart { w with procDataSize := 0 } file
  | some d => processStart { w with procData := some d, procDataSize := d.length } file

def catEnd (d : Option (List UInt8)) (w : Ush) : M Ush :=
  match d with
  | none => .error .uninit
  | some d => .ok (catGot w d)

theorem catServiceG_cases (u : Ush) : (∀ G, catServiceG E G u = catService E u) ∨ ∃ id, u.state = .processService ∧ catService E u = catEnd (E.userGet id u) (u.emit (.getData id)) ∧
    ∀ G, catServiceG E G u = runApis E (u.emit (.getData id)) (G id u) >>= catEnd (E.userGet id u) := by
  unfold catServiceG catService
  cases hs : u.state
  case processService =>
    simp only
    by_cases hif : u.procItem ≥ u.argsCount
    · exact .inl fun _ => by simp only [if_pos hif]
    · simp only [if_neg hif]
      cases h1 : getArgs u with
      | error x => exact .inl fun _ => rfl
      | ok argv =>
        simp only [M.ok_bind]
        cases h2 : argAt argv u.procItem with
        | error x => exact .inl fun _ => rfl
        | ok o =>
          simp only [M.ok_bind]
          cases h3 : cstrAt u.inBuf o with
          | error x => exact .inl fun _ => rfl
          | ok name =>
            simp only [M.ok_bind]
            cases h4 : fileFindByName E u name with
            | error x => exact .inl fun _ => rfl
            | ok r =>
              simp only [M.ok_bind]
              cases r with
              | none => exact .inl fun _ => rfl
              | some f =>
                simp only
                cases h5 : f.getData with
                | none => exact .inl fun _ => rfl
                | some id =>
                  refine .inr ⟨id, trivial, ?_, ?_⟩
                  · simp only [callGet]
                    cases E.userGet id u <;> rfl
                  · intro G
                    simp only [callGetG]
                    cases runApis E (u.emit (.getData id)) (G id u) with
                    | error x => rfl
                    | ok w => simp only [M.ok_bind, M.pure_eq]; cases E.userGet id u <;> rfl
  all_goals exact .inl fun _ => rfl

theorem xxdCallbackG_cases (u : Ush) (f : FileDesc) (argv : List Nat) : (∀ G, xxdCallbackG E G u f argv = xxdCallback E u f argv) ∨
    ∃ id, xxdCallback E u f argv = .ok (xxdGot (u.emit (.getData id)) f (E.userGet id u)) ∧
    ∀ G, xxdCallbackG E G u f argv = runApis E (u.emit (.getData id)) (G id u) >>= fun w => .ok (xxdGot w f (E.userGet id u)) := by
  unfold xxdCallbackG xxdCallback
  by_cases hif : argv.length ≠ 2
  · exact .inl fun _ => by simp only [if_pos hif]
  · simp only [if_neg hif]
    cases h2 : argAt argv 1 with
    | error x => exact .inl fun _ => rfl
    | ok o =>
      simp only [M.ok_bind]
      cases h3 : cstrAt u.inBuf o with
      | error x => exact .inl fun _ => rfl
      | ok name =>
        simp only [M.ok_bind]
        cases h4 : fileFindByName E u name with
        | error x => exact .inl fun _ => rfl
        | ok r =>
          simp only [M.ok_bind]
          cases r with
          | none => exact .inl fun _ => rfl
          | some g =>
            simp only
            cases h5 : g.getData with
            | none => exact .inl fun _ => rfl
            | some id =>
              refine .inr ⟨id, ?_, ?_⟩
              · simp only [callGet]
                cases E.userGet id u <;> rfl
              · intro G
                simp only [callGetG]
                cases runApis E (u.emit (.getData id)) (G id u) with
                | error x => rfl
                | ok w => simp only [M.ok_bind, M.pure_eq]; cases E.userGet id u <;> rfl

/-- `v` has the log of `u` plus events that are not calls of getters. -/
def LogMute (u v : Ush) : Prop := ∃ l, v.log = u.log ++ l ∧ ∀ id, Event.getData id ∉ l

theorem LogMute.of_eq {u v : Ush} (h : v.log = u.log) : LogMute u v := ⟨[], by simp [h], by simp⟩

theorem LogMute.trans {u v w : Ush} (h1 : LogMute u v) (h2 : LogMute v w) : LogMute u w := by
  obtain ⟨l1, e1, n1⟩ := h1
  obtain ⟨l2, e2, n2⟩ := h2
  refine ⟨l1 ++ l2, by rw [e2, e1]; simp, ?_⟩
  intro e he
  rcases List.mem_append.mp he with h | h
  · exact n1 e h
  · exact n2 e h

def _root_.Ush.Event.isGet : Event → Bool
  | .getData _ => true
  | _ => false

theorem LogMute.emit (u : Ush) (e : Event) (h : e.isGet = false) : LogMute u (u.emit e) :=
  ⟨[e], rfl, fun id hm => by rw [← List.mem_singleton.mp hm] at h; cases h⟩

theorem LogMute.left {u u' v : Ush} (h : LogMute u' v) (e : u'.log = u.log) : LogMute u v := by
  obtain ⟨l, h1, h2⟩ := h; exact ⟨l, by rw [h1, e], h2⟩

theorem runApi_mute {E : Env} {u v : Ush} {a : Api} (h : runApi E u a = .ok v) : LogMute u v := by
  cases a with
  | print p => (have hz := writePointer_log h; exact .of_eq hz)
  | printNoNewline p => (have hz := writePointer_log h; exact .of_eq hz)
  | printStatus s => (have hz := writePointer_log h; exact .of_eq hz)
  | printf f => exact .of_eq (ushPrintf_log h)
  | flush => (have hz := writePointer_log h; exact .of_eq hz)
  | reset => exact .of_eq (by have := writePointer_log h; exact this)
  | mount p i fs =>
    obtain ⟨r, h1, h⟩ := M.bind_eq_ok.mp h
    cases h
    exact (LogMute.emit _ _ rfl).left (nodeMount_log h1)
  | unmount p =>
    obtain ⟨r, h1, h⟩ := M.bind_eq_ok.mp h
    cases h
    exact (LogMute.emit _ _ rfl).left (nodeUnmount_log h1)
  | setCurrentDir p =>
    obtain ⟨r, h1, h⟩ := M.bind_eq_ok.mp h
    cases h
    exact (LogMute.emit _ _ rfl).left (setCurrentDir_log h1)
  | commandsAdd i fs =>
    obtain ⟨r, h1, h⟩ := M.bind_eq_ok.mp h
    cases h
    exact (LogMute.emit _ _ rfl).left (commandsAdd_log h1)
  | commandsRemove i =>
    obtain ⟨r, h1, h⟩ := M.bind_eq_ok.mp h
    cases h
    exact (LogMute.emit _ _ rfl).left (commandsRemove_log h1)
  | processStart f => cases h; exact .of_eq rfl
  | setState s => cases h; exact .of_eq rfl
  | fillOut s =>
    obtain ⟨r, h1, h⟩ := M.bind_eq_ok.mp h
    cases h; exact .of_eq rfl

theorem runApis_mute {E : Env} : ∀ (as : List Api) {u v : Ush}, runApis E u as = .ok v → LogMute u v := by
  intro as
  induction as with
  | nil => intro u v h; cases h; exact .of_eq rfl
  | cons a as ih =>
    intro u v h
    obtain ⟨w, h1, h2⟩ := M.bind_eq_ok.mp h
    exact (runApi_mute h1).trans (ih h2)

/-- The command is `xxd`, called in state `w`, with getter `id`. -/
def XxdCase (E : Env) (u : Ush) (base : M Ush) (ext : Getters → M Ush) : Prop :=
  ∃ id w f strs, LogMute u w ∧ base = .ok (xxdGot ((w.emit (.exec (.builtin .xxd) strs)).emit (.getData id)) f (E.userGet id (w.emit (.exec (.builtin .xxd) strs)))) ∧
    ∀ G, ext G = runApis E ((w.emit (.exec (.builtin .xxd) strs)).emit (.getData id)) (G id (w.emit (.exec (.builtin .xxd) strs))) >>= fun x =>
      .ok (xxdGot x f (E.userGet id (w.emit (.exec (.builtin .xxd) strs))))

theorem parseFinishG_cases (u : Ush) : (∀ G, parseFinishG E G u = parseFinish E u) ∨ XxdCase E u (parseFinish E u) (fun G => parseFinishG E G u) := by
  unfold parseFinishG parseFinish
  cases h1 : getArgs u with
  | error x => exact .inl fun _ => rfl
  | ok argv =>
    simp only [M.ok_bind]
    by_cases hif : argv.length = 0
    · exact .inl fun _ => by simp only [if_pos hif]
    · simp only [if_neg hif]
      cases h2 : argStrs u argv with
      | error x => exact .inl fun _ => rfl
      | ok strs =>
        simp only [M.ok_bind]
        cases h3 : callHook E u strs with
        | error x => exact .inl fun _ => rfl
        | ok w =>
          have hl : LogMute u w := by
            unfold callHook at h3
            split at h3
            · cases h3; exact .of_eq rfl
            · exact (LogMute.emit _ _ rfl).trans (runApis_mute _ h3)
          simp only [M.ok_bind]
          cases h4 : argAt argv 0 with
          | error x => exact .inl fun _ => rfl
          | ok o =>
            simp only [M.ok_bind]
            cases h5 : cstrAt w.inBuf o with
            | error x => exact .inl fun _ => rfl
            | ok name =>
              simp only [M.ok_bind]
              cases h6 : fileFindByName E w name with
              | error x => exact .inl fun _ => rfl
              | ok r =>
                simp only [M.ok_bind]
                cases r with
                | none => exact .inl fun _ => rfl
                | some f =>
                  simp only
                  cases h7 : f.exec with
                  | none => exact .inl fun _ => rfl
                  | some cb =>
                    simp only
                    by_cases hx : cb = .builtin .xxd
                    · subst hx
                      rcases xxdCallbackG_cases (E := E) (w.emit (.exec (.builtin .xxd) strs)) f argv with h | ⟨id, e1, e2⟩
                      · exact .inl h
                      · exact .inr ⟨id, w, f, strs, hl, e1, e2⟩
                    · refine .inl fun G => ?_
                      unfold callExecG
                      split
                      · exact absurd rfl hx
                      · rfl

theorem parseCharG_cases (u : Ush) : (∀ G, parseCharG E G u = parseChar E u) ∨ XxdCase E u (parseChar E u) (fun G => parseCharG E G u) := by
  unfold parseCharG parseChar
  cases h1 : rd u.inBuf u.inPos with
  | error x => exact .inl fun _ => rfl
  | ok ch =>
    simp only [M.ok_bind]
    by_cases hif : ch = cLf ∨ ch = cCr
    · simp only [if_pos hif]
      cases h2 : putOut { u with inPos := u.inPos + 1 } cNul with
      | error x => exact .inl fun _ => rfl
      | ok w =>
        simp only [M.ok_bind]
        rcases parseFinishG_cases (E := E) { w with state := .resetPrompt } with h | ⟨id, x, f, strs, hl, e1, e2⟩
        · exact .inl h
        · have : LogMute u { w with state := .resetPrompt } := .of_eq (by have := putOut_log h2; exact this)
          exact .inr ⟨id, x, f, strs, this.trans hl, e1, e2⟩
    · exact .inl fun _ => by simp only [if_neg hif]

/-- The two ways to differ. -/
def CatCase (E : Env) (u : Ush) (base : M Ush) (ext : Getters → M Ush) : Prop :=
  ∃ id, u.state = .processService ∧ base = catEnd (E.userGet id u) (u.emit (.getData id)) ∧
    ∀ G, ext G = runApis E (u.emit (.getData id)) (G id u) >>= catEnd (E.userGet id u)

theorem process_cases {u : Ush} (io : Io) (hc : u.current.isSome = true) (hs : u.state = .processStart ∨ u.state = .processService ∨ u.state = .processFinish)
    (key : ∀ G, (parseServiceG E G u = parseService E u ∧ processServiceG E G u = processService E u) → serviceG E G io u = service E io u) :
    (∀ G, serviceG E G io u = service E io u) ∨
    ∃ base ext, (CatCase E u base ext ∨ XxdCase E u base ext) ∧ (service E io u = base >>= fun v => .ok (v, true)) ∧ ∀ G, serviceG E G io u = ext G >>= fun v => .ok (v, true) := by
  have hp : ∀ G, parseServiceG E G u = parseService E u := by
    intro G
    unfold parseServiceG parseService
    rcases hs with hs | hs | hs <;> rw [hs]
  by_cases hcat : ∃ f, u.procFile = some f ∧ f.process = some (.builtin .cat)
  · obtain ⟨f, hf, hq⟩ := hcat
    have e1 : processService E u = (do return some (← catService E u)) := by
      unfold processService
      rcases hs with hs | hs | hs <;> simp only [hs, hf, hq]
    have e2 : ∀ G, processServiceG E G u = (do return some (← catServiceG E G u)) := by
      intro G
      unfold processServiceG
      rcases hs with hs | hs | hs <;> simp only [hs, hf, hq]
    rcases catServiceG_cases (E := E) u with h | ⟨id, h0, h1, h2⟩
    · exact .inl fun G => key G ⟨hp G, by rw [e1, e2, h]⟩
    · refine .inr ⟨_, _, .inl ⟨id, h0, rfl, fun _ => rfl⟩, ?_, ?_⟩
      · rw [service_eq E io u hc, h0]; unfold innerStep processCall; simp only [h0, hf, hq]; rw [h1]
      · intro G
        rw [← h2]
        unfold serviceG
        rw [hc, hp]
        simp only [resetService, promptService, readService, autocompService, parseService, writeService, h0, e2, assertM_true, M.ok_bind]
        generalize catServiceG E G u = x; cases x <;> rfl
  · refine .inl fun G => key G ⟨hp G, ?_⟩
    have : ∀ s, u.state = s → (s = .processStart ∨ s = .processService ∨ s = .processFinish) → processServiceG E G u = processService E u := by
      intro s e hs
      unfold processServiceG
      rcases hs with rfl | rfl | rfl <;> simp only [e]
      all_goals
        cases hf : u.procFile with
        | none => unfold processService; simp only [e, hf]
        | some f =>
          simp only
          split
          · rename_i hq; exact absurd ⟨f, hf, hq⟩ hcat
          · rfl
    exact this _ rfl hs

theorem serviceG_cases (io : Io) (u : Ush) : (∀ G, serviceG E G io u = service E io u) ∨
    ∃ base ext, (CatCase E u base ext ∨ XxdCase E u base ext) ∧ (service E io u = base >>= fun v => .ok (v, true)) ∧ ∀ G, serviceG E G io u = ext G >>= fun v => .ok (v, true) := by
  cases hc : u.current.isSome with
  | false => left; intro G; unfold serviceG service; rw [hc]; rfl
  | true =>
    have key : ∀ G, (parseServiceG E G u = parseService E u ∧ processServiceG E G u = processService E u) → serviceG E G io u = service E io u := by
      intro G h
      unfold serviceG service
      rw [h.1, h.2]
      rfl
    cases hs : u.state
    case parseSearchArg =>
      rcases parseCharG_cases (E := E) u with h | h
      · exact .inl fun G => key G ⟨by unfold parseServiceG parseService; rw [hs]; simp only; rw [h], by unfold processServiceG processService; rw [hs]⟩
      · refine .inr ⟨_, _, .inr h, ?_, ?_⟩
        · rw [service_eq E io u hc, hs]; unfold innerStep; rw [hs]
        · intro G
          unfold serviceG
          rw [hc]
          simp only [resetService, promptService, readService, autocompService, parseServiceG, hs, assertM_true, M.ok_bind]
          generalize parseCharG E G u = x; cases x <;> rfl
    case parseQuoteArg =>
      rcases parseCharG_cases (E := E) u with h | h
      · exact .inl fun G => key G ⟨by unfold parseServiceG parseService; rw [hs]; simp only; rw [h], by unfold processServiceG processService; rw [hs]⟩
      · refine .inr ⟨_, _, .inr h, ?_, ?_⟩
        · rw [service_eq E io u hc, hs]; unfold innerStep; rw [hs]
        · intro G
          unfold serviceG
          rw [hc]
          simp only [resetService, promptService, readService, autocompService, parseServiceG, hs, assertM_true, M.ok_bind]
          generalize parseCharG E G u = x; cases x <;> rfl
    case parseStandardArg =>
      rcases parseCharG_cases (E := E) u with h | h
      · exact .inl fun G => key G ⟨by unfold parseServiceG parseService; rw [hs]; simp only; rw [h], by unfold processServiceG processService; rw [hs]⟩
      · refine .inr ⟨_, _, .inr h, ?_, ?_⟩
        · rw [service_eq E io u hc, hs]; unfold innerStep; rw [hs]
        · intro G
          unfold serviceG
          rw [hc]
          simp only [resetService, promptService, readService, autocompService, parseServiceG, hs, assertM_true, M.ok_bind]
          generalize parseCharG E G u = x; cases x <;> rfl
    case processStart => exact process_cases io hc (.inl hs) key
    case processService => exact process_cases io hc (.inr (.inl hs)) key
    case processFinish => exact process_cases io hc (.inr (.inr hs)) key
    all_goals exact .inl fun G => key G ⟨by unfold parseServiceG parseService; rw [hs], by unfold processServiceG processService; rw [hs]⟩

/-! ## Where getters are called

With getters whose first call goes wrong nothing is left of a step that calls a getter. -/

/-- Getters that go wrong. -/
def deadly : Getters := fun _ _ => [.print .null]

theorem runApis_deadly (u : Ush) : runApis E u [.print .null] = .error .assert := rfl

theorem callExec_mute {E : Env} {u v : Ush} {f : FileDesc} {cb : Cb} {argv : List Nat} {strs : List Str}
    (hx : cb ≠ .builtin .xxd) (h : callExec E u f cb argv strs = .ok v) : LogMute u v := by
  unfold callExec at h
  refine LogMute.trans (LogMute.emit u (.exec cb strs) rfl) ?_
  simp only at h
  generalize u.emit (.exec cb strs) = w at h
  split at h
  · unfold helpCallback at h
    mgo h
    all_goals first
      | (cases h; exact .of_eq rfl)
      | (have hz := writePointer_log h; exact .of_eq hz)
  · unfold lsCallback at h
    mgo h
    all_goals first
      | (cases h; exact .of_eq rfl)
      | exact .of_eq (by have := writePointer_log h; exact this)
  · unfold cdCallback at h
    split at h
    · (have hz := writePointer_log h; exact .of_eq hz)
    · obtain ⟨_, _, h⟩ := M.bind_eq_ok.mp h
      obtain ⟨_, _, h⟩ := M.bind_eq_ok.mp h
      obtain ⟨r, hr, h⟩ := M.bind_eq_ok.mp h
      have := setCurrentDir_log hr
      simp only at h
      split at h
      · exact .of_eq ((writePointer_log h).trans this)
      · cases h; exact .of_eq this
  · unfold pwdCallback at h
    mgo h
    all_goals (have hz := writePointer_log h; exact .of_eq hz)
  · unfold catCallback at h
    mgo h
    all_goals first
      | (cases h; exact .of_eq rfl)
      | (have hz := writePointer_log h; exact .of_eq hz)
  · exact absurd rfl hx
  · have hdec : ∀ {a : List Nat} {r : Ush × Nat × Nat}, echoDecode w a = .ok r → r.1.log = w.log := by
      intro a r hr
      unfold echoDecode at hr
      mgo hr
      cases hr; rfl
    unfold echoCallback at h
    split at h
    · obtain ⟨_, _, h⟩ := M.bind_eq_ok.mp h
      obtain ⟨_, _, h⟩ := M.bind_eq_ok.mp h
      split at h
      · (have hz := writePointer_log h; exact .of_eq hz)
      · obtain ⟨_, _, h⟩ := M.bind_eq_ok.mp h
        obtain ⟨_, _, h⟩ := M.bind_eq_ok.mp h
        obtain ⟨r, _, h⟩ := M.bind_eq_ok.mp h
        cases r with
        | none => (have hz := writePointer_log h; exact .of_eq hz)
        | some f =>
          simp only at h
          cases hg : f.setData with
          | none => rw [hg] at h; (have hz := writePointer_log h; exact .of_eq hz)
          | some id =>
            rw [hg] at h
            simp only at h
            obtain ⟨r, hr, h⟩ := M.bind_eq_ok.mp h
            unfold callSet at h
            exact (LogMute.of_eq (hdec hr)).trans ((LogMute.emit _ _ rfl).trans (runApis_mute _ h))
    · obtain ⟨r, hr, h⟩ := M.bind_eq_ok.mp h
      exact .of_eq ((writePointer_log h).trans (hdec hr))
    · cases h; exact .of_eq rfl
    · (have hz := writePointer_log h; exact .of_eq hz)
  · exact runApis_mute _ h

theorem callExecG_mute {E : Env} {u v : Ush} {f : FileDesc} {cb : Cb} {argv : List Nat} {strs : List Str}
    (h : callExecG E deadly u f cb argv strs = .ok v) : LogMute u v := by
  unfold callExecG at h
  split at h
  · refine LogMute.trans (LogMute.emit u (.exec (.builtin .xxd) strs) rfl) ?_
    generalize u.emit (.exec (.builtin .xxd) strs) = w at h
    unfold xxdCallbackG at h
    split at h
    · (have hz := writePointer_log h; exact .of_eq hz)
    · obtain ⟨_, _, h⟩ := M.bind_eq_ok.mp h
      obtain ⟨_, _, h⟩ := M.bind_eq_ok.mp h
      obtain ⟨r, _, h⟩ := M.bind_eq_ok.mp h
      cases r with
      | none => (have hz := writePointer_log h; exact .of_eq hz)
      | some f =>
        simp only at h
        cases hg : f.getData with
        | none => rw [hg] at h; (have hz := writePointer_log h; exact .of_eq hz)
        | some id => rw [hg] at h; cases h
  · exact callExec_mute (by assumption) h

theorem parseFinish_mute {E : Env} {u v : Ush} (h : parseFinishG E deadly u = .ok v) : LogMute u v := by
  unfold parseFinishG at h
  obtain ⟨argv, _, h⟩ := M.bind_eq_ok.mp h
  split at h
  · cases h; exact .of_eq rfl
  · obtain ⟨strs, _, h⟩ := M.bind_eq_ok.mp h
    obtain ⟨w, hw, h⟩ := M.bind_eq_ok.mp h
    have h1 : LogMute u w := by
      unfold callHook at hw
      split at hw
      · cases hw; exact .of_eq rfl
      · exact (LogMute.emit _ _ rfl).trans (runApis_mute _ hw)
    refine h1.trans ?_
    obtain ⟨_, _, h⟩ := M.bind_eq_ok.mp h
    obtain ⟨_, _, h⟩ := M.bind_eq_ok.mp h
    obtain ⟨r, _, h⟩ := M.bind_eq_ok.mp h
    cases r with
    | none => (have hz := writePointer_log h; exact .of_eq hz)
    | some f =>
      simp only at h
      cases he : f.exec with
      | none => rw [he] at h; (have hz := writePointer_log h; exact .of_eq hz)
      | some cb => rw [he] at h; exact callExecG_mute h

theorem parseChar_mute {E : Env} {u v : Ush} (h : parseCharG E deadly u = .ok v) : LogMute u v := by
  unfold parseCharG at h
  obtain ⟨ch, _, h⟩ := M.bind_eq_ok.mp h
  simp only at h
  split at h
  · obtain ⟨w, hw, h⟩ := M.bind_eq_ok.mp h
    exact LogMute.left (parseFinish_mute h) (by have := putOut_log hw; exact this)
  · exact .of_eq (by have := parseCharStandard_log h; exact this)

theorem catServiceG_mute {u v : Ush} (h : catServiceG E deadly u = .ok v) : LogMute u v := by
  unfold catServiceG at h
  split at h
  · cases h; exact .of_eq rfl
  · split at h
    · cases h; exact .of_eq rfl
    · obtain ⟨_, _, h⟩ := M.bind_eq_ok.mp h
      obtain ⟨_, _, h⟩ := M.bind_eq_ok.mp h
      obtain ⟨_, _, h⟩ := M.bind_eq_ok.mp h
      obtain ⟨r, _, h⟩ := M.bind_eq_ok.mp h
      cases r with
      | none => cases h
      | some f =>
        simp only at h
        cases hg : f.getData with
        | none => rw [hg] at h; cases h
        | some id => rw [hg] at h; cases h
  · cases h; exact .of_eq rfl
  · cases h; exact .of_eq rfl

theorem processServiceG_mute {u v : Ush} (h : processServiceG E deadly u = .ok (some v)) : LogMute u v := by
  have go : (match u.procFile with
      | none => .error .assert
      | some f =>
        match f.process with
        | some (.builtin .cat) => do return some (← catServiceG E deadly u)
        | _ => processService E u : M (Option Ush)) = .ok (some v) → LogMute u v := by
    intro h
    split at h
    · cases h
    · rename_i f hf
      split at h
      · obtain ⟨w, hw, h⟩ := M.bind_eq_ok.mp h
        cases h
        exact catServiceG_mute hw
      · rename_i hn
        have go2 : (match u.procFile with
            | none => .error .assert
            | some f =>
              match f.process with
              | none => .ok (some { u with state := .reset })
              | some (.builtin .help) => do return some (← helpService E u)
              | some (.builtin .ls) => do return some (← lsService E u)
              | some (.builtin .cat) => do return some (← catService E u)
              | some (.builtin .xxd) => do return some (← xxdService E u)
              | some (.builtin _) => .error .null
              | some (.user id) => do return some (← runApis E (u.emit (.proc id)) (E.userProc id u)) : M (Option Ush)) = .ok (some v) → LogMute u v := by
          intro h
          rw [hf] at h
          simp only at h
          split at h
          · cases h; exact .of_eq rfl
          · obtain ⟨w, hw, h⟩ := M.bind_eq_ok.mp h
            cases h; exact .of_eq (helpService_log hw)
          · obtain ⟨w, hw, h⟩ := M.bind_eq_ok.mp h
            cases h; exact .of_eq (lsService_log hw)
          · rename_i hq; exact absurd hq hn
          · obtain ⟨w, hw, h⟩ := M.bind_eq_ok.mp h
            cases h; exact .of_eq (xxdService_log hw)
          · cases h
          · obtain ⟨w, hw, h⟩ := M.bind_eq_ok.mp h
            cases h
            exact (LogMute.emit _ _ rfl).trans (runApis_mute _ hw)
        unfold processService at h
        simp only at h
        cases hs : u.state <;> rw [hs] at h <;> first
          | exact go2 h
          | cases h
  unfold processServiceG at h
  split at h
  · exact go h
  · exact go h
  · exact go h
  · cases h

theorem serviceG_mute {io : Io} {u v : Ush} {b : Bool} (h : serviceG E deadly io u = .ok (v, b)) : LogMute u v := by
  unfold serviceG at h
  obtain ⟨_, _, h⟩ := M.bind_eq_ok.mp h
  obtain ⟨r, hr, h⟩ := M.bind_eq_ok.mp h
  split at h
  · cases h
    unfold resetService at hr
    split at hr
    · obtain ⟨w, hw, hr⟩ := M.bind_eq_ok.mp hr
      cases hr; exact .of_eq (writePointer_log hw)
    · cases hr; exact .of_eq rfl
    · cases hr
  obtain ⟨r, hr, h⟩ := M.bind_eq_ok.mp h
  split at h
  · cases h
    unfold promptService at hr
    mgo hr
    all_goals (cases hr; exact .of_eq (writePointer_log (by assumption)))
  obtain ⟨r, hr, h⟩ := M.bind_eq_ok.mp h
  split at h
  · cases h
    unfold readService at hr
    split at hr
    · obtain ⟨w, hw, hr⟩ := M.bind_eq_ok.mp hr
      cases hr
      unfold readStart at hw
      mgo hw
      cases hw; exact .of_eq rfl
    · obtain ⟨w, hw, hr⟩ := M.bind_eq_ok.mp hr
      cases hr
      have := readChar_log hw
      exact ⟨_, this, fun id => by cases io.rd <;> simp⟩
    · cases hr
  obtain ⟨r, hr, h⟩ := M.bind_eq_ok.mp h
  split at h
  · cases h
    unfold autocompService at hr
    split at hr
    all_goals first
      | (cases hr; done)
      | (cases hr; exact .of_eq rfl)
      | (obtain ⟨w, hw, hr⟩ := M.bind_eq_ok.mp hr
         cases hr
         first
           | exact .of_eq (acCandidatesProcess_log hw)
           | exact .of_eq (acCandidatesFinish_log hw)
           | exact .of_eq (writePointer_log hw)
           | (unfold acStatePrepare at hw; mgo hw; cases hw; exact .of_eq rfl)
           | (unfold acRecallSuffix at hw; mgo hw; all_goals exact .of_eq (by have := writePointer_log hw; exact this)))
  obtain ⟨r, hr, h⟩ := M.bind_eq_ok.mp h
  split at h
  · cases h
    unfold parseServiceG at hr
    split at hr
    · cases hr; exact .of_eq rfl
    · obtain ⟨w, hw, hr⟩ := M.bind_eq_ok.mp hr
      cases hr; exact parseChar_mute hw
    · obtain ⟨w, hw, hr⟩ := M.bind_eq_ok.mp hr
      cases hr; exact parseChar_mute hw
    · obtain ⟨w, hw, hr⟩ := M.bind_eq_ok.mp hr
      cases hr; exact parseChar_mute hw
    · cases hr
  obtain ⟨r, hr, h⟩ := M.bind_eq_ok.mp h
  split at h
  · cases h
    unfold writeService at hr
    split at hr
    · obtain ⟨w, hw, hr⟩ := M.bind_eq_ok.mp hr
      cases hr
      rcases writeChar_log hw with h1 | ⟨c, h1⟩
      · exact .of_eq h1
      · exact ⟨_, h1, by simp⟩
    · cases hr
  obtain ⟨r, hr, h⟩ := M.bind_eq_ok.mp h
  split at h
  · cases h
    exact processServiceG_mute hr
  · cases h; exact .of_eq rfl

/-! ## Steps -/

/-- What a step of the model without calls of getters says about the step with them. -/
theorem step_cases {io : Io} {u v : Ush} {b : Bool} (h : service E io u = .ok (v, b)) :
    ((∀ G, serviceG E G io u = .ok (v, b)) ∧ LogMute u v) ∨
    (∃ id d, u.state = .processService ∧ E.userGet id u = some d ∧ v = catGot (u.emit (.getData id)) d ∧ b = true ∧
      ∀ G, serviceG E G io u = runApis E (u.emit (.getData id)) (G id u) >>= fun w => .ok (catGot w d, true)) ∨
    ∃ id w f strs, LogMute u w ∧ v = xxdGot ((w.emit (.exec (.builtin .xxd) strs)).emit (.getData id)) f (E.userGet id (w.emit (.exec (.builtin .xxd) strs))) ∧ b = true ∧
      ∀ G, serviceG E G io u = runApis E ((w.emit (.exec (.builtin .xxd) strs)).emit (.getData id)) (G id (w.emit (.exec (.builtin .xxd) strs))) >>= fun x =>
        .ok (xxdGot x f (E.userGet id (w.emit (.exec (.builtin .xxd) strs))), true) := by
  rcases serviceG_cases (E := E) io u with h1 | ⟨base, ext, hc, e1, e2⟩
  · exact .inl ⟨fun G => by rw [h1 G, h], serviceG_mute (by rw [h1 deadly, h])⟩
  · rw [h] at e1
    obtain ⟨x, hx, e1⟩ := M.bind_eq_ok.mp e1.symm
    cases e1
    rcases hc with ⟨id, hs, hb, he⟩ | ⟨id, w, f, strs, hl, hb, he⟩
    · rw [hb] at hx
      unfold catEnd at hx he
      cases hd : E.userGet id u with
      | none => rw [hd] at hx; cases hx
      | some d =>
        rw [hd] at hx he
        cases hx
        refine .inr (.inl ⟨id, d, hs, hd, rfl, rfl, fun G => ?_⟩)
        rw [e2, he]
        cases runApis E (u.emit (.getData id)) (G id u) <;> rfl
    · rw [hb] at hx
      cases hx
      refine .inr (.inr ⟨id, w, f, strs, hl, rfl, rfl, fun G => ?_⟩)
      rw [e2, he]
      cases runApis E ((w.emit (.exec (.builtin .xxd) strs)).emit (.getData id)) (G id (w.emit (.exec (.builtin .xxd) strs))) <;> rfl

theorem xxdGot_log (w : Ush) (f : FileDesc) (d : Option (List UInt8)) : (xxdGot w f d).log = w.log := by cases d <;> rfl

theorem catGot_log (w : Ush) (d : List UInt8) : (catGot w d).log = w.log := rfl

theorem Spec.Unheard.left {G : Getters} {l l' : List Event} (h : Unheard G (l ++ l')) : Unheard G l := fun id hm => h id (by simp [hm])

theorem Spec.Unheard.right {G : Getters} {l l' : List Event} (h : Unheard G (l ++ l')) : Unheard G l' := fun id hm => h id (by simp [hm])

/-- A step in which no getter with calls is called. -/
theorem step_unheard {G : Getters} {io : Io} {u v : Ush} {b : Bool} (h : service E io u = .ok (v, b)) {l : List Event} (hl : v.log = u.log ++ l) (hu : Unheard G l) :
    serviceG E G io u = .ok (v, b) := by
  rcases step_cases h with ⟨h1, -⟩ | ⟨id, d, -, -, rfl, rfl, h1⟩ | ⟨id, w, f, strs, ⟨l0, hw, -⟩, rfl, rfl, h1⟩
  · exact h1 G
  · have : l = [.getData id] := by
      have : (u.log ++ [.getData id] : List Event) = u.log ++ l := hl
      exact (List.append_cancel_left this).symm
    rw [h1 G, hu id (by simp [this]) u]; rfl
  · have : l = l0 ++ [.exec (.builtin .xxd) strs] ++ [.getData id] := by
      rw [xxdGot_log] at hl
      have : (w.log ++ [.exec (.builtin .xxd) strs] ++ [.getData id] : List Event) = u.log ++ l := hl
      rw [hw] at this
      simp only [List.append_assoc] at this ⊢
      exact (List.append_cancel_left this).symm
    rw [h1 G, hu id (by simp [this])]; rfl

theorem drive1_log {u v : Ush} {inp r : List UInt8} {s : Slot} (h : drive1 E u inp s = .ok (v, r)) : ∃ l, v.log = u.log ++ l := by
  unfold drive1 at h
  obtain ⟨⟨w, b⟩, h1, h2⟩ := M.bind_eq_ok.mp h
  cases h2
  obtain ⟨l, e, -⟩ := service_log h1
  exact ⟨l, e⟩

theorem drive1_unheard {G : Getters} {u v : Ush} {inp r : List UInt8} {s : Slot} (h : drive1 E u inp s = .ok (v, r)) {l : List Event} (hl : v.log = u.log ++ l) (hu : Unheard G l) :
    drive1G E G u inp s = .ok (v, r) := by
  unfold drive1 at h
  obtain ⟨⟨w, b⟩, h1, h2⟩ := M.bind_eq_ok.mp h
  cases h2
  unfold drive1G
  rw [step_unheard h1 hl hu]
  rfl

theorem drive_unheard {G : Getters} : ∀ (ss : List Slot) {u v : Ush} {inp r : List UInt8}, drive E u inp ss = .ok (v, r) → ∀ {l : List Event}, v.log = u.log ++ l → Unheard G l →
    driveG E G u inp ss = .ok (v, r) := by
  intro ss
  induction ss with
  | nil => intro u v inp r h l _ _; exact h
  | cons s ss ih =>
    intro u v inp r h l hl hu
    unfold drive at h
    obtain ⟨⟨w, q⟩, h1, h2⟩ := M.bind_eq_ok.mp h
    obtain ⟨l1, e1⟩ := drive1_log h1
    obtain ⟨l2, e2⟩ := drive_log ss h2
    simp only at e2
    have : l = l1 ++ l2 := by rw [← e2, e1, List.append_assoc] at hl; exact (List.append_cancel_left hl).symm
    subst this
    unfold driveG
    rw [drive1_unheard h1 e1 hu.left]
    exact ih h2 e2.symm hu.right

theorem driveG_append (G : Getters) : ∀ (s1 s2 : List Slot) (u : Ush) (inp : List UInt8), driveG E G u inp (s1 ++ s2) = driveG E G u inp s1 >>= fun p => driveG E G p.1 p.2 s2 := by
  intro s1
  induction s1 with
  | nil => intro s2 u inp; rfl
  | cons s s1 ih =>
    intro s2 u inp
    rw [List.cons_append, driveG, driveG]
    cases drive1G E G u inp s with
    | error x => rfl
    | ok p => exact ih s2 p.1 p.2

/-! ## The first getter that is not mute -/

theorem split_mute {l l' L1 L2 : List Event} {id : Nat} (h : l ++ l' = L1 ++ .getData id :: L2) (hm : ∀ i, Event.getData i ∉ l) : ∃ m, L1 = l ++ m ∧ l' = m ++ .getData id :: L2 := by
  rcases List.append_eq_append_iff.mp h with ⟨m, h1, h2⟩ | ⟨m, h1, h2⟩
  · exact ⟨m, h1, h2⟩
  · cases m with
    | nil => exact ⟨[], by simpa using h1.symm, by simpa using h2.symm⟩
    | cons e m =>
      simp only [List.cons_append, List.cons.injEq] at h2
      exact absurd (by rw [h1, ← h2.1]; simp) (hm id)

theorem first_get {G : Getters} {id : Nat} {L2 : List Event} : ∀ (ss : List Slot) {u v : Ush} {inp r : List UInt8} {L1 : List Event}, drive E u inp ss = .ok (v, r) →
    v.log = u.log ++ (L1 ++ .getData id :: L2) → Unheard G L1 → (∀ strs, .exec (.builtin .xxd) strs ∉ L1) →
    ∃ ss0 s ss1 x q d, ss = ss0 ++ s :: ss1 ∧ driveG E G u inp ss0 = .ok (x, q) ∧ x.log = u.log ++ L1 ∧ x.state = .processService ∧ x.current.isSome = true ∧ E.userGet id x = some d ∧
      drive1G E G x q s = runApis E (x.emit (.getData id)) (G id x) >>= fun w => .ok (catGot w d, q) := by
  intro ss
  induction ss with
  | nil =>
    intro u v inp r L1 h hl _ _
    cases h
    have := congrArg List.length hl
    simp at this
  | cons s ss ih =>
    intro u v inp r L1 h hl hu hx
    unfold drive at h
    obtain ⟨⟨w, q⟩, h1, h2⟩ := M.bind_eq_ok.mp h
    obtain ⟨l2, e2⟩ := drive_log ss h2
    simp only at e2
    have next : ∀ l L1', w.log = u.log ++ l → L1 = l ++ L1' → l2 = L1' ++ .getData id :: L2 → drive1G E G u inp s = .ok (w, q) →
        ∃ ss0 s' ss1 x q d, s :: ss = ss0 ++ s' :: ss1 ∧ driveG E G u inp ss0 = .ok (x, q) ∧ x.log = u.log ++ L1 ∧ x.state = .processService ∧ x.current.isSome = true ∧ E.userGet id x = some d ∧
          drive1G E G x q s' = runApis E (x.emit (.getData id)) (G id x) >>= fun w => .ok (catGot w d, q) := by
      intro l L1' ew eL el hs
      subst eL
      obtain ⟨ss0, s', ss1, x, q', d, rfl, g1, g2, g3, g3', g4, g5⟩ := ih h2 (by rw [← e2, el]) hu.right (fun strs hm => hx strs (by simp [hm]))
      refine ⟨s :: ss0, s', ss1, x, q', d, rfl, ?_, by rw [g2, ew, List.append_assoc], g3, g3', g4, g5⟩
      rw [driveG, hs]
      exact g1
    have h1' := h1
    unfold drive1 at h1
    obtain ⟨⟨w', b⟩, h3, h4⟩ := M.bind_eq_ok.mp h1
    cases h4
    rcases step_cases h3 with ⟨k, l, e, hm⟩ | ⟨id', d, hs, hd, rfl, rfl, k⟩ | ⟨id', y, f, strs, ⟨l0, hy, hm⟩, rfl, rfl, k⟩
    · rw [← e2, e, List.append_assoc] at hl
      obtain ⟨m, m1, m2⟩ := split_mute (List.append_cancel_left hl) hm
      exact next l m e m1 m2 (drive1_unheard h1' e fun i hi => absurd hi (hm i))
    · have e : (catGot (u.emit (.getData id')) d).log = u.log ++ [.getData id'] := rfl
      have hl' := hl
      rw [← e2, e, List.append_assoc] at hl'
      replace hl' := List.append_cancel_left hl'
      cases L1 with
      | nil =>
        simp only [List.nil_append, List.cons_append, List.cons.injEq, Event.getData.injEq] at hl'
        obtain ⟨rfl, -⟩ := hl'
        refine ⟨[], s, ss, u, inp, d, rfl, rfl, by simp, hs, ?_, hd, ?_⟩
        · cases hc : u.current.isSome with
          | true => rfl
          | false => unfold service at h3; rw [hc] at h3; cases h3
        unfold drive1G
        rw [k G]
        cases runApis E (u.emit (.getData id')) (G id' u) with
        | error x => rfl
        | ok z => simp [hs, M.ok_bind, M.pure_eq]
      | cons a L1 =>
        simp only [List.nil_append, List.cons_append, List.cons.injEq] at hl'
        obtain ⟨rfl, hl2⟩ := hl'
        exact next [.getData id'] L1 e rfl hl2 (drive1_unheard h1' e fun i hi => hu i (by rw [List.mem_singleton.mp hi]; simp))
    · exfalso
      rw [xxdGot_log] at e2
      have e2 : (y.log ++ [.exec (.builtin .xxd) strs] ++ [.getData id'] : List Event) ++ l2 = v.log := e2
      rw [hl, hy] at e2
      simp only [List.append_assoc] at e2
      have e2 := List.append_cancel_left e2
      have e3 : (l0 ++ [.exec (.builtin .xxd) strs]) ++ ([.getData id'] ++ l2) = L1 ++ .getData id :: L2 := by simpa using e2
      obtain ⟨m, m1, -⟩ := split_mute e3 (by intro i hi; simp at hi; exact hm i hi)
      exact hx strs (by rw [m1]; simp)

/-! ## Printing for ever -/

theorem prints_one {u w : Ush} {a : Api} (ha : IsPrint a) (h : runApi E u a = .ok w) : w.state = .writeChar ∧ w.log = u.log := by
  have wp : ∀ {u w : Ush} {p : Ptr} {st : St}, writePointer u p st = .ok w → w.state = .writeChar ∧ w.log = u.log := by
    intro u w p st h
    refine ⟨?_, writePointer_log h⟩
    unfold writePointer at h
    mgo h
    cases h; rfl
  cases a with
  | print p => exact wp h
  | printNoNewline p => exact wp h
  | printStatus s => exact wp h
  | flush => exact wp h
  | reset => have := wp h; exact this
  | printf f =>
    refine ⟨?_, ushPrintf_log h⟩
    have h : ushPrintf E u f = .ok w := h
    unfold ushPrintf at h
    obtain ⟨u1, h1, h⟩ := M.bind_eq_ok.mp h
    have e1 : u1.state = .writeChar := by
      split at h1
      · obtain ⟨o, _, h1⟩ := M.bind_eq_ok.mp h1
        exact (wp h1).1
      · cases h1; rfl
    have pe : ∀ {u w : Ush} {m : Str}, printfError E u m = .ok w → w.state = u.state := by
      intro u w m h
      unfold printfError at h
      mgo h <;> (cases h; rfl)
    obtain ⟨_, _, h⟩ := M.bind_eq_ok.mp h
    obtain ⟨_, _, h⟩ := M.bind_eq_ok.mp h
    obtain ⟨_, _, h⟩ := M.bind_eq_ok.mp h
    split at h
    · rw [pe h]; exact e1
    · split at h
      · rw [pe h]; exact e1
      · cases h; exact e1
  | mount p i fs => exact ha.elim
  | unmount p => exact ha.elim
  | setCurrentDir p => exact ha.elim
  | commandsAdd i fs => exact ha.elim
  | commandsRemove i => exact ha.elim
  | processStart f => exact ha.elim
  | setState s => exact ha.elim
  | fillOut s => exact ha.elim

theorem prints_all : ∀ (as : List Api) {u w : Ush}, (∀ a ∈ as, IsPrint a) → runApis E u as = .ok w → w.log = u.log ∧ (as ≠ [] ∨ u.state = .writeChar → w.state = .writeChar) := by
  intro as
  induction as with
  | nil => intro u w _ h; cases h; exact ⟨rfl, fun h => h.resolve_left (· rfl)⟩
  | cons a as ih =>
    intro u w ha h
    obtain ⟨x, h1, h2⟩ := M.bind_eq_ok.mp h
    obtain ⟨g1, g2⟩ := prints_one (ha a (by simp)) h1
    obtain ⟨k1, k2⟩ := ih (fun b hb => ha b (by simp [hb])) h2
    exact ⟨k1.trans g2, fun _ => k2 (.inr g1)⟩

/-- The write engine is its own successor. -/
theorem printsOn (G : Getters) (d : List UInt8) (inp : List UInt8) : ∀ (ss : List Slot) (u : Ush), u.state = .writeChar → u.writeNext = .writeChar → u.writeBuf = .data d → u.writeSize = d.length →
    u.current.isSome = true → driveG E G u inp ss = .ok (
      { u with writePos := max u.writePos (min d.length (u.writePos + ss.countP (·.accept))), log := u.log ++ outs ((d.drop u.writePos).take (ss.countP (·.accept))) }, inp) := by
  intro ss
  induction ss with
  | nil =>
    intro u h1 h2 h3 h4 _
    have : max u.writePos (min d.length (u.writePos + 0)) = u.writePos := by omega
    simp only [driveG, List.countP_nil, this]
    simp
  | cons s ss ih =>
    intro u h1 h2 h3 h4 hc
    have hG : serviceG E G ⟨if s.ready then inp.head? else none, s.accept⟩ u = service E ⟨if s.ready then inp.head? else none, s.accept⟩ u := by
      rcases serviceG_cases (E := E) ⟨if s.ready then inp.head? else none, s.accept⟩ u with h | ⟨base, ext, -, -, -⟩
      · exact h G
      · unfold serviceG service parseServiceG parseService processServiceG processService
        simp only [h1]
        rfl
    rw [driveG]
    unfold drive1G
    have hw : service E ⟨if s.ready then inp.head? else none, s.accept⟩ u = writeChar ⟨if s.ready then inp.head? else none, s.accept⟩ u >>= fun v => .ok (v, true) := by
      rw [service_eq E _ u hc, h1]
    rw [hG, hw]
    unfold writeChar
    by_cases hp : u.writePos ≥ u.writeSize
    · rw [if_pos hp]
      simp only [M.ok_bind, M.pure_eq]
      rw [if_neg (by rw [h1]; simp)]
      have e : ({ u with state := u.writeNext } : Ush) = u := by cases u; simp_all
      rw [e, ih u h1 h2 h3 h4 hc]
      rw [h4] at hp
      have p1 : max u.writePos (min d.length (u.writePos + List.countP (·.accept) ss)) = max u.writePos (min d.length (u.writePos + List.countP (·.accept) (s :: ss))) := by omega
      have p2 : d.drop u.writePos = [] := List.drop_eq_nil_iff.mpr hp
      rw [p1, p2]
      simp
    · rw [if_neg hp]
      rw [h4] at hp
      have hlt : u.writePos < d.length := by omega
      have hr : ptrRead u u.writeBuf u.writePos = .ok d[u.writePos] := by rw [h3]; simp [ptrRead, rd, hlt]
      rw [hr]
      simp only [M.ok_bind, M.pure_eq]
      cases ha : s.accept with
      | false =>
        simp only [Bool.false_eq_true, if_false, M.ok_bind]
        rw [if_neg (by rw [h1]; simp)]
        rw [ih u h1 h2 h3 h4 hc]
        simp [ha]
      | true =>
        simp only [if_true, M.ok_bind]
        rw [if_neg (by rw [h1]; simp)]
        rw [ih _ (by exact h1) (by exact h2) (by exact h3) (by exact h4) (by exact hc)]
        have hd : d.drop u.writePos = d[u.writePos] :: d.drop (u.writePos + 1) := (List.getElem_cons_drop hlt).symm
        have hcnt : List.countP (·.accept) (s :: ss) = List.countP (·.accept) ss + 1 := by simp [ha]
        rw [hcnt, hd, List.take_succ_cons]
        have p1 : max (u.writePos + 1) (min d.length (u.writePos + 1 + List.countP (·.accept) ss)) = max u.writePos (min d.length (u.writePos + (List.countP (·.accept) ss + 1))) := by omega
        simp only [Ush.emit]
        rw [p1]
        simp [outs]

/-- The same without knowing that there is a current directory. -/
theorem printsOn_ok {G : Getters} {d : List UInt8} {inp : List UInt8} {ss : List Slot} {u z : Ush} {q : List UInt8} (h1 : u.state = .writeChar) (h2 : u.writeNext = .writeChar)
    (h3 : u.writeBuf = .data d) (h4 : u.writeSize = d.length) (h5 : u.writePos = 0) (h : driveG E G u inp ss = .ok (z, q)) :
    z.state = .writeChar ∧ q = inp ∧ z.log = u.log ++ outs (d.take (ss.countP (·.accept))) := by
  cases hc : u.current.isSome with
  | true =>
    rw [printsOn G d inp ss u h1 h2 h3 h4 hc] at h
    cases h
    exact ⟨h1, rfl, by rw [h5]; rfl⟩
  | false =>
    cases ss with
    | nil => cases h; exact ⟨h1, rfl, by simp [outs]⟩
    | cons s ss =>
      unfold driveG drive1G serviceG at h
      rw [hc] at h
      cases h

/-- The registers of the write engine. -/
def redirect (u : Ush) (b : Ptr) (n p : Nat) (t st : St) : Ush := { u with writeBuf := b, writeSize := n, writePos := p, writeNext := t, state := st }

/-- Printed texts only touch the registers of the write engine. -/
theorem utters_all : ∀ (as : List Api) (u : Ush), (∀ a ∈ as, ∃ s, cNul ∉ s ∧ (a = .print (.str s) ∨ a = .printNoNewline (.str s))) →
    ∃ b n p t st, runApis E u as = .ok (redirect u b n p t st) := by
  intro as
  induction as with
  | nil => intro u _; exact ⟨u.writeBuf, u.writeSize, u.writePos, u.writeNext, u.state, rfl⟩
  | cons a as ih =>
    intro u h
    have one : ∃ b n p t st, runApi E u a = .ok (redirect u b n p t st) := by
      obtain ⟨s, hs, rfl | rfl⟩ := h a (by simp)
      · refine ⟨.str s, s.length, 0, .reset, .writeChar, ?_⟩
        show writePointer u (.str s) .reset = _
        unfold writePointer
        simp only [ptrStr, cstrAt_zero s [] hs]
        rfl
      · refine ⟨.str s, s.length, 0, .resetPrompt, .writeChar, ?_⟩
        show writePointer u (.str s) .resetPrompt = _
        unfold writePointer
        simp only [ptrStr, cstrAt_zero s [] hs]
        rfl
    obtain ⟨b, n, p, t, st, e⟩ := one
    obtain ⟨b', n', p', t', st', e'⟩ := ih (redirect u b n p t st) (fun a ha => h a (by simp [ha]))
    exact ⟨b', n', p', t', st', by rw [runApis, e]; exact e'⟩

/-! ## xxd: the registers are set anew before anything is printed -/

theorem xxd_service (G : Getters) (io : Io) {u : Ush} {f : FileDesc} (hs : u.state = .processStart ∨ u.state = .processService) (hf : u.procFile = some f)
    (hq : f.process = some (.builtin .xxd)) : serviceG E G io u = assertM u.current.isSome >>= fun _ => xxdService E u >>= fun v => .ok (v, true) := by
  unfold serviceG
  rcases hs with hs | hs <;>
    (simp only [resetService, promptService, readService, autocompService, parseServiceG, writeService, processServiceG, processService, hs, hf, hq, M.ok_bind]
     congr 1; funext _
     cases xxdService E u <;> rfl)

theorem xxd_join (G : Getters) (io : Io) {u : Ush} {f : FileDesc} (hs : u.state = .processService) (hi : u.procIndex = 0) (hf : u.procFile = some f)
    (hq : f.process = some (.builtin .xxd)) (b : Ptr) (n p : Nat) (t : St) : serviceG E G io (redirect u b n p t .processService) = serviceG E G io u := by
  rw [xxd_service G io (u := redirect u b n p t .processService) (.inr rfl) hf hq, xxd_service G io (.inr hs) hf hq]
  have e : xxdService E (redirect u b n p t .processService) = xxdService E u := by
    have hi' : (redirect u b n p t .processService).procIndex = 0 := hi
    have hs' : (redirect u b n p t .processService).state = .processService := rfl
    unfold xxdService
    simp only [hs, hi, hi', hs']
    show (storeStr u.outBuf 0 (hex8 u.procItem ++ b!": ") >>= _) = _
    cases storeStr u.outBuf 0 (hex8 u.procItem ++ b!": ") with
    | error x => rfl
    | ok o => rfl
  rw [e]; rfl

theorem xxd_joins (G : Getters) {u : Ush} {f : FileDesc} (hs : u.state = .processStart) (hf : u.procFile = some f) (hq : f.process = some (.builtin .xxd)) (b : Ptr) (n p : Nat) (t : St)
    (inp : List UInt8) (s1 s2 : Slot) (ss : List Slot) : driveG E G (redirect u b n p t .processStart) inp (s1 :: s2 :: ss) = driveG E G u inp (s1 :: s2 :: ss) := by
  have d2 : ∀ {x y : Ush} (i : List UInt8), (∀ io, serviceG E G io x = serviceG E G io y) → x.state = .processService → y.state = .processService →
      driveG E G x i (s2 :: ss) = driveG E G y i (s2 :: ss) := by
    intro x y i h hx hy
    rw [driveG, driveG]
    unfold drive1G
    rw [h, hx, hy]
  have key : ∀ y : Ush, y.state = .processService → y.procIndex = 0 → y.procFile = some f → driveG E G (redirect y b n p t .processService) inp (s2 :: ss) = driveG E G y inp (s2 :: ss) := by
    intro y hy hi hf'
    exact d2 inp (fun io => xxd_join G io hy hi hf' hq b n p t) rfl hy
  rw [driveG, driveG]
  unfold drive1G
  rw [xxd_service G _ (u := redirect u b n p t .processStart) (.inl rfl) hf hq, xxd_service G _ (.inl hs) hf hq]
  cases hc : u.current.isSome with
  | false =>
    have hc' : (redirect u b n p t .processStart).current.isSome = false := hc
    rw [hc']; rfl
  | true =>
    have hc' : (redirect u b n p t .processStart).current.isSome = true := hc
    rw [hc']
    have e1 : xxdService E u = .ok { u with procIndex := 0, procItem := 0, state := .processService } := by unfold xxdService; rw [hs]
    have e2 : xxdService E (redirect u b n p t .processStart) = .ok (redirect { u with procIndex := 0, procItem := 0, state := .processService } b n p t .processService) := rfl
    have hs' : (redirect u b n p t .processStart).state = .processStart := rfl
    rw [e1, e2, hs, hs']
    simp only [assertM_true, M.ok_bind, M.pure_eq, reduceCtorEq, false_and, if_false]
    exact key { u with procIndex := 0, procItem := 0, state := .processService } rfl rfl hf

end Ush
