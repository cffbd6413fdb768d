import Verif.Proof.Service
import Verif.Spec.Sched
/-!
# What one step adds to the log
-/
namespace Ush

/-- Decompose a successful computation `h : … = .ok v` into its successful steps. -/
syntax "mgo " ident : tactic
macro_rules
  | `(tactic| mgo $h:ident) => `(tactic|
      repeat' (first
        | (simp only [M.pure_eq, Except.ok.injEq, reduceCtorEq, Prod.mk.injEq, Option.some.injEq] at $h:ident; done)
        | (rw [M.bind_eq_ok] at $h:ident; obtain ⟨_, _, $h:ident⟩ := $h:ident)
        | split at $h:ident))

/-- `v` has the log of `u` plus events that are not I/O. -/
def LogExt (u v : Ush) : Prop := ∃ l, v.log = u.log ++ l ∧ ∀ e ∈ l, e.isIo = false

theorem LogExt.of_eq {u v : Ush} (h : v.log = u.log) : LogExt u v := ⟨[], by simp [h], by simp⟩

theorem LogExt.trans {u v w : Ush} (h1 : LogExt u v) (h2 : LogExt v w) : LogExt u w := by
  obtain ⟨l1, e1, n1⟩ := h1
  obtain ⟨l2, e2, n2⟩ := h2
  refine ⟨l1 ++ l2, by rw [e2, e1]; simp, ?_⟩
  intro e he
  rcases List.mem_append.mp he with h | h
  · exact n1 e h
  · exact n2 e h

theorem LogExt.emit (u : Ush) (e : Event) (h : e.isIo = false) : LogExt u (u.emit e) := ⟨[e], rfl, by simpa using h⟩

theorem LogExt.left {u u' v : Ush} (h : LogExt u' v) (e : u'.log = u.log) : LogExt u v := by
  obtain ⟨l, h1, h2⟩ := h; exact ⟨l, by rw [h1, e], h2⟩

theorem LogExt.right {u v v' : Ush} (h : LogExt u v) (e : v'.log = v.log) : LogExt u v' := by
  obtain ⟨l, h1, h2⟩ := h; exact ⟨l, by rw [e, h1], h2⟩

theorem writePointer_log {u v : Ush} {p : Ptr} {st : St} (h : writePointer u p st = .ok v) : v.log = u.log := by
  unfold writePointer at h
  mgo h
  cases h; rfl

theorem printfError_log {E : Env} {u v : Ush} {m : Str} (h : printfError E u m = .ok v) : v.log = u.log := by
  unfold printfError at h
  mgo h <;> (cases h; rfl)

theorem ushPrintf_log {E : Env} {u v : Ush} {f : Fmt} (h : ushPrintf E u f = .ok v) : v.log = u.log := by
  unfold ushPrintf at h
  obtain ⟨u1, h1, h⟩ := M.bind_eq_ok.mp h
  have e1 : u1.log = u.log := by
    split at h1
    · obtain ⟨o, _, h1⟩ := M.bind_eq_ok.mp h1
      rw [writePointer_log h1]
    · cases h1; rfl
  obtain ⟨_, _, h⟩ := M.bind_eq_ok.mp h
  obtain ⟨_, _, h⟩ := M.bind_eq_ok.mp h
  obtain ⟨_, _, h⟩ := M.bind_eq_ok.mp h
  split at h
  · rw [printfError_log h, e1]
  · split at h
    · rw [printfError_log h, e1]
    · cases h; exact e1

theorem nodeMount_log {E : Env} {u : Ush} {p : Str} {i : NodeId} {fs : List FileDesc} {r : Ush × Status}
    (h : nodeMount E u p i fs = .ok r) : r.1.log = u.log := by
  unfold nodeMount at h
  mgo h <;> (cases h; rfl)

theorem nodeUnmount_log {E : Env} {u : Ush} {p : Str} {r : Ush × Status}
    (h : nodeUnmount E u p = .ok r) : r.1.log = u.log := by
  unfold nodeUnmount at h
  mgo h <;> (cases h; rfl)

theorem setCurrentDir_log {E : Env} {u : Ush} {p : Str} {r : Ush × Status}
    (h : setCurrentDir E u p = .ok r) : r.1.log = u.log := by
  unfold setCurrentDir at h
  mgo h <;> (cases h; rfl)

theorem commandsAdd_log {u : Ush} {i : NodeId} {fs : List FileDesc} {r : Ush × Status}
    (h : commandsAdd u i fs = .ok r) : r.1.log = u.log := by
  unfold commandsAdd at h
  mgo h <;> (cases h; rfl)

theorem commandsRemove_log {E : Env} {u : Ush} {i : NodeId} {r : Ush × Status}
    (h : commandsRemove E u i = .ok r) : r.1.log = u.log := by
  unfold commandsRemove at h
  mgo h <;> (cases h; rfl)

theorem runApi_log {E : Env} {u v : Ush} {a : Api} (h : runApi E u a = .ok v) : LogExt u v := by
  cases a with
  | print p => (have hz := writePointer_log h; exact .of_eq hz)
  | printNoNewline p => (have hz := writePointer_log h; exact .of_eq hz)
  | printStatus s => (have hz := writePointer_log h; exact .of_eq hz)
  | printf f => exact .of_eq (ushPrintf_log h)
  | flush => (have hz := writePointer_log h; exact .of_eq hz)
  | reset => exact .of_eq (by have := writePointer_log h; exact this)
  | mount p i fs =>
    obtain ⟨r, h1, h⟩ := M.bind_eq_ok.mp h
    cases h
    exact (LogExt.emit _ _ rfl).left (nodeMount_log h1)
  | unmount p =>
    obtain ⟨r, h1, h⟩ := M.bind_eq_ok.mp h
    cases h
    exact (LogExt.emit _ _ rfl).left (nodeUnmount_log h1)
  | setCurrentDir p =>
    obtain ⟨r, h1, h⟩ := M.bind_eq_ok.mp h
    cases h
    exact (LogExt.emit _ _ rfl).left (setCurrentDir_log h1)
  | commandsAdd i fs =>
    obtain ⟨r, h1, h⟩ := M.bind_eq_ok.mp h
    cases h
    exact (LogExt.emit _ _ rfl).left (commandsAdd_log h1)
  | commandsRemove i =>
    obtain ⟨r, h1, h⟩ := M.bind_eq_ok.mp h
    cases h
    exact (LogExt.emit _ _ rfl).left (commandsRemove_log h1)
  | processStart f => cases h; exact .of_eq rfl
  | setState s => cases h; exact .of_eq rfl
  | fillOut s =>
    obtain ⟨r, h1, h⟩ := M.bind_eq_ok.mp h
    cases h; exact .of_eq rfl

theorem runApis_log {E : Env} : ∀ (as : List Api) {u v : Ush}, runApis E u as = .ok v → LogExt u v := by
  intro as
  induction as with
  | nil => intro u v h; cases h; exact .of_eq rfl
  | cons a as ih =>
    intro u v h
    obtain ⟨w, h1, h2⟩ := M.bind_eq_ok.mp h
    exact (runApi_log h1).trans (ih h2)

theorem printStatus_log {E : Env} {u v : Ush} {s : Status} (h : printStatus E u s = .ok v) : v.log = u.log :=
  writePointer_log h

theorem catService_log {E : Env} {u v : Ush} (h : catService E u = .ok v) : LogExt u v := by
  unfold catService at h
  split at h
  · cases h; exact .of_eq rfl
  · split at h
    · cases h; exact .of_eq rfl
    · obtain ⟨_, _, h⟩ := M.bind_eq_ok.mp h
      obtain ⟨_, _, h⟩ := M.bind_eq_ok.mp h
      obtain ⟨_, _, h⟩ := M.bind_eq_ok.mp h
      obtain ⟨r, _, h⟩ := M.bind_eq_ok.mp h
      cases r with
      | none => cases h
      | some f =>
        simp only at h
        cases hg : f.getData with
        | none => rw [hg] at h; cases h
        | some id =>
          rw [hg] at h
          simp only [callGet] at h
          cases hd : E.userGet id u with
          | none => rw [hd] at h; cases h
          | some d => rw [hd] at h; cases h; exact LogExt.emit _ _ rfl
  · cases h; exact .of_eq rfl
  · cases h; exact .of_eq rfl

theorem helpService_log {E : Env} {u v : Ush} (h : helpService E u = .ok v) : v.log = u.log := by
  unfold helpService at h
  mgo h
  all_goals first
    | (cases h; rfl)
    | (have hz := writePointer_log h; exact hz)

theorem lsService_log {E : Env} {u v : Ush} (h : lsService E u = .ok v) : v.log = u.log := by
  unfold lsService at h
  mgo h
  all_goals first
    | (cases h; rfl)
    | (have hz := writePointer_log h; exact hz)
    | (cases h; rename_i hw; have := writePointer_log hw; exact this)

theorem xxdService_log {E : Env} {u v : Ush} (h : xxdService E u = .ok v) : v.log = u.log := by
  unfold xxdService at h
  mgo h
  all_goals first
    | (cases h; rfl)
    | (have hz := writePointer_log h; exact hz)

theorem processCall_log {E : Env} {u v : Ush} (h : processCall E u = .ok v) : LogExt u v := by
  unfold processCall at h
  split at h
  · cases h
  · split at h
    · cases h; exact .of_eq rfl
    · exact .of_eq (helpService_log h)
    · exact .of_eq (lsService_log h)
    · exact catService_log h
    · exact .of_eq (xxdService_log h)
    · cases h
    · exact (LogExt.emit _ _ rfl).trans (runApis_log _ h)

theorem callExec_log {E : Env} {u v : Ush} {f : FileDesc} {cb : Cb} {argv : List Nat} {strs : List Str}
    (h : callExec E u f cb argv strs = .ok v) : LogExt u v := by
  unfold callExec at h
  refine LogExt.trans (LogExt.emit u (.exec cb strs) rfl) ?_
  simp only at h
  generalize u.emit (.exec cb strs) = w at h
  split at h
  · unfold helpCallback at h
    mgo h
    all_goals first
      | (cases h; exact .of_eq rfl)
      | (have hz := writePointer_log h; exact .of_eq hz)
  · unfold lsCallback at h
    mgo h
    all_goals first
      | (cases h; exact .of_eq rfl)
      | exact .of_eq (by have := writePointer_log h; exact this)
  · unfold cdCallback at h
    split at h
    · (have hz := writePointer_log h; exact .of_eq hz)
    · obtain ⟨_, _, h⟩ := M.bind_eq_ok.mp h
      obtain ⟨_, _, h⟩ := M.bind_eq_ok.mp h
      obtain ⟨r, hr, h⟩ := M.bind_eq_ok.mp h
      have := setCurrentDir_log hr
      simp only at h
      split at h
      · exact .of_eq ((writePointer_log h).trans this)
      · cases h; exact .of_eq this
  · unfold pwdCallback at h
    mgo h
    all_goals (have hz := writePointer_log h; exact .of_eq hz)
  · unfold catCallback at h
    mgo h
    all_goals first
      | (cases h; exact .of_eq rfl)
      | (have hz := writePointer_log h; exact .of_eq hz)
  · unfold xxdCallback at h
    split at h
    · (have hz := writePointer_log h; exact .of_eq hz)
    · obtain ⟨_, _, h⟩ := M.bind_eq_ok.mp h
      obtain ⟨_, _, h⟩ := M.bind_eq_ok.mp h
      obtain ⟨r, _, h⟩ := M.bind_eq_ok.mp h
      cases r with
      | none => (have hz := writePointer_log h; exact .of_eq hz)
      | some f =>
        simp only at h
        cases hg : f.getData with
        | none => rw [hg] at h; (have hz := writePointer_log h; exact .of_eq hz)
        | some id =>
          rw [hg] at h
          simp only [callGet] at h
          cases hd : E.userGet id w with
          | none => rw [hd] at h; cases h; exact LogExt.emit _ _ rfl
          | some d => rw [hd] at h; cases h; exact LogExt.emit _ _ rfl
  · have hdec : ∀ {a : List Nat} {r : Ush × Nat × Nat}, echoDecode w a = .ok r → r.1.log = w.log := by
      intro a r hr
      unfold echoDecode at hr
      mgo hr
      cases hr; rfl
    unfold echoCallback at h
    split at h
    · obtain ⟨_, _, h⟩ := M.bind_eq_ok.mp h
      obtain ⟨_, _, h⟩ := M.bind_eq_ok.mp h
      split at h
      · (have hz := writePointer_log h; exact .of_eq hz)
      · obtain ⟨_, _, h⟩ := M.bind_eq_ok.mp h
        obtain ⟨_, _, h⟩ := M.bind_eq_ok.mp h
        obtain ⟨r, _, h⟩ := M.bind_eq_ok.mp h
        cases r with
        | none => (have hz := writePointer_log h; exact .of_eq hz)
        | some f =>
          simp only at h
          cases hg : f.setData with
          | none => rw [hg] at h; (have hz := writePointer_log h; exact .of_eq hz)
          | some id =>
            rw [hg] at h
            simp only at h
            obtain ⟨r, hr, h⟩ := M.bind_eq_ok.mp h
            unfold callSet at h
            exact (LogExt.of_eq (hdec hr)).trans ((LogExt.emit _ _ rfl).trans (runApis_log _ h))
    · obtain ⟨r, hr, h⟩ := M.bind_eq_ok.mp h
      exact .of_eq ((writePointer_log h).trans (hdec hr))
    · cases h; exact .of_eq rfl
    · (have hz := writePointer_log h; exact .of_eq hz)
  · exact runApis_log _ h

theorem parseFinish_log {E : Env} {u v : Ush} (h : parseFinish E u = .ok v) : LogExt u v := by
  unfold parseFinish at h
  obtain ⟨argv, _, h⟩ := M.bind_eq_ok.mp h
  split at h
  · cases h; exact .of_eq rfl
  · obtain ⟨strs, _, h⟩ := M.bind_eq_ok.mp h
    obtain ⟨w, hw, h⟩ := M.bind_eq_ok.mp h
    have h1 : LogExt u w := by
      unfold callHook at hw
      split at hw
      · cases hw; exact .of_eq rfl
      · exact (LogExt.emit _ _ rfl).trans (runApis_log _ hw)
    refine h1.trans ?_
    obtain ⟨_, _, h⟩ := M.bind_eq_ok.mp h
    obtain ⟨_, _, h⟩ := M.bind_eq_ok.mp h
    obtain ⟨r, _, h⟩ := M.bind_eq_ok.mp h
    cases r with
    | none => (have hz := writePointer_log h; exact .of_eq hz)
    | some f =>
      simp only at h
      cases he : f.exec with
      | none => rw [he] at h; (have hz := writePointer_log h; exact .of_eq hz)
      | some cb => rw [he] at h; exact callExec_log h

theorem putOut_log {u v : Ush} {c : UInt8} (h : putOut u c = .ok v) : v.log = u.log := by
  unfold putOut at h
  mgo h
  cases h; rfl

theorem parseEscaped_log {u v : Ush} {c : UInt8} (h : parseEscaped u c = .ok v) : v.log = u.log := by
  unfold parseEscaped at h
  obtain ⟨a, h1, h⟩ := M.bind_eq_ok.mp h
  obtain ⟨b, h2, h⟩ := M.bind_eq_ok.mp h
  cases h
  have : a.log = u.log := by
    split at h1
    · exact putOut_log h1
    · cases h1; rfl
  rw [← this]; have h3 := putOut_log h2; exact h3

theorem parseCharStandard_log {u v : Ush} {c : UInt8} (h : parseCharStandard u c = .ok v) : v.log = u.log := by
  unfold parseCharStandard at h
  mgo h
  all_goals first
    | (cases h; rfl)
    | exact putOut_log h
    | exact parseEscaped_log h
    | (cases h; rename_i hw; have := putOut_log hw; exact this)

theorem parseChar_log {E : Env} {u v : Ush} (h : parseChar E u = .ok v) : LogExt u v := by
  unfold parseChar at h
  obtain ⟨ch, _, h⟩ := M.bind_eq_ok.mp h
  simp only at h
  split at h
  · obtain ⟨w, hw, h⟩ := M.bind_eq_ok.mp h
    exact LogExt.left (parseFinish_log h) (by have := putOut_log hw; exact this)
  · exact .of_eq (by have := parseCharStandard_log h; exact this)

theorem acOptimizeContinue_log {E : Env} {u v : Ush} (h : acOptimizeContinue E u = .ok v) : v.log = u.log := by
  unfold acOptimizeContinue at h
  mgo h <;> (cases h; rfl)

theorem acCandidatesProcess_log {E : Env} {u v : Ush} (h : acCandidatesProcess E u = .ok v) : v.log = u.log := by
  unfold acCandidatesProcess at h
  split at h
  · unfold acCheckForFinish at h
    mgo h <;> (cases h; rfl)
  · obtain ⟨r, h1, h⟩ := M.bind_eq_ok.mp h
    have e1 : r.1.log = u.log := by
      unfold acCheckForNext at h1
      mgo h1 <;> (cases h1; rfl)
    simp only at h
    split at h
    · cases h; exact e1
    · obtain ⟨q, h2, h⟩ := M.bind_eq_ok.mp h
      have e2 : q.1.log = r.1.log := by
        unfold acFilePrepare at h2
        mgo h2
        all_goals
          first
            | (cases h2; rfl)
            | (simp only at h2; split at h2 <;> (cases h2; rfl))
      split at h
      · cases h; rw [e2, e1]
      · rw [← e1, ← e2]
        unfold acFileIndex at h
        split at h
        · obtain ⟨nm, h3, h⟩ := M.bind_eq_ok.mp h
          obtain ⟨w, h4, h⟩ := M.bind_eq_ok.mp h
          cases h
          split at h4
          · (have hz := writePointer_log h4; exact hz)
          · cases h4; rfl
        · obtain ⟨w, h4, h⟩ := M.bind_eq_ok.mp h
          cases h
          split at h4
          · (have hz := writePointer_log h4; exact hz)
          · cases h4; rfl
        · mgo h <;> (cases h; rfl)
        · cases h

theorem acCandidatesFinish_log {E : Env} {u v : Ush} (h : acCandidatesFinish E u = .ok v) : v.log = u.log := by
  unfold acCandidatesFinish at h
  mgo h
  all_goals first
    | (cases h; rfl)
    | (have := writePointer_log h; exact this)
    | (have := acOptimizeContinue_log h; exact this)

theorem innerStep_log {E : Env} {u v : Ush} (h : innerStep E u = .ok v) : LogExt u v := by
  unfold innerStep at h
  split at h
  all_goals first
    | (cases h; exact .of_eq rfl)
    | (have hz := writePointer_log h; exact .of_eq hz)
    | exact parseChar_log h
    | exact processCall_log h
    | exact .of_eq (acCandidatesProcess_log h)
    | exact .of_eq (acCandidatesFinish_log h)
    | skip
  · unfold promptPathStep at h
    mgo h
    all_goals (have hz := writePointer_log h; exact .of_eq hz)
  · unfold readStart at h
    mgo h
    cases h; exact .of_eq rfl
  · unfold acStatePrepare at h
    mgo h
    cases h; exact .of_eq rfl
  · unfold acRecallSuffix at h
    mgo h
    all_goals (have := writePointer_log h; exact .of_eq this)

theorem readEcho_log {u v : Ush} {c : UInt8} (h : readEcho u c = .ok v) : v.log = u.log := by
  unfold readEcho at h
  obtain ⟨o, _, h⟩ := M.bind_eq_ok.mp h
  have hz := writePointer_log h
  exact hz

theorem readCharByEscape_log {E : Env} {u : Ush} {c : UInt8} {r : Ush × Bool} (h : readCharByEscape E u c = .ok r) :
    r.1.log = u.log := by
  unfold readCharByEscape at h
  mgo h <;> (cases h; rfl)

theorem readChar_log {E : Env} {io : Io} {u : Ush} {r : Ush × Bool} (h : readChar E io u = .ok r) :
    r.1.log = u.log ++ (io.rd.map Event.inp).toList := by
  unfold readChar at h
  cases hrd : io.rd with
  | none => rw [hrd] at h; cases h; simp
  | some ch =>
    rw [hrd] at h
    simp only at h
    obtain ⟨p, h1, h⟩ := M.bind_eq_ok.mp h
    have e1 : p.1.log = u.log ++ [.inp ch] := by
      split at h1
      · obtain ⟨w, hw, h1⟩ := M.bind_eq_ok.mp h1
        cases h1; exact writePointer_log hw
      · split at h1
        · split at h1
          · obtain ⟨w, hw, h1⟩ := M.bind_eq_ok.mp h1
            cases h1; rfl
          · cases h1; rfl
        · split at h1
          · cases h1; cases E.autocomplete <;> rfl
          · split at h1
            · cases h1; rfl
            · exact readCharByEscape_log h1
    obtain ⟨w, hw, h⟩ := M.bind_eq_ok.mp h
    cases h
    have e2 : w.log = p.1.log := by
      split at hw
      · exact readEcho_log hw
      · cases hw; rfl
    simp [e2, e1]

end Ush
