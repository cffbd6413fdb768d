import Verif.Proof.Drawn
import Verif.Spec.Notes
/-!
# While a line is read

Nothing is left to be printed, and if the output buffer has been the last thing printed, it held at most three bytes (the echo of a key).
-/
namespace Ush
open Spec
variable {E : Env} {u v w : Ush}

/-- What is printed from the output buffer is an echo. -/
def Short (u : Ush) : Prop := u.writeBuf = .outBuf → u.writeSize ≤ 3

/-- The invariant. -/
structure Calm (u : Ush) : Prop where
  typing : isTyping u.state = true → u.writeSize ≤ u.writePos ∧ Short u
  next : u.state = .writeChar → isTyping u.writeNext = true → Short u

/-- No line is being read. -/
structure Away (u : Ush) : Prop where
  state : isTyping u.state = false
  next : u.state = .writeChar → isTyping u.writeNext = false

theorem Away.calm (H : Away u) : Calm u := ⟨fun h => (nomatch H.state.symm.trans h), fun h1 h2 => (nomatch (H.next h1).symm.trans h2)⟩

theorem Away.same (H : Away u) (h1 : v.state = u.state) (h2 : v.writeNext = u.writeNext) : Away v :=
  ⟨by rw [h1]; exact H.state, by rw [h1, h2]; exact H.next⟩

theorem writePointer_away {p : Ptr} {st : St} (hs : isTyping st = false) (h : writePointer u p st = .ok v) : Away v := by
  unfold writePointer at h
  mgo h
  cases h
  exact ⟨rfl, fun _ => hs⟩

theorem writePointer_calm {p : Ptr} {st : St} (hp : p ≠ .outBuf) (h : writePointer u p st = .ok v) : Calm v := by
  unfold writePointer at h
  mgo h
  cases h
  exact ⟨fun h => (nomatch h), fun _ _ h => absurd h hp⟩

/-- Another state, nothing else that matters. -/
theorem Calm.move (H : Calm u) (h1 : isTyping u.state = true) (h2 : v.writeSize = u.writeSize) (h3 : v.writePos = u.writePos) (h4 : v.writeBuf = u.writeBuf)
    (h5 : v.state ≠ .writeChar) : Calm v :=
  ⟨fun _ => by obtain ⟨a, b⟩ := H.typing h1; exact ⟨by rw [h2, h3]; exact a, by unfold Short; rw [h2, h4]; exact b⟩, fun h => absurd h h5⟩

theorem printfError_away {msg : Str} (H : Away u) (h : printfError E u msg = .ok v) : Away v := by
  unfold printfError at h
  mgo h
  all_goals (cases h; exact H.same rfl rfl)

theorem ushPrintf_away {f : Fmt} (h : ushPrintf E u f = .ok v) : Away v := by
  unfold ushPrintf at h
  obtain ⟨w, hw, h⟩ := M.bind_eq_ok.mp h
  have A : Away w := by
    split at hw
    · obtain ⟨o, _, hw⟩ := M.bind_eq_ok.mp hw
      exact writePointer_away rfl hw
    · cases hw; exact ⟨rfl, fun _ => rfl⟩
  obtain ⟨i, _, h⟩ := M.bind_eq_ok.mp h
  obtain ⟨b, _, h⟩ := M.bind_eq_ok.mp h
  obtain ⟨r, _, h⟩ := M.bind_eq_ok.mp h
  cases f with
  | error s => exact printfError_away (u := { w with outBuf := b, writeSize := w.writeSize + r }) (A.same rfl rfl) h
  | text s =>
    simp only at h
    split at h
    · exact printfError_away (u := { w with outBuf := b, writeSize := w.writeSize + r }) (A.same rfl rfl) h
    · cases h; exact A.same rfl rfl

/-- State, next state and what is printed are the same. -/
structure SameTy (u v : Ush) : Prop where
  state : v.state = u.state
  next : v.writeNext = u.writeNext
  buf : v.writeBuf = u.writeBuf
  pos : v.writePos = u.writePos
  size : v.writeSize = u.writeSize

theorem Calm.keep (H : Calm u) (K : SameTy u v) : Calm v :=
  ⟨by rw [K.state, K.size, K.pos]; unfold Short; rw [K.buf, K.size]; exact H.typing, by rw [K.state, K.next]; unfold Short; rw [K.buf, K.size]; exact H.next⟩

theorem Away.keep (H : Away u) (K : SameTy u v) : Away v := H.same K.state K.next

theorem nodeUnmount_ty {p : Str} {r : Ush × Status} (h : nodeUnmount E u p = .ok r) : SameTy u r.1 := by
  unfold nodeUnmount at h
  mgo h <;> (cases h; exact ⟨rfl, rfl, rfl, rfl, rfl⟩)

theorem nodeMount_ty {p : Str} {i : NodeId} {fs : List FileDesc} {r : Ush × Status} (h : nodeMount E u p i fs = .ok r) : SameTy u r.1 := by
  unfold nodeMount at h
  mgo h <;> (cases h; exact ⟨rfl, rfl, rfl, rfl, rfl⟩)

theorem commandsAdd_ty {i : NodeId} {fs : List FileDesc} {r : Ush × Status} (h : commandsAdd u i fs = .ok r) : SameTy u r.1 := by
  unfold commandsAdd at h
  mgo h
  cases h; exact ⟨rfl, rfl, rfl, rfl, rfl⟩

theorem commandsRemove_ty {i : NodeId} {r : Ush × Status} (h : commandsRemove E u i = .ok r) : SameTy u r.1 := by
  unfold commandsRemove at h
  mgo h <;> (cases h; exact ⟨rfl, rfl, rfl, rfl, rfl⟩)

theorem setCurrentDir_ty {p : Str} {r : Ush × Status} (h : setCurrentDir E u p = .ok r) : SameTy u r.1 := by
  unfold setCurrentDir at h
  mgo h <;> (cases h; exact ⟨rfl, rfl, rfl, rfl, rfl⟩)

/-- A library call leaves what matters as it is, or no line is read afterwards. -/
theorem runApi_ty {a : Api} (ha : a.Polite) (h : runApi E u a = .ok v) : SameTy u v ∨ Away v := by
  have em : ∀ {w : Ush} {e : Event}, SameTy u w → SameTy u (w.emit e) := fun k => ⟨k.state, k.next, k.buf, k.pos, k.size⟩
  cases a with
  | print p => exact .inr (writePointer_away rfl h)
  | printNoNewline p => exact .inr (writePointer_away rfl h)
  | printStatus s => exact .inr (writePointer_away rfl h)
  | printf f => exact .inr (ushPrintf_away h)
  | flush => exact .inr (writePointer_away rfl h)
  | reset => exact .inr (writePointer_away rfl h)
  | mount p i fs =>
    obtain ⟨r, h1, h⟩ := M.bind_eq_ok.mp h
    cases h; exact .inl (em (nodeMount_ty h1))
  | unmount p =>
    obtain ⟨r, h1, h⟩ := M.bind_eq_ok.mp h
    cases h; exact .inl (em (nodeUnmount_ty h1))
  | setCurrentDir p =>
    obtain ⟨r, h1, h⟩ := M.bind_eq_ok.mp h
    cases h; exact .inl (em (setCurrentDir_ty h1))
  | commandsAdd i fs =>
    obtain ⟨r, h1, h⟩ := M.bind_eq_ok.mp h
    cases h; exact .inl (em (commandsAdd_ty h1))
  | commandsRemove i =>
    obtain ⟨r, h1, h⟩ := M.bind_eq_ok.mp h
    cases h; exact .inl (em (commandsRemove_ty h1))
  | processStart f => cases h; exact .inr ⟨rfl, fun h => nomatch h⟩
  | setState s => cases h; exact .inr ⟨(ha s rfl).1, fun h => absurd h (ha s rfl).2⟩
  | fillOut s =>
    obtain ⟨r, h1, h⟩ := M.bind_eq_ok.mp h
    cases h; exact .inl ⟨rfl, rfl, rfl, rfl, rfl⟩

theorem runApis_away : ∀ (as : List Api) {u v : Ush}, (∀ a ∈ as, a.Polite) → Away u → runApis E u as = .ok v → Away v := by
  intro as
  induction as with
  | nil => intro u v _ H h; cases h; exact H
  | cons a as ih =>
    intro u v ha H h
    obtain ⟨w, h1, h2⟩ := M.bind_eq_ok.mp h
    refine ih (fun b hb => ha b (.tail _ hb)) ?_ h2
    rcases runApi_ty (ha a (.head _)) h1 with k | k
    · exact H.keep k
    · exact k

theorem runApis_calm : ∀ (as : List Api) {u v : Ush}, (∀ a ∈ as, a.Polite) → Calm u → runApis E u as = .ok v → Calm v := by
  intro as
  induction as with
  | nil => intro u v _ H h; cases h; exact H
  | cons a as ih =>
    intro u v ha H h
    obtain ⟨w, h1, h2⟩ := M.bind_eq_ok.mp h
    refine ih (fun b hb => ha b (.tail _ hb)) ?_ h2
    rcases runApi_ty (ha a (.head _)) h1 with k | k
    · exact H.keep k
    · exact k.calm

/-- The states of a process. -/
def inProc (s : St) : Bool := s == .processStart || s == .processService || s == .processFinish

theorem inProc_typing {s : St} (h : inProc s = true) : isTyping s = false := by cases s <;> first | rfl | cases h

theorem away_of {s : St} (hs : isTyping s = false) (hw : s ≠ .writeChar) (h : u.state = s) : Away u :=
  ⟨by rw [h]; exact hs, fun k => absurd (h.symm.trans k) hw⟩

theorem helpService_away (H : Away u) (hs : inProc u.state = true) (h : helpService E u = .ok v) : Away v := by
  have ht := inProc_typing hs
  unfold helpService at h
  mgo h
  all_goals first
    | exact writePointer_away (by exact ht) h
    | (cases h; exact H.same rfl rfl)
    | (cases h; exact ⟨rfl, fun h => by cases h⟩)

theorem lsService_away (H : Away u) (hs : inProc u.state = true) (h : lsService E u = .ok v) : Away v := by
  have ht := inProc_typing hs
  unfold lsService at h
  mgo h
  all_goals first
    | exact writePointer_away (by exact ht) h
    | (cases h; exact H.same rfl rfl)
    | (cases h; exact ⟨rfl, fun h => by cases h⟩)
    | (cases h; rename_i hw; exact (writePointer_away rfl hw).same rfl rfl)

theorem xxdService_away (H : Away u) (hs : inProc u.state = true) (h : xxdService E u = .ok v) : Away v := by
  have ht := inProc_typing hs
  unfold xxdService at h
  mgo h
  all_goals first
    | exact writePointer_away rfl h
    | exact writePointer_away (by exact ht) h
    | (cases h; exact H.same rfl rfl)
    | (cases h; exact ⟨rfl, fun h => by cases h⟩)

theorem catService_away (H : Away u) (hs : inProc u.state = true) (h : catService E u = .ok v) : Away v := by
  have ht := inProc_typing hs
  unfold catService at h
  mgo h
  all_goals (cases h)
  all_goals first
    | exact H
    | exact H.same rfl rfl
    | (rename_i e; have e1 := congrArg Prod.fst e; simp only [callGet] at e1; subst e1; exact ⟨rfl, fun _ => ht⟩)
    | exact ⟨rfl, fun h => by cases h⟩

theorem processCall_away (hE : EnvPolite E) (H : Away u) (hs : inProc u.state = true) (h : processCall E u = .ok v) : Away v := by
  unfold processCall at h
  split at h
  · cases h
  · split at h
    · cases h; exact ⟨rfl, fun h => by cases h⟩
    · exact helpService_away H hs h
    · exact lsService_away H hs h
    · exact catService_away H hs h
    · exact xxdService_away H hs h
    · cases h
    · exact runApis_away _ (hE.procP _ u) (by exact H.same rfl rfl) h

theorem echoDecode_ty {argv : List Nat} {r : Ush × Nat × Nat} (h : echoDecode u argv = .ok r) : SameTy u r.1 := by
  unfold echoDecode at h
  obtain ⟨o, _, h⟩ := M.bind_eq_ok.mp h
  obtain ⟨m, hm, h⟩ := M.bind_eq_ok.mp h
  obtain ⟨y, hy, h⟩ := M.bind_eq_ok.mp h
  cases h
  exact ⟨rfl, rfl, rfl, rfl, rfl⟩

theorem callExec_away (hE : EnvPolite E) (H : Away u) {f : FileDesc} {cb : Cb} {argv : List Nat} {strs : List Str}
    (h : callExec E u f cb argv strs = .ok v) : Away v := by
  unfold callExec at h
  have H' := H.same (v := u.emit (.exec cb strs)) rfl rfl
  simp only at h
  generalize u.emit (.exec cb strs) = w at h H'
  split at h
  · unfold helpCallback at h
    mgo h
    all_goals first
      | (cases h; exact ⟨rfl, fun h => by cases h⟩)
      | exact writePointer_away rfl h
  · unfold lsCallback at h
    mgo h
    all_goals first
      | (cases h; exact ⟨rfl, fun h => by cases h⟩)
      | exact writePointer_away rfl h
  · unfold cdCallback at h
    split at h
    · exact writePointer_away rfl h
    · obtain ⟨_, _, h⟩ := M.bind_eq_ok.mp h
      obtain ⟨_, _, h⟩ := M.bind_eq_ok.mp h
      obtain ⟨r, hr, h⟩ := M.bind_eq_ok.mp h
      have := H'.keep (setCurrentDir_ty hr)
      simp only at h
      split at h
      · exact writePointer_away rfl h
      · cases h; exact this
  · unfold pwdCallback at h
    mgo h
    all_goals exact writePointer_away rfl h
  · unfold catCallback at h
    mgo h
    all_goals first
      | (cases h; exact ⟨rfl, fun h => by cases h⟩)
      | exact writePointer_away rfl h
  · unfold xxdCallback at h
    mgo h
    all_goals first
      | exact writePointer_away rfl h
      | (cases h; exact ⟨rfl, fun h => by cases h⟩)
  · unfold echoCallback at h
    split at h
    · obtain ⟨_, _, h⟩ := M.bind_eq_ok.mp h
      obtain ⟨_, _, h⟩ := M.bind_eq_ok.mp h
      split at h
      · exact writePointer_away rfl h
      · obtain ⟨_, _, h⟩ := M.bind_eq_ok.mp h
        obtain ⟨_, _, h⟩ := M.bind_eq_ok.mp h
        obtain ⟨r, hr, h⟩ := M.bind_eq_ok.mp h
        cases r with
        | none => exact writePointer_away rfl h
        | some g =>
          simp only at h
          cases hg : g.setData with
          | none => rw [hg] at h; exact writePointer_away rfl h
          | some id =>
            rw [hg] at h
            simp only at h
            obtain ⟨r, hd, h⟩ := M.bind_eq_ok.mp h
            unfold callSet at h
            exact runApis_away _ (hE.setP _ _ _) (by exact (H'.keep (echoDecode_ty hd)).same rfl rfl) h
    · obtain ⟨r, hr, h⟩ := M.bind_eq_ok.mp h
      exact writePointer_away rfl h
    · cases h; exact ⟨rfl, fun h => by cases h⟩
    · exact writePointer_away rfl h
  · exact runApis_away _ (hE.execP _ _ _) H' h

theorem parseFinish_away (hE : EnvPolite E) (H : Away u) (h : parseFinish E u = .ok v) : Away v := by
  unfold parseFinish at h
  obtain ⟨argv, hargv, h⟩ := M.bind_eq_ok.mp h
  split at h
  · cases h; exact H
  · obtain ⟨strs, hstrs, h⟩ := M.bind_eq_ok.mp h
    obtain ⟨w, hw, h⟩ := M.bind_eq_ok.mp h
    have h1 : Away w := by
      unfold callHook at hw
      split at hw
      · cases hw; exact H
      · rename_i k hk
        exact runApis_away _ (hE.hookP k hk strs u) (by exact H.same rfl rfl) hw
    obtain ⟨_, _, h⟩ := M.bind_eq_ok.mp h
    obtain ⟨_, _, h⟩ := M.bind_eq_ok.mp h
    obtain ⟨r, hr, h⟩ := M.bind_eq_ok.mp h
    cases r with
    | none => exact writePointer_away rfl h
    | some f =>
      simp only at h
      cases he : f.exec with
      | none => rw [he] at h; exact writePointer_away rfl h
      | some cb => rw [he] at h; exact callExec_away hE h1 h

theorem putOut_ty {c : UInt8} (h : putOut u c = .ok v) : SameTy u v := by
  unfold putOut at h
  obtain ⟨b, hb, h⟩ := M.bind_eq_ok.mp h
  cases h; exact ⟨rfl, rfl, rfl, rfl, rfl⟩

theorem parseEscaped_ty {c : UInt8} (h : parseEscaped u c = .ok v) : SameTy u v := by
  unfold parseEscaped at h
  obtain ⟨a, h1, h⟩ := M.bind_eq_ok.mp h
  obtain ⟨b, h2, h⟩ := M.bind_eq_ok.mp h
  cases h
  have k2 := putOut_ty h2
  split at h1
  · have k1 := putOut_ty h1
    exact ⟨k2.state.trans k1.state, k2.next.trans k1.next, k2.buf.trans k1.buf, k2.pos.trans k1.pos, k2.size.trans k1.size⟩
  · cases h1; exact ⟨k2.state, k2.next, k2.buf, k2.pos, k2.size⟩

theorem parseCharStandard_away (H : Away u) {c : UInt8} (h : parseCharStandard u c = .ok v) : Away v := by
  unfold parseCharStandard at h
  mgo h
  all_goals first
    | (cases h; exact H.same rfl rfl)
    | (cases h; exact ⟨rfl, fun h => by cases h⟩)
    | exact H.keep (putOut_ty h)
    | exact H.keep (parseEscaped_ty h)

theorem parseChar_away (hE : EnvPolite E) (H : Away u) (h : parseChar E u = .ok v) : Away v := by
  unfold parseChar at h
  obtain ⟨ch, _, h⟩ := M.bind_eq_ok.mp h
  simp only at h
  split at h
  · obtain ⟨w, hw, h⟩ := M.bind_eq_ok.mp h
    exact parseFinish_away hE (by exact ⟨rfl, fun h => by cases h⟩) h
  · exact parseCharStandard_away (by exact H.same rfl rfl) h

theorem acOptimizeContinue_calm (H : Calm u) (hs : isTyping u.state = true) (h : acOptimizeContinue E u = .ok v) : Calm v := by
  unfold acOptimizeContinue at h
  mgo h <;> (cases h; exact H.move hs rfl rfl rfl (fun h => by cases h))

theorem typing_write {s : St} (h : isTyping s = true) : s ≠ .writeChar := by rintro rfl; cases h

theorem acCandidatesProcess_calm (H : Calm u) (hs : isTyping u.state = true) (h : acCandidatesProcess E u = .ok v) : Calm v := by
  unfold acCandidatesProcess at h
  split at h
  · unfold acCheckForFinish at h
    mgo h <;> (cases h; first | exact H.keep ⟨rfl, rfl, rfl, rfl, rfl⟩ | exact H.move hs rfl rfl rfl (fun h => by cases h))
  · obtain ⟨r, h1, h⟩ := M.bind_eq_ok.mp h
    have e1 : SameTy u r.1 := by
      unfold acCheckForNext at h1
      mgo h1 <;> (cases h1; exact ⟨rfl, rfl, rfl, rfl, rfl⟩)
    simp only at h
    split at h
    · cases h; exact H.keep e1
    · obtain ⟨q, h2, h⟩ := M.bind_eq_ok.mp h
      have e2 : SameTy r.1 q.1 := by
        unfold acFilePrepare at h2
        mgo h2
        all_goals
          first
            | (cases h2; exact ⟨rfl, rfl, rfl, rfl, rfl⟩)
            | (simp only at h2; split at h2 <;> (cases h2; exact ⟨rfl, rfl, rfl, rfl, rfl⟩))
      split at h
      · cases h; exact (H.keep e1).keep e2
      · have H2 := (H.keep e1).keep e2
        unfold acFileIndex at h
        split at h
        · obtain ⟨nm, h3, h⟩ := M.bind_eq_ok.mp h
          obtain ⟨w, h4, h⟩ := M.bind_eq_ok.mp h
          cases h
          split at h4
          · exact (writePointer_calm (by nofun) h4).keep ⟨rfl, rfl, rfl, rfl, rfl⟩
          · cases h4; exact H2.keep ⟨rfl, rfl, rfl, rfl, rfl⟩
        · obtain ⟨w, h4, h⟩ := M.bind_eq_ok.mp h
          cases h
          split at h4
          · exact (writePointer_calm (by nofun) h4).keep ⟨rfl, rfl, rfl, rfl, rfl⟩
          · cases h4; exact H2.keep ⟨rfl, rfl, rfl, rfl, rfl⟩
        · mgo h <;> (cases h; exact H2.keep ⟨rfl, rfl, rfl, rfl, rfl⟩)
        · cases h

theorem acCandidatesFinish_calm (H : Calm u) (hs : isTyping u.state = true) (h : acCandidatesFinish E u = .ok v) : Calm v := by
  unfold acCandidatesFinish at h
  split at h
  · cases h; exact H.move hs rfl rfl rfl (fun h => by cases h)
  · split at h
    · cases h; exact H.move hs rfl rfl rfl (fun h => by cases h)
    · obtain ⟨len, _, h⟩ := M.bind_eq_ok.mp h
      split at h
      · cases h
      · obtain ⟨b, _, h⟩ := M.bind_eq_ok.mp h
        obtain ⟨p, _, h⟩ := M.bind_eq_ok.mp h
        exact writePointer_calm (by nofun) h
    · exact acOptimizeContinue_calm (by exact H.keep ⟨rfl, rfl, rfl, rfl, rfl⟩) (by exact hs) h
  · split at h
    · obtain ⟨b, _, h⟩ := M.bind_eq_ok.mp h
      split at h
      · cases h
      · cases h; exact H.move hs rfl rfl rfl (fun h => by cases h)
    · exact acOptimizeContinue_calm H hs h
  · cases h

theorem readStart_calm (H : Calm u) (hs : isTyping u.state = true) (h : readStart u = .ok v) : Calm v := by
  unfold readStart at h
  obtain ⟨b, hb, h⟩ := M.bind_eq_ok.mp h
  cases h; exact H.move hs rfl rfl rfl (fun h => by cases h)

theorem innerStep_calm (hE : EnvPolite E) (H : Calm u) (h : innerStep E u = .ok v) : Calm v := by
  unfold innerStep at h
  split at h
  all_goals rename_i hs
  all_goals first
    | exact writePointer_calm (by nofun) h
    | (cases h; exact H)
    | (cases h; exact (Away.calm ⟨rfl, fun h => by cases h⟩))
    | (cases h; exact H.move (by rw [hs]; rfl) rfl rfl rfl (fun h => by cases h))
    | exact (parseChar_away hE (away_of rfl (by nofun) hs) h).calm
    | exact (processCall_away hE (away_of rfl (by nofun) hs) (by rw [hs]; rfl) h).calm
    | exact acCandidatesProcess_calm H (by rw [hs]; rfl) h
    | exact acCandidatesFinish_calm H (by rw [hs]; rfl) h
    | exact readStart_calm H (by rw [hs]; rfl) h
    | skip
  · unfold promptPathStep at h
    mgo h
    all_goals exact writePointer_calm (by nofun) h
  · unfold acStatePrepare at h
    mgo h
    cases h; exact H.move (by rw [hs]; rfl) rfl rfl rfl (fun h => by cases h)
  · unfold acRecallSuffix at h
    mgo h
    all_goals exact writePointer_calm (by nofun) h

/-- A string ends in front of a NUL byte. -/
theorem cstrAt_le {b : List UInt8} {s : Str} {k : Nat} (h : cstrAt b 0 = .ok s) (hk : b[k]? = some cNul) : s.length ≤ k := by
  unfold cstrAt at h
  split at h
  · cases h
    rw [List.drop_zero]
    rcases Nat.lt_or_ge k (b.takeWhile (· ≠ cNul)).length with h | h
    · exfalso
      have e := List.getElem?_eq_getElem h
      have m := List.mem_takeWhile_imp (List.getElem_mem h)
      have p := List.takeWhile_append_dropWhile (l := b) (p := (· ≠ cNul))
      rw [← List.getElem?_append_left (l₂ := b.dropWhile (· ≠ cNul)) h, p, hk] at e
      simp only [Option.some.injEq] at e
      rw [← e] at m
      simp at m
    · exact h
  · cases h

theorem wr_at {b o : List UInt8} {c : UInt8} {i : Nat} (h : wr b i c = .ok o) : o[i]? = some c := by
  unfold wr at h
  split at h
  · cases h; rename_i hi; simp [hi]
  · cases h

theorem readEcho_calm {c : UInt8} (h : readEcho u c = .ok v) : Calm v := by
  unfold readEcho at h
  obtain ⟨o, ho, h⟩ := M.bind_eq_ok.mp h
  have ho : ∃ k ≤ 3, o[k]? = some cNul := by
    mgo ho
    · exact ⟨2, by omega, wr_at ho⟩
    · exact ⟨3, by omega, wr_at ho⟩
    · exact ⟨1, by omega, wr_at ho⟩
  obtain ⟨k, hk, ho⟩ := ho
  unfold writePointer at h
  obtain ⟨_, _, h⟩ := M.bind_eq_ok.mp h
  obtain ⟨s, hs, h⟩ := M.bind_eq_ok.mp h
  cases h
  refine ⟨fun h => ?_, fun _ _ _ => Nat.le_trans (cstrAt_le hs ho) hk⟩
  cases h

theorem readCharByEscape_ty {c : UInt8} {r : Ush × Bool} (h : readCharByEscape E u c = .ok r) : SameTy u r.1 := by
  unfold readCharByEscape at h
  mgo h <;> (cases h; exact ⟨rfl, rfl, rfl, rfl, rfl⟩)

theorem readChar_calm (H : Calm u) (hs : u.state = .readChar) {io : Io} {r : Ush × Bool} (h : readChar E io u = .ok r) : Calm r.1 := by
  unfold readChar at h
  cases hrd : io.rd with
  | none => rw [hrd] at h; cases h; exact H
  | some ch =>
    rw [hrd] at h
    simp only at h
    have H1 : Calm (u.emit (.inp ch)) := H.keep ⟨rfl, rfl, rfl, rfl, rfl⟩
    have ht : isTyping (u.emit (.inp ch)).state = true := by rw [show (u.emit (.inp ch)).state = u.state from rfl, hs]; rfl
    obtain ⟨p, h1, h⟩ := M.bind_eq_ok.mp h
    have e1 : Calm p.1 := by
      split at h1
      · obtain ⟨w, hw, h1⟩ := M.bind_eq_ok.mp h1
        cases h1; exact writePointer_calm (by nofun) hw
      · split at h1
        · split at h1
          · obtain ⟨w, hw, h1⟩ := M.bind_eq_ok.mp h1
            cases h1; exact H1.keep ⟨rfl, rfl, rfl, rfl, rfl⟩
          · cases h1; exact H1
        · split at h1
          · cases h1
            cases E.autocomplete
            · exact H1
            · exact H1.move ht rfl rfl rfl (fun h => by cases h)
          · split at h1
            · cases h1; exact H1.keep ⟨rfl, rfl, rfl, rfl, rfl⟩
            · exact H1.keep (readCharByEscape_ty h1)
    obtain ⟨w, hw, h⟩ := M.bind_eq_ok.mp h
    cases h
    split at hw
    · exact readEcho_calm hw
    · cases hw; exact e1

theorem writeChar_calm (H : Calm u) (hs : u.state = .writeChar) {io : Io} (h : writeChar io u = .ok v) : Calm v := by
  unfold writeChar at h
  split at h
  · rename_i hle
    cases h
    refine ⟨fun ht => ⟨hle, H.next hs ht⟩, fun h1 h2 => ?_⟩
    exact H.next hs h2
  · obtain ⟨ch, _, h⟩ := M.bind_eq_ok.mp h
    split at h
    · cases h
      refine ⟨fun ht => ?_, fun _ h => H.next hs h⟩
      have ht : isTyping u.state = true := ht
      rw [hs] at ht
      cases ht
    · cases h; exact H

theorem service_calm (hE : EnvPolite E) (H : Calm u) {io : Io} {r : Ush × Bool} (h : service E io u = .ok r) : Calm r.1 := by
  cases hc : u.current.isSome with
  | false => rw [service_noroot E io u hc] at h; cases h
  | true =>
    rw [service_eq E io u hc] at h
    split at h
    · rename_i hs; exact readChar_calm H hs h
    · rename_i hs
      obtain ⟨v, hv, h⟩ := M.bind_eq_ok.mp h
      cases h; exact readStart_calm H (by rw [hs]; rfl) hv
    · rename_i hs
      obtain ⟨v, hv, h⟩ := M.bind_eq_ok.mp h
      cases h; exact writeChar_calm H hs hv
    · obtain ⟨v, hv, h⟩ := M.bind_eq_ok.mp h
      cases h; exact innerStep_calm hE H hv

theorem step_calm (hE : EnvPolite E) (H : Calm u) {o : Op} (ho : o.Polite) (h : step E u o = .ok v) : Calm v := by
  cases o with
  | service io =>
    obtain ⟨r, hr, h⟩ := M.bind_eq_ok.mp h
    cases h; exact service_calm hE H hr
  | api a =>
    rcases runApi_ty (ho a rfl) h with k | k
    · exact H.keep k
    · exact k.calm
  | init =>
    unfold step ushInit at h
    obtain ⟨_, _, h⟩ := M.bind_eq_ok.mp h
    obtain ⟨_, _, h⟩ := M.bind_eq_ok.mp h
    obtain ⟨w, hw, h⟩ := M.bind_eq_ok.mp h
    exact (writePointer_away rfl h).calm
  | deinit =>
    obtain ⟨ns, hn, h⟩ := M.bind_eq_ok.mp h
    cases h
    exact Away.calm ⟨rfl, fun h => by cases h⟩

/-- In every history the invariant holds. -/
theorem run_calm (hE : EnvPolite E) : ∀ (os : List Op) {u v : Ush}, Calm u → (∀ o ∈ os, o.Polite) → run E u os = .ok v → Calm v := by
  intro os
  induction os with
  | nil => intro u v H _ h; cases h; exact H
  | cons o os ih =>
    intro u v H ho h
    obtain ⟨w, h1, h2⟩ := M.bind_eq_ok.mp h
    exact ih (step_calm hE H (ho o (.head _)) h1) (fun b hb => ho b (.tail _ hb)) h2

end Ush
