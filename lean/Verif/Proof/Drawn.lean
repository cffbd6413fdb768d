import Verif.Proof.Printf
import Verif.Proof.Log
/-!
# The output buffer in every history

Whenever the output buffer is the last thing printed or being printed, it holds a text as `ush_printf` expects it.
-/
namespace Ush
open Spec
variable {E : Env} {u v w : Ush}

/-- The invariant. -/
structure Drawn (E : Env) (u : Ush) : Prop where
  len : u.outBuf.length = E.outSize
  draws : u.writeBuf = .outBuf → ∃ P, Draws E P u

/-- What is being printed, and the output buffer, are the same. -/
structure SameOut (u v : Ush) : Prop where
  out : v.outBuf = u.outBuf
  buf : v.writeBuf = u.writeBuf
  pos : v.writePos = u.writePos
  size : v.writeSize = u.writeSize

theorem SameOut.trans (h1 : SameOut u v) (h2 : SameOut v w) : SameOut u w :=
  ⟨h2.out.trans h1.out, h2.buf.trans h1.buf, h2.pos.trans h1.pos, h2.size.trans h1.size⟩

theorem SameOut.refl (u : Ush) : SameOut u u := ⟨rfl, rfl, rfl, rfl⟩

theorem Draws.keep {P : Sheet} (H : Draws E P u) (K : SameOut u v) : Draws E P v :=
  { len := by rw [K.out]; exact H.len, clear := H.clear, buf := by rw [K.out]; exact H.buf, le := H.le
    write := by rw [K.buf, K.pos, K.size]; exact H.write, full := H.full }

theorem Drawn.keep (H : Drawn E u) (K : SameOut u v) : Drawn E v :=
  ⟨by rw [K.out]; exact H.len, fun h => by
    obtain ⟨P, hP⟩ := H.draws (by rw [← K.buf]; exact h)
    exact ⟨P, hP.keep K⟩⟩

theorem Drawn.emit (H : Drawn E u) (e : Event) : Drawn E (u.emit e) := H.keep ⟨rfl, rfl, rfl, rfl⟩

/-- Whatever the buffers have been, after `ush_write_pointer` the invariant holds. -/
theorem writePointer_drawn (hl : u.outBuf.length = E.outSize) {p : Ptr} {st : St} (h : writePointer u p st = .ok v) : Drawn E v := by
  unfold writePointer at h
  obtain ⟨_, _, h⟩ := M.bind_eq_ok.mp h
  obtain ⟨s, hs, h⟩ := M.bind_eq_ok.mp h
  cases h
  refine ⟨hl, fun hp => ?_⟩
  change p = .outBuf at hp
  subst hp
  have hs : cstrAt u.outBuf 0 = .ok s := hs
  unfold cstrAt at hs
  split at hs
  · rename_i hm
    cases hs
    obtain ⟨g1, g2⟩ := nulSplit (u.outBuf.drop 0)
    rw [List.drop_zero] at *
    rcases g2 with ⟨-, g2⟩ | ⟨r, g2⟩
    · exact absurd hm g2
    · exact ⟨{ text := u.outBuf.takeWhile (· ≠ cNul) }, { len := hl, clear := g1, buf := ⟨r, g2⟩, le := Nat.zero_le _, write := ⟨rfl, rfl, by simp [Sheet.bytes, writePointerBin]⟩, full := fun h => nomatch h }⟩
  · cases hs

theorem ushPrintf_drawn (H : Drawn E u) {f : Fmt} (h : ushPrintf E u f = .ok v) : Drawn E v := by
  have main : ∀ {w : Ush} {P : Sheet}, Draws E P w → ushPrintf E w f = .ok v → Drawn E v := by
    intro w P HP h
    have g := draws_printf HP f
    cases hq : P.printf E.outSize f with
    | none => rw [hq] at g; rw [g] at h; cases h
    | some Q =>
      rw [hq] at g
      obtain ⟨o, n, g1, g2⟩ := g
      rw [g1] at h
      cases h
      exact ⟨g2.len, fun _ => ⟨Q, g2⟩⟩
  by_cases hw : u.writeBuf = .outBuf
  · obtain ⟨P, HP⟩ := H.draws hw
    exact main HP h
  · cases hb : u.outBuf with
    | nil =>
      unfold ushPrintf at h
      rw [if_pos (by simpa using hw), hb] at h
      cases h
    | cons x t =>
      rw [ushPrintf_rewind hw hb] at h
      exact main (draws_rewind H.len hb) h

theorem SameOut.nodes {ns : NodeId → Node} : SameOut u { u with nodes := ns } := ⟨rfl, rfl, rfl, rfl⟩

theorem nodeUnmount_same {p : Str} {r : Ush × Status} (h : nodeUnmount E u p = .ok r) : SameOut u r.1 := by
  unfold nodeUnmount at h
  mgo h <;> (cases h; exact ⟨rfl, rfl, rfl, rfl⟩)

theorem nodeMount_same {p : Str} {i : NodeId} {fs : List FileDesc} {r : Ush × Status} (h : nodeMount E u p i fs = .ok r) : SameOut u r.1 := by
  unfold nodeMount at h
  mgo h <;> (cases h; exact ⟨rfl, rfl, rfl, rfl⟩)

theorem commandsAdd_same {i : NodeId} {fs : List FileDesc} {r : Ush × Status} (h : commandsAdd u i fs = .ok r) : SameOut u r.1 := by
  unfold commandsAdd at h
  mgo h
  cases h; exact ⟨rfl, rfl, rfl, rfl⟩

theorem commandsRemove_same {i : NodeId} {r : Ush × Status} (h : commandsRemove E u i = .ok r) : SameOut u r.1 := by
  unfold commandsRemove at h
  mgo h <;> (cases h; exact ⟨rfl, rfl, rfl, rfl⟩)

theorem setCurrentDir_same {p : Str} {r : Ush × Status} (h : setCurrentDir E u p = .ok r) : SameOut u r.1 := by
  unfold setCurrentDir at h
  mgo h <;> (cases h; exact ⟨rfl, rfl, rfl, rfl⟩)

/-- A call that prints, whatever is in the buffer. -/
theorem runApi_shows (hl : u.outBuf.length = E.outSize) {a : Api} (ha : a.Shows) (h : runApi E u a = .ok v) : Drawn E v := by
  cases a with
  | print p => exact writePointer_drawn hl h
  | printNoNewline p => exact writePointer_drawn hl h
  | printStatus s => exact writePointer_drawn hl h
  | flush => exact writePointer_drawn hl h
  | reset => exact writePointer_drawn (u := { u with current := u.root }) hl h
  | _ => cases ha

theorem runApi_drawn (H : Drawn E u) {a : Api} (ha : ∀ s, a ≠ .fillOut s) (h : runApi E u a = .ok v) : Drawn E v := by
  cases a with
  | print p => exact writePointer_drawn H.len h
  | printNoNewline p => exact writePointer_drawn H.len h
  | printStatus s => exact writePointer_drawn H.len h
  | printf f => exact ushPrintf_drawn H h
  | flush => exact writePointer_drawn H.len h
  | reset => exact writePointer_drawn (u := { u with current := u.root }) H.len h
  | mount p i fs =>
    obtain ⟨r, h1, h⟩ := M.bind_eq_ok.mp h
    cases h
    exact (H.keep (nodeMount_same h1)).keep ⟨rfl, rfl, rfl, rfl⟩
  | unmount p =>
    obtain ⟨r, h1, h⟩ := M.bind_eq_ok.mp h
    cases h
    exact (H.keep (nodeUnmount_same h1)).keep ⟨rfl, rfl, rfl, rfl⟩
  | setCurrentDir p =>
    obtain ⟨r, h1, h⟩ := M.bind_eq_ok.mp h
    cases h
    exact (H.keep (setCurrentDir_same h1)).keep ⟨rfl, rfl, rfl, rfl⟩
  | commandsAdd i fs =>
    obtain ⟨r, h1, h⟩ := M.bind_eq_ok.mp h
    cases h
    exact (H.keep (commandsAdd_same h1)).keep ⟨rfl, rfl, rfl, rfl⟩
  | commandsRemove i =>
    obtain ⟨r, h1, h⟩ := M.bind_eq_ok.mp h
    cases h
    exact (H.keep (commandsRemove_same h1)).keep ⟨rfl, rfl, rfl, rfl⟩
  | processStart f => cases h; exact H.keep ⟨rfl, rfl, rfl, rfl⟩
  | setState s => cases h; exact H.keep ⟨rfl, rfl, rfl, rfl⟩
  | fillOut s => exact absurd rfl (ha s)

theorem fillOut_len {s : Str} (hl : u.outBuf.length = E.outSize) (h : runApi E u (.fillOut s) = .ok v) : v.outBuf.length = E.outSize := by
  obtain ⟨r, h1, h⟩ := M.bind_eq_ok.mp h
  cases h
  exact (storeStr_length h1).trans hl

/-- The invariant holds, or the next call establishes it. -/
def Begins (E : Env) (u : Ush) (as : List (Option Api)) : Prop :=
  u.outBuf.length = E.outSize ∧ (Drawn E u ∨ ∃ a bs, as = some a :: bs ∧ a.Shows)

theorem Drawn.begins (H : Drawn E u) (as : List (Option Api)) : Begins E u as := ⟨H.len, .inl H⟩

theorem runApi_begins {a : Api} {as : List (Option Api)} (H : Begins E u (some a :: as)) (ht : Tidy (some a :: as)) (h : runApi E u a = .ok v) :
    Begins E v as ∧ Tidy as := by
  by_cases hf : ∃ s, a = .fillOut s
  · obtain ⟨s, rfl⟩ := hf
    exact ⟨⟨fillOut_len H.1 h, .inr ht.1⟩, ht.2⟩
  · refine ⟨?_, by cases a <;> first | exact ht | exact absurd ⟨_, rfl⟩ hf⟩
    rcases H.2 with H2 | ⟨b, bs, e, hb⟩
    · exact (runApi_drawn H2 (fun s e => hf ⟨s, e⟩) h).begins _
    · cases e
      exact (runApi_shows H.1 hb h).begins _

theorem runApis_drawn (as : List Api) {u v : Ush} (H : Drawn E u) (ht : Tidy (as.map some)) (h : runApis E u as = .ok v) : Drawn E v := by
  suffices g : ∀ (as : List Api) {u v : Ush}, Begins E u (as.map some) → Tidy (as.map some) → runApis E u as = .ok v → Drawn E v from g as (H.begins _) ht h
  intro as
  induction as with
  | nil =>
    intro u v H _ h
    cases h
    rcases H.2 with H2 | ⟨_, _, e, _⟩
    · exact H2
    · cases e
  | cons a as ih =>
    intro u v H ht h
    obtain ⟨w, h1, h2⟩ := M.bind_eq_ok.mp h
    obtain ⟨g1, g2⟩ := runApi_begins H ht h1
    exact ih g1 g2 h2

theorem appendStr_len {b o : List UInt8} {s : Str} (h : appendStr b s = .ok o) : o.length = b.length := by
  obtain ⟨_, _, h⟩ := M.bind_eq_ok.mp h
  exact storeStr_length h

theorem xxdHexLoop_len : ∀ (c off : Nat) {b o : List UInt8}, xxdHexLoop u c off b = .ok o → o.length = b.length := by
  intro c
  induction c with
  | zero => intro off b o h; cases h; rfl
  | succ c ih =>
    intro off b o h
    unfold xxdHexLoop at h
    obtain ⟨x, hx, h⟩ := M.bind_eq_ok.mp h
    refine (ih _ h).trans ?_
    split at hx
    · obtain ⟨_, _, hx⟩ := M.bind_eq_ok.mp hx
      exact appendStr_len hx
    · exact appendStr_len hx

theorem xxdTextLoop_len : ∀ (c off : Nat) {b : List UInt8} {r : List UInt8 × Nat}, xxdTextLoop u c off b = .ok r → r.1.length = b.length := by
  intro c
  induction c with
  | zero => intro off b o h; cases h; rfl
  | succ c ih =>
    intro off b o h
    unfold xxdTextLoop at h
    obtain ⟨x, hx, h⟩ := M.bind_eq_ok.mp h
    refine (ih _ h).trans ?_
    split at hx
    · obtain ⟨_, _, hx⟩ := M.bind_eq_ok.mp hx
      split at hx <;> exact appendStr_len hx
    · exact appendStr_len hx

theorem helpService_drawn (H : Drawn E u) (h : helpService E u = .ok v) : Drawn E v := by
  unfold helpService at h
  mgo h
  all_goals first
    | (cases h; exact H.keep ⟨rfl, rfl, rfl, rfl⟩)
    | exact writePointer_drawn (by exact H.len) h
    | (rename_i hb; exact writePointer_drawn (by exact (storeStr_length hb).trans H.len) h)

theorem lsService_drawn (H : Drawn E u) (h : lsService E u = .ok v) : Drawn E v := by
  unfold lsService at h
  mgo h
  all_goals first
    | (cases h; exact H.keep ⟨rfl, rfl, rfl, rfl⟩)
    | exact writePointer_drawn (by exact H.len) h
    | (rename_i hb; exact writePointer_drawn (by exact (storeStr_length hb).trans H.len) h)
    | (cases h; rename_i hw; exact (writePointer_drawn (by exact H.len) hw).keep ⟨rfl, rfl, rfl, rfl⟩)

theorem xxdService_drawn (H : Drawn E u) (h : xxdService E u = .ok v) : Drawn E v := by
  unfold xxdService at h
  split at h
  · cases h; exact H.keep ⟨rfl, rfl, rfl, rfl⟩
  · split at h
    · obtain ⟨o, h1, h⟩ := M.bind_eq_ok.mp h
      exact writePointer_drawn (by exact (storeStr_length h1).trans H.len) h
    · obtain ⟨o, h1, h⟩ := M.bind_eq_ok.mp h
      obtain ⟨o2, h2, h⟩ := M.bind_eq_ok.mp h
      obtain ⟨o3, h3, h⟩ := M.bind_eq_ok.mp h
      exact writePointer_drawn (by exact (appendStr_len h3).trans ((xxdHexLoop_len _ _ h2).trans ((wr_length h1).trans H.len))) h
    · obtain ⟨o, h1, h⟩ := M.bind_eq_ok.mp h
      obtain ⟨o2, h2, h⟩ := M.bind_eq_ok.mp h
      exact writePointer_drawn (by exact (xxdTextLoop_len _ _ h2).trans ((wr_length h1).trans H.len)) h
    · split at h
      · exact writePointer_drawn (by exact H.len) h
      · exact writePointer_drawn (by exact H.len) h
    · cases h
  · cases h; exact H.keep ⟨rfl, rfl, rfl, rfl⟩
  · cases h; exact H

theorem catService_drawn (H : Drawn E u) (h : catService E u = .ok v) : Drawn E v := by
  unfold catService at h
  mgo h
  all_goals (cases h)
  all_goals first
    | exact H
    | exact H.keep ⟨rfl, rfl, rfl, rfl⟩
    | skip
  rename_i e
  have e1 := congrArg Prod.fst e
  simp only [callGet] at e1
  subst e1
  exact ⟨H.len, fun h => nomatch h⟩

theorem processCall_drawn (hE : EnvTidy E) (H : Drawn E u) (h : processCall E u = .ok v) : Drawn E v := by
  unfold processCall at h
  split at h
  · cases h
  · split at h
    · cases h; exact H.keep ⟨rfl, rfl, rfl, rfl⟩
    · exact helpService_drawn H h
    · exact lsService_drawn H h
    · exact catService_drawn H h
    · exact xxdService_drawn H h
    · cases h
    · exact runApis_drawn _ (H.emit _) (hE.proc _ u) h

theorem echoDecode_same {argv : List Nat} {r : Ush × Nat × Nat} (h : echoDecode u argv = .ok r) : SameOut u r.1 := by
  unfold echoDecode at h
  obtain ⟨o, _, h⟩ := M.bind_eq_ok.mp h
  obtain ⟨m, hm, h⟩ := M.bind_eq_ok.mp h
  obtain ⟨y, hy, h⟩ := M.bind_eq_ok.mp h
  cases h
  exact ⟨rfl, rfl, rfl, rfl⟩

theorem callExec_drawn (hE : EnvTidy E) (H : Drawn E u) {f : FileDesc} {cb : Cb} {argv : List Nat} {strs : List Str}
    (h : callExec E u f cb argv strs = .ok v) : Drawn E v := by
  unfold callExec at h
  have H' := H.keep (v := u.emit (.exec cb strs)) ⟨rfl, rfl, rfl, rfl⟩
  simp only at h
  generalize u.emit (.exec cb strs) = w at h H'
  split at h
  · unfold helpCallback at h
    mgo h
    all_goals first
      | (cases h; exact H'.keep ⟨rfl, rfl, rfl, rfl⟩)
      | exact writePointer_drawn (by exact H'.len) h
  · unfold lsCallback at h
    mgo h
    all_goals first
      | (cases h; exact H'.keep ⟨rfl, rfl, rfl, rfl⟩)
      | exact writePointer_drawn (by exact H'.len) h
  · unfold cdCallback at h
    split at h
    · exact writePointer_drawn (by exact H'.len) h
    · obtain ⟨_, _, h⟩ := M.bind_eq_ok.mp h
      obtain ⟨_, _, h⟩ := M.bind_eq_ok.mp h
      obtain ⟨r, hr, h⟩ := M.bind_eq_ok.mp h
      have := H'.keep (setCurrentDir_same hr)
      simp only at h
      split at h
      · exact writePointer_drawn this.len h
      · cases h; exact this
  · unfold pwdCallback at h
    mgo h
    all_goals exact writePointer_drawn (by exact H'.len) h
  · unfold catCallback at h
    mgo h
    all_goals first
      | (cases h; exact H'.keep ⟨rfl, rfl, rfl, rfl⟩)
      | exact writePointer_drawn (by exact H'.len) h
  · unfold xxdCallback at h
    mgo h
    all_goals first
      | exact writePointer_drawn (by exact H'.len) h
      | (rename_i e; have e1 := congrArg Prod.fst e; simp only [callGet] at e1; subst e1; cases h; exact H'.keep ⟨rfl, rfl, rfl, rfl⟩)
  · unfold echoCallback at h
    split at h
    · obtain ⟨_, _, h⟩ := M.bind_eq_ok.mp h
      obtain ⟨_, _, h⟩ := M.bind_eq_ok.mp h
      split at h
      · exact writePointer_drawn (by exact H'.len) h
      · obtain ⟨_, _, h⟩ := M.bind_eq_ok.mp h
        obtain ⟨_, _, h⟩ := M.bind_eq_ok.mp h
        obtain ⟨r, hr, h⟩ := M.bind_eq_ok.mp h
        cases r with
        | none => exact writePointer_drawn (by exact H'.len) h
        | some g =>
          simp only at h
          cases hg : g.setData with
          | none => rw [hg] at h; exact writePointer_drawn (by exact H'.len) h
          | some id =>
            rw [hg] at h
            simp only at h
            obtain ⟨r, hd, h⟩ := M.bind_eq_ok.mp h
            unfold callSet at h
            exact runApis_drawn _ ((H'.keep (echoDecode_same hd)).emit _) (hE.set _ _ _) h
    · obtain ⟨r, hr, h⟩ := M.bind_eq_ok.mp h
      exact writePointer_drawn (H'.keep (echoDecode_same hr)).len h
    · cases h; exact H'.keep ⟨rfl, rfl, rfl, rfl⟩
    · exact writePointer_drawn (by exact H'.len) h
  · exact runApis_drawn _ H' (hE.exec _ _ _) h

theorem parseFinish_drawn (hE : EnvTidy E) (H : Drawn E u) (h : parseFinish E u = .ok v) : Drawn E v := by
  unfold parseFinish at h
  obtain ⟨argv, hargv, h⟩ := M.bind_eq_ok.mp h
  split at h
  · cases h; exact H
  · obtain ⟨strs, hstrs, h⟩ := M.bind_eq_ok.mp h
    obtain ⟨w, hw, h⟩ := M.bind_eq_ok.mp h
    have h1 : Drawn E w := by
      unfold callHook at hw
      split at hw
      · cases hw; exact H
      · rename_i k hk
        exact runApis_drawn _ (H.emit _) (hE.hook k hk strs u) hw
    obtain ⟨_, _, h⟩ := M.bind_eq_ok.mp h
    obtain ⟨_, _, h⟩ := M.bind_eq_ok.mp h
    obtain ⟨r, hr, h⟩ := M.bind_eq_ok.mp h
    cases r with
    | none => exact writePointer_drawn h1.len h
    | some f =>
      simp only at h
      cases he : f.exec with
      | none => rw [he] at h; exact writePointer_drawn h1.len h
      | some cb => rw [he] at h; exact callExec_drawn hE h1 h

theorem putOut_same {c : UInt8} (h : putOut u c = .ok v) : SameOut u v := by
  unfold putOut at h
  obtain ⟨b, hb, h⟩ := M.bind_eq_ok.mp h
  cases h; exact ⟨rfl, rfl, rfl, rfl⟩

theorem parseEscaped_same {c : UInt8} (h : parseEscaped u c = .ok v) : SameOut u v := by
  unfold parseEscaped at h
  obtain ⟨a, h1, h⟩ := M.bind_eq_ok.mp h
  obtain ⟨b, h2, h⟩ := M.bind_eq_ok.mp h
  cases h
  have k1 : SameOut u a := by
    split at h1
    · exact putOut_same h1
    · cases h1; exact .refl _
  have k2 := k1.trans (putOut_same h2)
  exact ⟨k2.out, k2.buf, k2.pos, k2.size⟩

theorem parseCharStandard_same {c : UInt8} (h : parseCharStandard u c = .ok v) : SameOut u v := by
  unfold parseCharStandard at h
  mgo h
  all_goals first
    | (cases h; exact ⟨rfl, rfl, rfl, rfl⟩)
    | exact putOut_same h
    | exact parseEscaped_same h
    | (cases h; rename_i hw; have hz := putOut_same hw; exact ⟨hz.out, hz.buf, hz.pos, hz.size⟩)

theorem parseChar_drawn (hE : EnvTidy E) (H : Drawn E u) (h : parseChar E u = .ok v) : Drawn E v := by
  unfold parseChar at h
  obtain ⟨ch, _, h⟩ := M.bind_eq_ok.mp h
  simp only at h
  have H1 := H.keep (v := { u with inPos := u.inPos + 1 }) ⟨rfl, rfl, rfl, rfl⟩
  split at h
  · obtain ⟨w, hw, h⟩ := M.bind_eq_ok.mp h
    exact parseFinish_drawn hE ((H1.keep (putOut_same hw)).keep (v := { w with state := .resetPrompt }) ⟨rfl, rfl, rfl, rfl⟩) h
  · exact H1.keep (parseCharStandard_same h)

theorem acOptimizeContinue_same (h : acOptimizeContinue E u = .ok v) : SameOut u v := by
  unfold acOptimizeContinue at h
  mgo h <;> (cases h; exact ⟨rfl, rfl, rfl, rfl⟩)

theorem acCandidatesProcess_drawn (H : Drawn E u) (h : acCandidatesProcess E u = .ok v) : Drawn E v := by
  unfold acCandidatesProcess at h
  split at h
  · unfold acCheckForFinish at h
    mgo h <;> (cases h; exact H.keep ⟨rfl, rfl, rfl, rfl⟩)
  · obtain ⟨r, h1, h⟩ := M.bind_eq_ok.mp h
    have e1 : SameOut u r.1 := by
      unfold acCheckForNext at h1
      mgo h1 <;> (cases h1; exact ⟨rfl, rfl, rfl, rfl⟩)
    simp only at h
    split at h
    · cases h; exact H.keep e1
    · obtain ⟨q, h2, h⟩ := M.bind_eq_ok.mp h
      have e2 : SameOut r.1 q.1 := by
        unfold acFilePrepare at h2
        mgo h2
        all_goals
          first
            | (cases h2; exact ⟨rfl, rfl, rfl, rfl⟩)
            | (simp only at h2; split at h2 <;> (cases h2; exact ⟨rfl, rfl, rfl, rfl⟩))
      split at h
      · cases h; exact H.keep (e1.trans e2)
      · have H2 := H.keep (e1.trans e2)
        unfold acFileIndex at h
        split at h
        · obtain ⟨nm, h3, h⟩ := M.bind_eq_ok.mp h
          obtain ⟨w, h4, h⟩ := M.bind_eq_ok.mp h
          cases h
          split at h4
          · exact (writePointer_drawn (by exact H2.len) h4).keep ⟨rfl, rfl, rfl, rfl⟩
          · cases h4; exact H2.keep ⟨rfl, rfl, rfl, rfl⟩
        · obtain ⟨w, h4, h⟩ := M.bind_eq_ok.mp h
          cases h
          split at h4
          · exact (writePointer_drawn (by exact H2.len) h4).keep ⟨rfl, rfl, rfl, rfl⟩
          · cases h4; exact H2.keep ⟨rfl, rfl, rfl, rfl⟩
        · mgo h <;> (cases h; exact H2.keep ⟨rfl, rfl, rfl, rfl⟩)
        · cases h

theorem acCandidatesFinish_drawn (H : Drawn E u) (h : acCandidatesFinish E u = .ok v) : Drawn E v := by
  unfold acCandidatesFinish at h
  mgo h
  all_goals first
    | (cases h; exact H.keep ⟨rfl, rfl, rfl, rfl⟩)
    | (have hz := acOptimizeContinue_same h; exact H.keep ⟨hz.out, hz.buf, hz.pos, hz.size⟩)
    | exact writePointer_drawn (by exact H.len) h

theorem readStart_same (h : readStart u = .ok v) : SameOut u v := by
  unfold readStart at h
  obtain ⟨b, hb, h⟩ := M.bind_eq_ok.mp h
  cases h; exact ⟨rfl, rfl, rfl, rfl⟩

theorem innerStep_drawn (hE : EnvTidy E) (H : Drawn E u) (h : innerStep E u = .ok v) : Drawn E v := by
  unfold innerStep at h
  split at h
  all_goals first
    | (cases h; exact H.keep ⟨rfl, rfl, rfl, rfl⟩)
    | exact writePointer_drawn (by exact H.len) h
    | exact parseChar_drawn hE H h
    | exact processCall_drawn hE H h
    | exact acCandidatesProcess_drawn H h
    | exact acCandidatesFinish_drawn H h
    | exact H.keep (readStart_same h)
    | skip
  · unfold promptPathStep at h
    mgo h
    all_goals exact writePointer_drawn (by exact H.len) h
  · unfold acStatePrepare at h
    mgo h
    cases h; exact H.keep ⟨rfl, rfl, rfl, rfl⟩
  · unfold acRecallSuffix at h
    mgo h
    all_goals exact writePointer_drawn (by exact H.len) h

theorem readEcho_drawn (H : Drawn E u) {c : UInt8} (h : readEcho u c = .ok v) : Drawn E v := by
  unfold readEcho at h
  obtain ⟨o, ho, h⟩ := M.bind_eq_ok.mp h
  refine writePointer_drawn ?_ h
  show o.length = _
  rw [← H.len]
  split at ho
  · obtain ⟨o1, h1, ho⟩ := M.bind_eq_ok.mp ho
    obtain ⟨o2, h2, h3⟩ := M.bind_eq_ok.mp ho
    exact (wr_length h3).trans ((wr_length h2).trans (wr_length h1))
  · split at ho
    · obtain ⟨o1, h1, ho⟩ := M.bind_eq_ok.mp ho
      obtain ⟨o2, h2, ho⟩ := M.bind_eq_ok.mp ho
      obtain ⟨o3, h3, h4⟩ := M.bind_eq_ok.mp ho
      exact (wr_length h4).trans ((wr_length h3).trans ((wr_length h2).trans (wr_length h1)))
    · obtain ⟨o1, h1, h2⟩ := M.bind_eq_ok.mp ho
      exact (wr_length h2).trans (wr_length h1)

theorem readCharByEscape_same {c : UInt8} {r : Ush × Bool} (h : readCharByEscape E u c = .ok r) : SameOut u r.1 := by
  unfold readCharByEscape at h
  mgo h <;> (cases h; exact ⟨rfl, rfl, rfl, rfl⟩)

theorem readChar_drawn (H : Drawn E u) {io : Io} {r : Ush × Bool} (h : readChar E io u = .ok r) : Drawn E r.1 := by
  unfold readChar at h
  cases hrd : io.rd with
  | none => rw [hrd] at h; cases h; exact H
  | some ch =>
    rw [hrd] at h
    simp only at h
    have H1 : Drawn E (u.emit (.inp ch)) := H.keep ⟨rfl, rfl, rfl, rfl⟩
    obtain ⟨p, h1, h⟩ := M.bind_eq_ok.mp h
    have e1 : Drawn E p.1 := by
      split at h1
      · obtain ⟨w, hw, h1⟩ := M.bind_eq_ok.mp h1
        cases h1; exact writePointer_drawn H1.len hw
      · split at h1
        · split at h1
          · obtain ⟨w, hw, h1⟩ := M.bind_eq_ok.mp h1
            cases h1; exact H1.keep ⟨rfl, rfl, rfl, rfl⟩
          · cases h1; exact H1
        · split at h1
          · cases h1; cases E.autocomplete <;> exact H1.keep ⟨rfl, rfl, rfl, rfl⟩
          · split at h1
            · cases h1; exact H1.keep ⟨rfl, rfl, rfl, rfl⟩
            · exact H1.keep (readCharByEscape_same h1)
    obtain ⟨w, hw, h⟩ := M.bind_eq_ok.mp h
    cases h
    split at hw
    · exact readEcho_drawn e1 hw
    · cases hw; exact e1

theorem writeChar_drawn (H : Drawn E u) {io : Io} (h : writeChar io u = .ok v) : Drawn E v := by
  unfold writeChar at h
  split at h
  · cases h; exact H.keep ⟨rfl, rfl, rfl, rfl⟩
  · rename_i hlt
    obtain ⟨ch, _, h⟩ := M.bind_eq_ok.mp h
    split at h
    · cases h
      refine ⟨H.len, fun hb => ?_⟩
      obtain ⟨P, HP⟩ := H.draws hb
      obtain ⟨w1, w2, w3⟩ := HP.write
      exact ⟨{ P with sent := P.sent + 1 }, { len := HP.len, clear := HP.clear, buf := HP.buf, le := by show P.sent + 1 ≤ P.bytes.length; omega, write := ⟨w1, by show u.writePos + 1 = P.sent + 1; rw [w2], w3⟩, full := HP.full }⟩
    · cases h; exact H

theorem service_drawn (hE : EnvTidy E) (H : Drawn E u) {io : Io} {r : Ush × Bool} (h : service E io u = .ok r) : Drawn E r.1 := by
  cases hc : u.current.isSome with
  | false => rw [service_noroot E io u hc] at h; cases h
  | true =>
    rw [service_eq E io u hc] at h
    split at h
    · exact readChar_drawn H h
    · obtain ⟨v, hv, h⟩ := M.bind_eq_ok.mp h
      cases h; exact H.keep (readStart_same hv)
    · obtain ⟨v, hv, h⟩ := M.bind_eq_ok.mp h
      cases h; exact writeChar_drawn H hv
    · obtain ⟨v, hv, h⟩ := M.bind_eq_ok.mp h
      cases h; exact innerStep_drawn hE H hv

theorem step_drawn (hE : EnvTidy E) (H : Drawn E u) {o : Op} (ho : o.call = none) (h : step E u o = .ok v) : Drawn E v := by
  cases o with
  | service io =>
    obtain ⟨r, hr, h⟩ := M.bind_eq_ok.mp h
    cases h; exact service_drawn hE H hr
  | api a => cases ho
  | init =>
    unfold step ushInit at h
    obtain ⟨_, _, h⟩ := M.bind_eq_ok.mp h
    obtain ⟨_, _, h⟩ := M.bind_eq_ok.mp h
    obtain ⟨w, hw, h⟩ := M.bind_eq_ok.mp h
    have H0 := H.keep (v := { u with root := none }) ⟨rfl, rfl, rfl, rfl⟩
    have H1 : Drawn E w := by
      split at hw
      · obtain ⟨r, hr, hw⟩ := M.bind_eq_ok.mp hw
        cases hw
        exact H0.keep (commandsAdd_same hr)
      · cases hw; exact H0
    exact writePointer_drawn (by exact H1.len) h
  | deinit =>
    obtain ⟨ns, hn, h⟩ := M.bind_eq_ok.mp h
    cases h
    exact ⟨H.len, fun h => nomatch h⟩

theorem run_begins (hE : EnvTidy E) : ∀ (os : List Op) {u v : Ush}, Begins E u (os.map Op.call) → Tidy (os.map Op.call) → run E u os = .ok v → Drawn E v := by
  intro os
  induction os with
  | nil =>
    intro u v H _ h
    cases h
    rcases H.2 with H2 | ⟨_, _, e, _⟩
    · exact H2
    · cases e
  | cons o os ih =>
    intro u v H ht h
    obtain ⟨w, h1, h2⟩ := M.bind_eq_ok.mp h
    cases ho : o.call with
    | some a =>
      cases o with
      | api b =>
        cases ho
        obtain ⟨g1, g2⟩ := runApi_begins H ht h1
        exact ih g1 g2 h2
      | _ => cases ho
    | none =>
      rw [List.map_cons, ho] at H ht
      rcases H.2 with H2 | ⟨_, _, e, _⟩
      · exact ih ((step_drawn hE H2 ho h1).begins _) ht h2
      · cases e

/-- In every history the invariant holds. -/
theorem run_drawn (hE : EnvTidy E) (os : List Op) {u v : Ush} (H : Drawn E u) (ht : Tidy (os.map Op.call)) (h : run E u os = .ok v) : Drawn E v :=
  run_begins hE os (H.begins _) ht h

theorem Draws.sheet {P : Sheet} (H : Draws E P u) : { P with fin := false } = sheet u := by
  obtain ⟨t, hb⟩ := H.buf
  obtain ⟨w1, w2, w3⟩ := H.write
  have e : u.outBuf.takeWhile (· ≠ cNul) = P.text := by
    rw [hb, List.takeWhile_append_of_pos (fun x hx => by simp; rintro rfl; exact H.clear hx)]
    simp
  unfold Spec.sheet
  rw [if_pos w1, e, w2, w3]
  congr 1
  unfold Sheet.bytes
  cases P.nul <;> simp

theorem Drawn.sheet (H : Drawn E u) (hw : u.writeBuf = .outBuf) : Draws E (Spec.sheet u) u := by
  obtain ⟨P, HP⟩ := H.draws hw
  rw [← HP.sheet]
  exact { len := HP.len, clear := HP.clear, buf := HP.buf, le := HP.le, write := HP.write, full := HP.full }

/-- Service calls with pending input are a history. -/
theorem drive_run : ∀ (ss : List Slot) {u v : Ush} {inp r : List UInt8}, drive E u inp ss = .ok (v, r) → ∃ ios : List Io, run E u (ios.map .service) = .ok v := by
  intro ss
  induction ss with
  | nil => intro u v inp r h; cases h; exact ⟨[], rfl⟩
  | cons s ss ih =>
    intro u v inp r h
    obtain ⟨p, h1, h2⟩ := M.bind_eq_ok.mp h
    unfold drive1 at h1
    obtain ⟨q, hq, h1⟩ := M.bind_eq_ok.mp h1
    cases h1
    obtain ⟨ios, hi⟩ := ih h2
    refine ⟨⟨if s.ready then inp.head? else none, s.accept⟩ :: ios, ?_⟩
    rw [List.map_cons, run, step, hq]
    exact hi

theorem tidy_services : ∀ ios : List Io, Tidy ((ios.map Op.service).map Op.call) := by
  intro ios
  induction ios with
  | nil => trivial
  | cons i ios ih => exact ih

theorem tidy_append : ∀ {as bs : List (Option Api)}, Tidy as → Tidy bs → Tidy (as ++ bs) := by
  intro as
  induction as with
  | nil => intro bs _ h; exact h
  | cons a as ih =>
    intro bs h1 h2
    by_cases hf : ∃ s, a = some (.fillOut s)
    · obtain ⟨s, rfl⟩ := hf
      obtain ⟨⟨b, cs, e, hb⟩, h1⟩ := h1
      exact ⟨⟨b, cs ++ bs, by rw [e]; rfl, hb⟩, ih h1 h2⟩
    · have h1' : Tidy as := by
        cases a with
        | none => exact h1
        | some a => cases a <;> first | exact h1 | exact absurd ⟨_, rfl⟩ hf
      have := ih h1' h2
      cases a with
      | none => exact this
      | some a => cases a <;> first | exact this | exact absurd ⟨_, rfl⟩ hf

theorem tidy_steps (os : List FsOp) : Tidy ((steps os).map Op.call) := by
  show Tidy ((os.map (fun o => Op.api o.api)).map Op.call)
  induction os with
  | nil => trivial
  | cons o os ih => cases o <;> exact ih

end Ush
