import Verif.Spec.Calls
import Verif.Proof.Session
import Verif.Proof.Frame
/-!
# Library calls made by callbacks
-/
namespace Ush
open Spec

/-- The shell is in the middle of the callback with the history `T`. -/
structure Talks (E : Env) (T : Talk) (u : Ush) : Prop where
  sized : Sized E u
  rep : WInv E u T.world
  nul : cNul ∉ T.buf
  buf : ∃ t, u.outBuf = T.buf ++ cNul :: t
  pend : match T.pend with
    | .text s nl => u.state = .writeChar ∧ u.writeBuf = .str s ∧ u.writePos = 0 ∧ u.writeSize = s.length ∧
        u.writeNext = (if nl then .reset else .resetPrompt) ∧ cNul ∉ s
    | .buf k => k ≤ T.buf.length ∧ u.writeBuf = .outBuf ∧ u.writePos = k ∧ u.writeSize = T.buf.length ∧
        ((u.state = .writeChar ∧ u.writeNext = .resetPrompt) ∨ (u.state = .resetPrompt ∧ k = T.buf.length))

theorem storeStr_at {a t s : List UInt8} {x : UInt8} (h : (a ++ s).length < (a ++ x :: t).length) :
    ∃ t', storeStr (a ++ x :: t) a.length s = .ok (a ++ s ++ cNul :: t') := by
  rw [storeStr_ok (by simpa using h)]
  exact ⟨_, by rw [List.take_left', List.append_assoc, List.append_assoc, List.append_assoc]; rfl; rfl⟩

theorem storeStr_zero {b s : List UInt8} (h : s.length < b.length) : ∃ t', storeStr b 0 s = .ok (s ++ cNul :: t') := by
  rw [storeStr_ok (by simpa using h)]
  exact ⟨_, by rw [List.take_zero, List.nil_append, List.append_assoc]; rfl⟩

theorem strlenAt_append {a s rest : List UInt8} (hs : cNul ∉ s) : strlenAt (a ++ (s ++ cNul :: rest)) a.length = .ok s.length := by
  unfold strlenAt; rw [cstrAt_append a s rest hs]; rfl

theorem strlenAt_zero {s rest : List UInt8} (hs : cNul ∉ s) : strlenAt (s ++ cNul :: rest) 0 = .ok s.length := by
  unfold strlenAt; rw [cstrAt_zero s rest hs]; rfl

/-- `ush_printf` of a text that fits behind the text in the output buffer. -/
theorem ushPrintf_append {E : Env} {u : Ush} {a s t : Str} (hz : Sized E u) (hw : u.writeBuf = .outBuf) (hb : u.outBuf = a ++ cNul :: t)
    (ha : cNul ∉ a) (hs : cNul ∉ s) (hf : a.length + s.length < E.outSize) :
    ∃ t', (a ++ s ++ cNul :: t').length = E.outSize ∧ ushPrintf E u (.text s) =
      .ok { u with state := .writeChar, writeNext := .resetPrompt, outBuf := a ++ s ++ cNul :: t', writeSize := u.writeSize + s.length } := by
  have hlen : (a ++ cNul :: t).length = E.outSize := by rw [← hb]; exact hz.outLen
  obtain ⟨t', h1⟩ := storeStr_at (a := a) (t := t) (s := s) (x := cNul) (by rw [hlen]; simpa using hf)
  refine ⟨t', by rw [storeStr_length h1]; exact hlen, ?_⟩
  unfold ushPrintf
  rw [if_neg (by simp [hw])]
  simp only [M.pure_eq, M.ok_bind]
  rw [hb, strlenAt_zero ha]
  simp only [M.ok_bind]
  rw [List.take_of_length_le (by omega), h1]
  simp only [M.ok_bind]
  rw [List.append_assoc, strlenAt_append hs]
  simp only [M.ok_bind]
  rw [if_neg (by omega)]

/-- `ush_printf` when something else was the last output. -/
theorem ushPrintf_fresh {E : Env} {u : Ush} {s : Str} (hz : Sized E u) (hw : u.writeBuf ≠ .outBuf) (hs : cNul ∉ s) (hf : s.length < E.outSize) :
    ∃ t', (s ++ cNul :: t').length = E.outSize ∧ ushPrintf E u (.text s) =
      .ok { u with state := .writeChar, writeNext := .resetPrompt, outBuf := s ++ cNul :: t', writeSize := s.length, writePos := 0, writeBuf := .outBuf } := by
  have hpos : 0 < u.outBuf.length := by rw [hz.outLen]; omega
  cases hb : u.outBuf with
  | nil => rw [hb] at hpos; cases hpos
  | cons x t =>
    have hlen : (x :: t).length = E.outSize := by rw [← hb]; exact hz.outLen
    let u1 : Ush := writePointerBin { u with outBuf := cNul :: t } .outBuf 0 .resetPrompt
    obtain ⟨t', h1, h2⟩ := ushPrintf_append (E := E) (u := u1) (a := []) (s := s) (t := t) ⟨hz.inLen, hlen⟩ rfl rfl (by simp) hs (by simpa using hf)
    refine ⟨t', h1, ?_⟩
    have e : ushPrintf E u (.text s) = ushPrintf E u1 (.text s) := by
      unfold ushPrintf
      rw [if_pos (by simpa using hw), if_neg (by simp [u1, writePointerBin]), hb]
      simp only [wr, List.length_cons, Nat.zero_lt_succ, if_true, List.set_cons_zero, M.ok_bind, M.pure_eq]
      rw [writePointer_of (s := []) .resetPrompt (by simp) (by exact cstrAt_zero [] t (by simp))]
      rfl
    rw [e, h2]
    simp [u1, writePointerBin]

theorem Spec.Sized.out {E : Env} {u : Ush} (z : Sized E u) {v : Ush} (h1 : v.inBuf = u.inBuf) (h2 : v.outBuf.length = E.outSize) : Sized E v :=
  ⟨by rw [h1]; exact z.inLen, h2⟩

/-- A printing call. -/
theorem talks_text {E : Env} {T : Talk} {u : Ush} (H : Talks E T u) (s : Str) (nl : Bool) (hs : cNul ∉ s) :
    ∃ v, writePointer u (.str s) (if nl then .reset else .resetPrompt) = .ok v ∧ Talks E { T with pend := .text s nl } v ∧ v.log = u.log := by
  refine ⟨_, writePointer_str u s _ hs, ?_, rfl⟩
  exact { sized := ⟨H.sized.inLen, H.sized.outLen⟩, rep := H.rep.same ⟨rfl, rfl, rfl, rfl⟩, nul := H.nul, buf := H.buf, pend := ⟨rfl, rfl, rfl, rfl, rfl, hs⟩ }

theorem talks_flush {E : Env} {T : Talk} {u : Ush} (sized : Sized E u) (rep : WInv E u T.world) (nul : cNul ∉ T.buf) (buf : ∃ t, u.outBuf = T.buf ++ cNul :: t) :
    ∃ v, ushFlush u = .ok v ∧ Talks E { T with pend := .buf 0 } v ∧ v.log = u.log := by
  obtain ⟨t, ht⟩ := buf
  refine ⟨_, writePointer_of (s := T.buf) .resetPrompt (by simp) (by show cstrAt u.outBuf 0 = _; rw [ht]; exact cstrAt_zero _ _ nul), ?_, rfl⟩
  exact { sized := ⟨sized.inLen, sized.outLen⟩, rep := rep.same ⟨rfl, rfl, rfl, rfl⟩, nul := nul, buf := ⟨t, ht⟩, pend := ⟨Nat.zero_le _, rfl, rfl, rfl, Or.inl ⟨rfl, rfl⟩⟩ }

theorem call_sim {E : Env} (cfg : Config E) {T : Talk} {u : Ush} (H : Talks E T u) (c : Call) (hv : T.Valid E c) :
    ∃ v, runApis E u c.apis = .ok v ∧ Talks E (T.step E c).1 v ∧ v.log = u.log ++ (T.step E c).2.map .ret := by
  cases c with
  | fs o =>
    obtain ⟨v, h1, h2, h3⟩ := fsStep_sim H.rep o hv
    have F := fsApi_frame o h1
    refine ⟨v, by simp [Call.apis, runApis, h1], ?_, h3⟩
    have hb : v.outBuf = u.outBuf := by rw [F]
    refine { sized := ⟨by rw [F]; exact H.sized.inLen, by rw [hb]; exact H.sized.outLen⟩, rep := h2, nul := H.nul, buf := by rw [hb]; exact H.buf, pend := ?_ }
    have hp := H.pend
    have e1 : v.state = u.state := by rw [F]
    have e2 : v.writeBuf = u.writeBuf := by rw [F]
    have e3 : v.writePos = u.writePos := by rw [F]
    have e4 : v.writeSize = u.writeSize := by rw [F]
    have e5 : v.writeNext = u.writeNext := by rw [F]
    rw [e1, e2, e3, e4, e5]
    exact hp
  | print s =>
    obtain ⟨v, h1, h2, h3⟩ := talks_text H s true hv
    exact ⟨v, by simp only [Call.apis, runApis, runApi]; unfold ushPrint; simp only [if_true] at h1; rw [h1]; rfl, h2, by simpa [Talk.step] using h3⟩
  | printNoNewline s =>
    obtain ⟨v, h1, h2, h3⟩ := talks_text H s false hv
    exact ⟨v, by simp only [Call.apis, runApis, runApi]; unfold ushPrintNoNewline; simp only [Bool.false_eq_true, if_false] at h1; rw [h1]; rfl, h2, by simpa [Talk.step] using h3⟩
  | printStatus s =>
    obtain ⟨v, h1, h2, h3⟩ := talks_text H (statusString E.tr s) true (cfg.texts.status s)
    exact ⟨v, by simp only [Call.apis, runApis, runApi]; unfold printStatus; simp only [if_true] at h1; rw [h1]; rfl, h2, by simpa [Talk.step] using h3⟩
  | printf s =>
    obtain ⟨hs, hf⟩ := hv
    obtain ⟨t, hb⟩ := H.buf
    have hp := H.pend
    cases hpd : T.pend with
    | text s0 nl =>
      rw [hpd] at hp hf
      obtain ⟨-, hw, -⟩ := hp
      obtain ⟨t', h1, h2⟩ := ushPrintf_fresh H.sized (by rw [hw]; simp) hs hf
      refine ⟨_, by simp only [Call.apis, runApis, runApi]; rw [h2]; rfl, ?_, by simp [Talk.step, hpd]⟩
      simp only [Talk.step, hpd]
      exact { sized := H.sized.out rfl h1, rep := H.rep.same ⟨rfl, rfl, rfl, rfl⟩, nul := hs, buf := ⟨t', rfl⟩, pend := ⟨Nat.zero_le _, rfl, rfl, rfl, Or.inl ⟨rfl, rfl⟩⟩ }
    | buf k =>
      rw [hpd] at hp hf
      obtain ⟨hk, hw, hpos, hsz, -⟩ := hp
      obtain ⟨t', h1, h2⟩ := ushPrintf_append H.sized hw hb H.nul hs hf
      refine ⟨_, by simp only [Call.apis, runApis, runApi]; rw [h2]; rfl, ?_, by simp [Talk.step, hpd]⟩
      simp only [Talk.step, hpd]
      refine { sized := H.sized.out rfl h1, rep := H.rep.same ⟨rfl, rfl, rfl, rfl⟩, nul := not_mem_append H.nul hs, buf := ⟨t', rfl⟩, pend := ?_ }
      exact ⟨by simp; omega, hw, hpos, by simp [hsz], Or.inl ⟨rfl, rfl⟩⟩
  | flush =>
    obtain ⟨v, h1, h2, h3⟩ := talks_flush H.sized H.rep H.nul H.buf
    exact ⟨v, by simp only [Call.apis, runApis, runApi]; rw [h1]; rfl, h2, by simpa [Talk.step] using h3⟩
  | «show» s =>
    obtain ⟨hs, hf⟩ := hv
    obtain ⟨t', h1⟩ := storeStr_zero (b := u.outBuf) (s := s) (by rw [H.sized.outLen]; exact hf)
    obtain ⟨v, h4, h5, h6⟩ := talks_flush (E := E) (T := { T with buf := s }) (u := { u with outBuf := s ++ cNul :: t' })
      (H.sized.out rfl (by show (s ++ cNul :: t').length = _; rw [storeStr_length h1]; exact H.sized.outLen)) (H.rep.same ⟨rfl, rfl, rfl, rfl⟩) hs ⟨t', rfl⟩
    refine ⟨v, ?_, h5, by simpa [Talk.step] using h6⟩
    simp only [Call.apis, runApis, runApi, h1, M.ok_bind, M.pure_eq, h4]
  | reset =>
    have hr : (T.world.tree.find []).isSome := by
      cases h : T.world.tree.find [] with
      | none => exact absurd h hv
      | some m => rfl
    obtain ⟨m, hm⟩ := Option.isSome_iff_exists.mp hr
    have hmem := (find_eq_some H.rep.tree.nodupPath).mp hm
    have hroot : u.root = some m.id := by rw [H.rep.tree.root, hm]; rfl
    refine ⟨_, by simp only [Call.apis, runApis, runApi]; unfold ushReset; rw [writePointer_str _ _ _ (by decide)]; rfl, ?_, by simp [Talk.step]; rfl⟩
    refine { sized := ⟨H.sized.inLen, H.sized.outLen⟩, rep := ?_, nul := H.nul, buf := H.buf, pend := ⟨rfl, rfl, rfl, rfl, rfl, by decide⟩ }
    refine H.rep.move rfl rfl rfl ?_
    intro m' hm'
    rw [hm] at hm'
    cases hm'
    exact ⟨hmem.1, hroot⟩

theorem runApis_append (E : Env) : ∀ (as bs : List Api) (u : Ush), runApis E u (as ++ bs) = (do let v ← runApis E u as; runApis E v bs) := by
  intro as
  induction as with
  | nil => intro bs u; rfl
  | cons a as ih =>
    intro bs u
    rw [List.cons_append, runApis, runApis]
    cases runApi E u a with
    | error e => rfl
    | ok v => simp only [M.ok_bind]; exact ih bs v

theorem calls_sim {E : Env} (cfg : Config E) : ∀ (cs : List Call) {T : Talk} {u : Ush}, Talks E T u → T.ValidRun E cs →
    ∃ v, runApis E u (cs.flatMap Call.apis) = .ok v ∧ Talks E (T.run E cs).1 v ∧ v.log = u.log ++ (T.run E cs).2.map .ret := by
  intro cs
  induction cs with
  | nil => intro T u H _; exact ⟨u, rfl, H, by simp [Talk.run]⟩
  | cons c cs ih =>
    intro T u H hv
    obtain ⟨v, h1, h2, h3⟩ := call_sim cfg H c hv.1
    obtain ⟨w, h4, h5, h6⟩ := ih h2 hv.2
    refine ⟨w, ?_, h5, ?_⟩
    · rw [List.flatMap_cons, runApis_append, h1]; exact h4
    · rw [h6, h3]; simp [Talk.run]

/-- What happens after the callback has returned. -/
theorem talks_done {E : Env} (cfg : Config E) {T : Talk} {u : Ush} (H : Talks E T u) (ok : T.world.Ok E) (hin : 0 < E.inSize) (i : List UInt8) :
    Done E T.world u i (outs (T.output ++ T.world.prompt E)) := by
  have HH : Holds E T.world u := ⟨H.sized, H.rep, ok⟩
  have hp := H.pend
  obtain ⟨t, hb⟩ := H.buf
  cases hpd : T.pend with
  | text s nl =>
    rw [hpd] at hp
    obtain ⟨h1, h2, h3, h4, h5, h6⟩ := hp
    have st := Steps.deliver (E := E) i s s.length u HH.current h1 h4 (by omega) (by rw [h2]; exact Readable.str u s)
    have r : Run E u i _ i (outs s) := ⟨st, by simp [h3]⟩
    have HH2 : Holds E T.world { u with state := u.writeNext, writePos := s.length, log := u.log ++ outs (s.drop u.writePos) } :=
      HH.same ⟨rfl, rfl, rfl, rfl⟩ ⟨H.sized.inLen, H.sized.outLen⟩
    cases nl with
    | true =>
      obtain ⟨w, r2, W2⟩ := Done.after r (done_reset cfg HH2 hin i (by simpa using h5))
      exact ⟨w, r2.cast (by simp [Talk.output, hpd]), W2⟩
    | false =>
      obtain ⟨w, r2, W2⟩ := Done.after r (done_resetPrompt cfg HH2 hin i (by simpa using h5))
      exact ⟨w, r2.cast (by simp [Talk.output, hpd]), W2⟩
  | buf k =>
    rw [hpd] at hp
    obtain ⟨h1, h2, h3, h4, h5⟩ := hp
    rcases h5 with ⟨h5, h6⟩ | ⟨h5, h6⟩
    · have st := Steps.deliver (E := E) i T.buf (T.buf.length - k) u HH.current h5 h4 (by omega) (by rw [h2]; exact Readable.out u _ _ hb)
      have r : Run E u i _ i (outs (T.buf.drop k)) := ⟨st, by simp [h3]⟩
      have HH2 : Holds E T.world { u with state := u.writeNext, writePos := T.buf.length, log := u.log ++ outs (T.buf.drop u.writePos) } :=
        HH.same ⟨rfl, rfl, rfl, rfl⟩ ⟨H.sized.inLen, H.sized.outLen⟩
      obtain ⟨w, r2, W2⟩ := Done.after r (done_resetPrompt cfg HH2 hin i h6)
      exact ⟨w, r2.cast (by simp [Talk.output, hpd]), W2⟩
    · have : T.output = [] := by simp [Talk.output, hpd, h6]
      rw [this]
      exact done_resetPrompt cfg HH hin i h5

/-- The situation in which a command is looked up. -/
theorem Parsed.talks {E : Env} {W : World} {u : Ush} {ws : List Str} {nl : Str} (P : Parsed E W u ws nl) (hn : cNul ∉ nl) :
    Talks E ⟨W, nl, .buf nl.length⟩ u := by
  obtain ⟨h1, h2, h3, h4⟩ := P.echoed
  exact { sized := P.sized, rep := P.rep, nul := hn, buf := h4, pend := ⟨Nat.le_refl _, h1, h2, h3, Or.inr ⟨P.state, rfl⟩⟩ }

end Ush
