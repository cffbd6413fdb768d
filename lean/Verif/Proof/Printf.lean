import Verif.Proof.Format
import Verif.Spec.Printf
/-!
# `ush_printf`: all cases
-/
namespace Ush
open Spec

/-- The text of the sheet `P` is in the output buffer, which is the last thing printed or being printed. -/
structure Draws (E : Env) (P : Sheet) (u : Ush) : Prop where
  len : u.outBuf.length = E.outSize
  clear : cNul ∉ P.text
  buf : ∃ t, u.outBuf = P.text ++ cNul :: t
  le : P.sent ≤ P.bytes.length
  write : u.writeBuf = .outBuf ∧ u.writePos = P.sent ∧ u.writeSize = P.bytes.length
  full : P.nul = true → P.text.length + 1 = E.outSize

/-- The shell is printing the sheet `P` from the output buffer. -/
structure Prints (E : Env) (W : World) (P : Sheet) (u : Ush) : Prop extends Draws E P u where
  inLen : u.inBuf.length = E.inSize
  rep : WInv E u W
  state : if P.fin then u.state = .resetPrompt ∧ P.sent = P.bytes.length else u.state = .writeChar ∧ u.writeNext = .resetPrompt

theorem Prints.sized {E : Env} {W : World} {P : Sheet} {u : Ush} (H : Prints E W P u) : Sized E u := ⟨H.inLen, H.len⟩

/-- `ush_printf` when something else was the last output: it starts with an empty text in the output buffer. -/
theorem ushPrintf_rewind {E : Env} {u : Ush} {x : UInt8} {t : Str} (hw : u.writeBuf ≠ .outBuf) (hb : u.outBuf = x :: t) (f : Fmt) :
    ushPrintf E u f = ushPrintf E (writePointerBin { u with outBuf := cNul :: t } .outBuf 0 .resetPrompt) f := by
  unfold ushPrintf
  rw [if_pos (by simpa using hw), if_neg (by simp [writePointerBin]), hb]
  simp only [wr, List.length_cons, Nat.zero_lt_succ, if_true, List.set_cons_zero, M.ok_bind, M.pure_eq]
  rw [writePointer_of (s := []) .resetPrompt (by simp) (by exact cstrAt_zero [] t (by simp))]
  rfl

theorem draws_rewind {E : Env} {u : Ush} (z : u.outBuf.length = E.outSize) {x : UInt8} {t : Str} (hb : u.outBuf = x :: t) :
    Draws E {} (writePointerBin { u with outBuf := cNul :: t } .outBuf 0 .resetPrompt) where
  len := by rw [← z, hb]; rfl
  clear := by simp
  buf := ⟨t, rfl⟩
  le := Nat.zero_le _
  write := ⟨rfl, rfl, rfl⟩
  full := fun h => nomatch h

theorem Draws.room {E : Env} {P : Sheet} {u : Ush} (H : Draws E P u) : P.text.length < E.outSize := by
  obtain ⟨t, hb⟩ := H.buf
  have := H.len
  rw [hb] at this; simp at this; omega

theorem Draws.fits {E : Env} {P : Sheet} {u : Ush} (H : Draws E P u) : P.bytes.length ≤ E.outSize := by
  have := H.room
  unfold Sheet.bytes
  cases hn : P.nul
  · simp; omega
  · simp [H.full hn]

/-- The error handling of `ush_printf`. -/
theorem draws_add {E : Env} {P : Sheet} {u : Ush} (H : Draws E P u) {m : Str} (hm : cNul ∉ m) :
    match P.add E.outSize m with
    | none => printfError E u m = .error .oob
    | some Q => ∃ o n, printfError E u m = .ok { u with outBuf := o, writeSize := n } ∧ Draws E Q { u with outBuf := o, writeSize := n } := by
  obtain ⟨t, hb⟩ := H.buf
  obtain ⟨w1, w2, w3⟩ := H.write
  have hr := H.room
  have hfit := H.fits
  have hlen : (P.text ++ cNul :: t).length = E.outSize := by rw [← hb]; exact H.len
  have e0 : strlenAt u.outBuf 0 = .ok P.text.length := by rw [hb, strlenAt_zero H.clear]
  unfold Sheet.add printfError
  by_cases h1 : P.text.length + m.length < E.outSize
  · rw [if_pos h1, e0]
    simp only [M.ok_bind]
    obtain ⟨t', h2⟩ := storeStr_at (a := P.text) (t := t) (s := m) (x := cNul) (by rw [hlen, List.length_append]; exact h1)
    rw [if_pos (by omega), hb, h2]
    simp only [M.ok_bind]
    rw [List.append_assoc, strlenAt_append hm]
    refine ⟨_, _, rfl, ?_⟩
    have hbl : Sheet.bytes { P with text := P.text ++ m } = P.text ++ m ++ if P.nul then [cNul] else [] := rfl
    exact { len := by show (P.text ++ (m ++ cNul :: t')).length = _; rw [← List.append_assoc, storeStr_length h2]; exact hlen
            clear := not_mem_append H.clear hm
            buf := ⟨t', by simp⟩
            le := by have := H.le; rw [hbl]; unfold Sheet.bytes at this; simp only [List.length_append] at this ⊢; omega
            write := ⟨w1, w2, by rw [hbl, w3]; unfold Sheet.bytes; simp only [List.length_append]; omega⟩
            full := fun h => by have := H.full h; simp only [List.length_append]; omega }
  · rw [if_neg h1, e0]
    simp only [M.ok_bind]
    by_cases h2 : P.text.length + m.length = E.outSize
    · rw [if_pos (.inl h2), if_pos (by omega), hb]
      have h3 : storeStr (P.text ++ cNul :: t) P.text.length m = .error .oob := by
        unfold storeStr; rw [if_neg (by rw [hlen]; omega)]
      rw [h3]; rfl
    · by_cases h3 : E.outSize ≤ m.length
      · rw [if_pos (.inr h3), if_neg (by omega), if_pos (by omega)]
      · rw [if_neg (by omega), if_neg (by omega), if_neg (by omega), hb, storeStr_ok (by rw [hlen]; omega)]
        have e1 : (P.text ++ cNul :: t).take (E.outSize - (m.length + 1)) = P.text.take (E.outSize - m.length - 1) := by
          rw [List.take_append_of_le_length (by omega)]; congr 1
        have e2 : (P.text ++ cNul :: t).drop (E.outSize - (m.length + 1) + m.length + 1) = [] := List.drop_eq_nil_of_le (by rw [hlen]; omega)
        have hl : (P.text.take (E.outSize - m.length - 1) ++ m ++ [cNul]).length = E.outSize := by simp; omega
        rw [e1, e2]
        refine ⟨_, _, rfl, ?_⟩
        have hbl : Sheet.bytes { P with text := P.text.take (E.outSize - m.length - 1) ++ m, nul := true } = P.text.take (E.outSize - m.length - 1) ++ m ++ [cNul] := rfl
        exact { len := by simpa using hl
                clear := not_mem_append (fun h => H.clear (List.take_subset _ _ h)) hm
                buf := ⟨[], by simp⟩
                le := by rw [hbl, hl]; exact Nat.le_trans H.le hfit
                write := ⟨w1, w2, by rw [hbl, hl]⟩
                full := fun _ => by rw [List.length_append] at hl; exact hl }

theorem takeWhile_take_comm (p : UInt8 → Bool) : ∀ (k : Nat) (s : Str), (s.take k).takeWhile p = (s.takeWhile p).take k := by
  intro k
  induction k with
  | zero => simp
  | succ k ih =>
    intro s
    cases s with
    | nil => simp
    | cons c s =>
      simp only [List.take_succ_cons, List.takeWhile_cons]
      split
      · simp [ih]
      · simp

theorem nulSplit (s : Str) : cNul ∉ s.takeWhile (· ≠ cNul) ∧ ((s.takeWhile (· ≠ cNul) = s ∧ cNul ∉ s) ∨ ∃ r, s = s.takeWhile (· ≠ cNul) ++ cNul :: r) := by
  induction s with
  | nil => simp
  | cons c s ih =>
    by_cases hc : c = cNul
    · subst hc
      refine ⟨by simp, .inr ⟨s, by simp⟩⟩
    · have e : (c :: s).takeWhile (· ≠ cNul) = c :: s.takeWhile (· ≠ cNul) := by simp [hc]
      rw [e]
      refine ⟨by simp only [List.mem_cons, not_or]; exact ⟨fun h => hc h.symm, ih.1⟩, ?_⟩
      rcases ih.2 with ⟨h1, h2⟩ | ⟨r, h⟩
      · exact .inl ⟨by rw [h1], by simp only [List.mem_cons, not_or]; exact ⟨fun h => hc h.symm, h2⟩⟩
      · exact .inr ⟨r, by rw [List.cons_append, ← h]⟩

/-- One call of `ush_printf`. -/
theorem draws_printf {E : Env} {P : Sheet} {u : Ush} (H : Draws E P u) (f : Fmt) :
    match P.printf E.outSize f with
    | none => ushPrintf E u f = .error .oob
    | some Q => ∃ o n, ushPrintf E u f = .ok { u with state := .writeChar, writeNext := .resetPrompt, outBuf := o, writeSize := n } ∧
        Draws E Q { u with state := .writeChar, writeNext := .resetPrompt, outBuf := o, writeSize := n } := by
  obtain ⟨t, hb⟩ := H.buf
  obtain ⟨w1, w2, w3⟩ := H.write
  have hr := H.room
  have hlen : (P.text ++ cNul :: t).length = E.outSize := by rw [← hb]; exact H.len
  generalize hk : E.outSize - P.text.length - 1 = k
  -- what is stored, and its part in front of the first NUL byte
  have hst : ∃ t', storeStr (P.text ++ cNul :: t) P.text.length (f.out.take k) = .ok (P.text ++ (f.out.take k).takeWhile (· ≠ cNul) ++ cNul :: t') := by
    obtain ⟨t1, h1⟩ := storeStr_at (a := P.text) (t := t) (s := f.out.take k) (x := cNul)
      (by rw [hlen, List.length_append, List.length_take]; omega)
    rw [h1]
    rcases (nulSplit (f.out.take k)).2 with ⟨e, -⟩ | ⟨r, e⟩
    · rw [e]; exact ⟨t1, rfl⟩
    · refine ⟨r ++ cNul :: t1, ?_⟩
      conv => lhs; rw [e]
      simp
  obtain ⟨t', hst⟩ := hst
  have hcl := (nulSplit (f.out.take k)).1
  have ecut : (f.out.take k).takeWhile (· ≠ cNul) = (f.out.takeWhile (· ≠ cNul)).take k := takeWhile_take_comm _ _ _
  have etext : (P.text ++ f.out.takeWhile (· ≠ cNul)).take (E.outSize - 1) = P.text ++ (f.out.take k).takeWhile (· ≠ cNul) := by
    rw [List.take_append, List.take_of_length_le (by omega), ecut]; congr 2; omega
  generalize hs : (f.out.take k).takeWhile (· ≠ cNul) = s at *
  have hsl : s.length ≤ k := by rw [ecut]; exact List.length_take_le _ _
  have hl : (P.text ++ s ++ cNul :: t').length = E.outSize := by rw [storeStr_length hst]; exact hlen
  -- the state before the message
  have HQ : Draws E { P with text := P.text ++ s, fin := false }
      { u with state := .writeChar, writeNext := .resetPrompt, outBuf := P.text ++ s ++ cNul :: t', writeSize := u.writeSize + s.length } := by
    have hbl : Sheet.bytes { P with text := P.text ++ s, fin := false } = P.text ++ s ++ if P.nul then [cNul] else [] := rfl
    exact { len := hl, clear := not_mem_append H.clear hcl, buf := ⟨t', rfl⟩
            le := by have := H.le; rw [hbl]; unfold Sheet.bytes at this; simp only [List.length_append] at this ⊢; omega
            write := ⟨w1, w2, by rw [hbl]; show u.writeSize + _ = _; rw [w3]; unfold Sheet.bytes; simp only [List.length_append]; omega⟩
            full := fun h => by have := H.full h; simp only [List.length_append]; omega }
  have hadd := fun m (hm : cNul ∉ m) => draws_add HQ (m := m) hm
  cases f with
  | error x =>
    have e1 : ushPrintf E u (.error x) = printfError E { u with state := .writeChar, writeNext := .resetPrompt, outBuf := P.text ++ s ++ cNul :: t', writeSize := u.writeSize + s.length } msgFormatError := by
      unfold ushPrintf
      rw [if_neg (by simp [w1])]
      simp only [M.pure_eq, M.ok_bind]
      rw [hb, strlenAt_zero H.clear]
      simp only [M.ok_bind]
      rw [hk, show x = (Fmt.error x).out from rfl, hst]
      simp only [M.ok_bind]
      rw [List.append_assoc, strlenAt_append hcl]
      simp only [M.ok_bind]
    rw [e1]
    unfold Sheet.printf
    rw [etext]
    exact hadd msgFormatError (by decide)
  | text x =>
    have e1 : ushPrintf E u (.text x) = if x.length > s.length then printfError E { u with state := .writeChar, writeNext := .resetPrompt, outBuf := P.text ++ s ++ cNul :: t', writeSize := u.writeSize + s.length } msgOverflowError
        else .ok { u with state := .writeChar, writeNext := .resetPrompt, outBuf := P.text ++ s ++ cNul :: t', writeSize := u.writeSize + s.length } := by
      unfold ushPrintf
      rw [if_neg (by simp [w1])]
      simp only [M.pure_eq, M.ok_bind]
      rw [hb, strlenAt_zero H.clear]
      simp only [M.ok_bind]
      have hst' : storeStr (P.text ++ cNul :: t) P.text.length (x.take k) = _ := hst
      rw [hk, hst']
      simp only [M.ok_bind]
      rw [List.append_assoc, strlenAt_append hcl]
      simp only [M.ok_bind]
    rw [e1]
    have hx : x.length > s.length ↔ (cNul ∈ x ∨ E.outSize ≤ P.text.length + x.length) := by
      rw [ecut]
      simp only [Fmt.out, List.length_take]
      rcases (nulSplit x).2 with ⟨e, h0⟩ | ⟨r, e⟩
      · rw [e]
        constructor
        · intro h; right; omega
        · rintro (h | h)
          · exact absurd h h0
          · omega
      · have hxl := congrArg List.length e
        simp only [List.length_append, List.length_cons] at hxl
        constructor
        · intro _; left; rw [e]; simp
        · intro _; omega
    unfold Sheet.printf
    rw [etext]
    by_cases hc : cNul ∈ x ∨ E.outSize ≤ P.text.length + x.length
    · rw [if_pos (hx.mpr hc), show complaint E.outSize P.text (.text x) = some msgOverflowError from if_pos hc]
      exact hadd msgOverflowError (by decide)
    · rw [if_neg (fun h => hc (hx.mp h)), show complaint E.outSize P.text (.text x) = none from if_neg hc]
      exact ⟨_, _, rfl, HQ⟩

theorem Sheet.printf_fin {n : Nat} {P Q : Sheet} {f : Fmt} (h : P.printf n f = some Q) : Q.fin = false ∧ Q.sent = P.sent := by
  unfold Sheet.printf Sheet.add at h
  dsimp only at h
  split at h
  · cases h; exact ⟨rfl, rfl⟩
  · split at h
    · cases h; exact ⟨rfl, rfl⟩
    · split at h
      · cases h
      · cases h; exact ⟨rfl, rfl⟩

theorem draws_readable {E : Env} {P : Sheet} {u : Ush} (H : Draws E P u) : Readable u u.writeBuf P.bytes := by
  obtain ⟨t, hb⟩ := H.buf
  rw [H.write.1]
  intro j hj
  have : P.bytes <+: u.outBuf := by
    rw [hb]
    unfold Sheet.bytes
    cases P.nul
    · simp
    · exact ⟨t, by simp⟩
  obtain ⟨z, hz⟩ := this
  simp only [ptrRead, rd, ← hz, List.getElem?_append_left hj, List.getElem?_eq_getElem hj]

theorem prints_step {E : Env} {W : World} {P : Sheet} {u : Ush} (hc : u.current.isSome = true) (H : Prints E W P u) (a : Bit) (hv : P.Valid a) :
    match P.step E.outSize a with
    | none => step E u a.op = .error .oob
    | some (Q, x) => ∃ v, step E u a.op = .ok v ∧ Prints E W Q v ∧ v.log = u.log ++ outs x ∧ v.current = u.current := by
  cases a with
  | printf f =>
    have h := draws_printf H.toDraws f
    have e : step E u (Bit.printf f).op = ushPrintf E u f := rfl
    rw [e]
    unfold Sheet.step
    dsimp only
    cases hq : P.printf E.outSize f with
    | none => rw [hq] at h; exact h
    | some Q =>
      rw [hq] at h
      obtain ⟨o, n, h1, h2⟩ := h
      exact ⟨_, h1, { toDraws := h2, inLen := H.inLen, rep := H.rep.same ⟨rfl, rfl, rfl, rfl⟩, state := by rw [(Sheet.printf_fin hq).1]; exact ⟨rfl, rfl⟩ }, by simp [outs], rfl⟩
  | service io =>
    have hfin : P.fin = false := hv
    have hst := H.state
    rw [hfin] at hst
    simp only [Bool.false_eq_true, if_false] at hst
    obtain ⟨w1, w2, w3⟩ := H.write
    have e0 : step E u (Bit.service io).op = (do let v ← writeChar io u; return v) := by
      show (do let (u, _) ← service E io u; return u) = _
      rw [service_eq E io u hc, hst.1]
      cases writeChar io u <;> rfl
    rw [e0]
    unfold writeChar Sheet.step
    dsimp only
    by_cases hlt : P.sent < P.bytes.length
    · rw [if_neg (by omega), w2, draws_readable H.toDraws _ hlt, List.getElem?_eq_getElem hlt]
      simp only [M.ok_bind, M.pure_eq]
      cases hw : io.wr with
      | true =>
        simp only [if_true]
        refine ⟨_, rfl, ?_, ?_, rfl⟩
        · exact { len := H.len, inLen := H.inLen, rep := H.rep.same ⟨rfl, rfl, rfl, rfl⟩, clear := H.clear, buf := H.buf, le := hlt, write := ⟨w1, rfl, w3⟩, full := H.full
                  state := by rw [hfin]; exact hst }
        · simp [Ush.emit, outs]
      | false =>
        simp only [Bool.false_eq_true, if_false]
        exact ⟨u, rfl, H, by simp [outs], rfl⟩
    · have heq : P.sent = P.bytes.length := by have := H.le; omega
      rw [if_pos (by omega), List.getElem?_eq_none (by omega)]
      refine ⟨_, rfl, ?_, by simp [outs], rfl⟩
      exact { len := H.len, inLen := H.inLen, rep := H.rep.same ⟨rfl, rfl, rfl, rfl⟩, clear := H.clear, buf := H.buf, le := H.le, write := ⟨w1, w2, w3⟩, full := H.full
              state := by simp only [if_true]; exact ⟨hst.2, heq⟩ }

theorem prints_run {E : Env} {W : World} : ∀ (as : List Bit) {P : Sheet} {u : Ush}, u.current.isSome = true → Prints E W P u → P.ValidRun E.outSize as →
    match P.run E.outSize as with
    | none => run E u (as.map Bit.op) = .error .oob
    | some (Q, x) => ∃ v, run E u (as.map Bit.op) = .ok v ∧ Prints E W Q v ∧ v.log = u.log ++ outs x ∧ v.current = u.current := by
  intro as
  induction as with
  | nil => intro P u hc H _; exact ⟨u, rfl, H, by simp [outs], rfl⟩
  | cons a as ih =>
    intro P u hc H hv
    have h := prints_step hc H a hv.1
    unfold Sheet.run
    rw [List.map_cons, run]
    cases hq : P.step E.outSize a with
    | none =>
      rw [hq] at h
      simp only at h
      rw [h]; rfl
    | some q =>
      obtain ⟨Q, x⟩ := q
      rw [hq] at h
      obtain ⟨v, h1, h2, h3, h4⟩ := h
      have g := ih (by rw [h4]; exact hc) h2 (hv.2 Q x hq)
      rw [h1]
      simp only [M.ok_bind, Option.bind_eq_bind, Option.bind_some]
      cases hr : Q.run E.outSize as with
      | none => rw [hr] at g; exact g
      | some r =>
        obtain ⟨R, y⟩ := r
        rw [hr] at g
        obtain ⟨w, g1, g2, g3, g4⟩ := g
        exact ⟨w, g1, g2, by rw [g3, h3]; simp [outs], by rw [g4, h4]⟩

theorem Sheet.run_printf (n : Nat) (P : Sheet) (f : Fmt) (as : List Bit) : P.run n (.printf f :: as) = (P.printf n f).bind (fun Q => Q.run n as) := by
  rw [Sheet.run, show P.step n (.printf f) = (P.printf n f).map (·, []) from rfl]
  cases P.printf n f with
  | none => rfl
  | some Q =>
    simp only [Option.map_some, Option.bind_eq_bind, Option.bind_some, List.nil_append]
    cases Q.run n as <;> rfl

/-- The rest is printed, then the prompt. -/
theorem prints_done {E : Env} {W : World} {P : Sheet} {u : Ush} (cfg : Config E) (H : Prints E W P u) (ok : W.Ok E) (hin : 0 < E.inSize) (i : List UInt8) :
    Done E W u i (outs (P.bytes.drop P.sent ++ W.prompt E)) := by
  have HH : Holds E W u := ⟨H.sized, H.rep, ok⟩
  obtain ⟨w1, w2, w3⟩ := H.write
  have hst := H.state
  cases hf : P.fin with
  | true =>
    rw [hf] at hst
    simp only [if_true] at hst
    rw [hst.2, List.drop_length, List.nil_append]
    exact done_resetPrompt cfg HH hin i hst.1
  | false =>
    rw [hf] at hst
    simp only [Bool.false_eq_true, if_false] at hst
    have st := Steps.deliver (E := E) i P.bytes (P.bytes.length - u.writePos) u HH.current hst.1 w3 (by have := H.le; omega) (draws_readable H.toDraws)
    have r : Run E u i _ i (outs (P.bytes.drop u.writePos)) := ⟨st, rfl⟩
    have HH2 : Holds E W { u with state := u.writeNext, writePos := P.bytes.length, log := u.log ++ outs (P.bytes.drop u.writePos) } :=
      HH.same ⟨rfl, rfl, rfl, rfl⟩ ⟨H.sized.inLen, H.sized.outLen⟩
    obtain ⟨w, r2, W2⟩ := Done.after r (done_resetPrompt cfg HH2 hin i hst.2)
    refine ⟨w, r2.cast ?_, W2⟩
    rw [w2]; simp

end Ush
