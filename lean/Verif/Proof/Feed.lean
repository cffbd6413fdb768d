import Verif.Proof.Dispatch
/-!
# Printing piece by piece
-/
namespace Ush
open Spec

/-- The shell is printing `F.text` from the output buffer. -/
structure Feeds (E : Env) (W : World) (F : Feed) (u : Ush) : Prop where
  sized : Sized E u
  rep : WInv E u W
  nul : cNul ∉ F.text
  buf : ∃ t, u.outBuf = F.text ++ cNul :: t
  le : F.sent ≤ F.text.length
  write : u.writeBuf = .outBuf ∧ u.writePos = F.sent ∧ u.writeSize = F.text.length
  state : if F.fin then u.state = .resetPrompt ∧ F.sent = F.text.length else u.state = .writeChar ∧ u.writeNext = .resetPrompt

theorem Spec.Feed.step_service (F : Feed) (io : Io) : F.step (.service io) =
    if F.sent < F.text.length then { F with sent := if io.wr then F.sent + 1 else F.sent } else { F with fin := true } := rfl

theorem Spec.Feed.step_grow (F : Feed) (a : Act) (h : F.sent ≤ F.text.length) :
    F.text <+: (F.step a).text ∧ F.sent ≤ (F.step a).sent ∧ (F.step a).sent ≤ (F.step a).text.length := by
  cases a with
  | printf s => exact ⟨List.prefix_append _ _, Nat.le_refl _, by simp [Feed.step]; omega⟩
  | service io =>
    rw [Feed.step_service]
    split
    · cases io.wr
      · exact ⟨List.prefix_rfl, Nat.le_refl _, h⟩
      · exact ⟨List.prefix_rfl, Nat.le_succ _, by assumption⟩
    · exact ⟨List.prefix_rfl, Nat.le_refl _, h⟩

theorem feed_step {E : Env} {W : World} {F : Feed} {u : Ush} (hc : u.current.isSome = true) (H : Feeds E W F u) (a : Act) (hv : F.Valid E a) :
    ∃ v, step E u a.op = .ok v ∧ Feeds E W (F.step a) v ∧ v.log = u.log ++ outs (((F.step a).text.take (F.step a).sent).drop F.sent) ∧
      v.current = u.current := by
  obtain ⟨t, hb⟩ := H.buf
  obtain ⟨w1, w2, w3⟩ := H.write
  cases a with
  | printf s =>
    obtain ⟨hs, hf⟩ := hv
    obtain ⟨t', h1, h2⟩ := ushPrintf_append H.sized w1 hb H.nul hs hf
    refine ⟨_, h2, ?_, ?_, rfl⟩
    · exact { sized := H.sized.out rfl h1, rep := H.rep.same ⟨rfl, rfl, rfl, rfl⟩, nul := not_mem_append H.nul hs, buf := ⟨t', rfl⟩, le := (F.step_grow (.printf s) H.le).2.2, write := ⟨w1, w2, by simp [w3, Feed.step]⟩, state := ⟨rfl, rfl⟩ }
    · have e : (List.take F.sent (F.text ++ s)).drop F.sent = [] := by
        rw [List.drop_eq_nil_iff, List.length_take]; omega
      show u.log = _
      simp [Feed.step, e]
  | service io =>
    have hfin : F.fin = false := hv
    have hst := H.state
    rw [hfin] at hst
    simp only [Bool.false_eq_true, if_false] at hst
    have e0 : step E u (Act.service io).op = (do let v ← writeChar io u; return v) := by
      show (do let (u, _) ← service E io u; return u) = _
      rw [service_eq E io u hc, hst.1]
      cases writeChar io u <;> rfl
    rw [e0]
    unfold writeChar
    by_cases hlt : F.sent < F.text.length
    · rw [if_neg (by omega), w1, w2]
      have hr := Readable.out u F.text _ hb
      rw [hr _ hlt]
      simp only [M.ok_bind, M.pure_eq]
      cases hw : io.wr with
      | true =>
        have e1 : F.step (.service io) = { F with sent := F.sent + 1 } := by simp [Feed.step, hlt, hw]
        rw [e1]
        simp only [if_true]
        refine ⟨_, rfl, ?_, ?_, rfl⟩
        · exact { sized := ⟨H.sized.inLen, H.sized.outLen⟩, rep := H.rep.same ⟨rfl, rfl, rfl, rfl⟩, nul := H.nul, buf := ⟨t, hb⟩, le := hlt, write := ⟨w1, rfl, w3⟩, state := by rw [hfin]; exact hst }
        · simp only [Ush.emit]
          rw [List.take_add_one, List.drop_append_of_le_length (by simp; omega)]
          have e2 : (F.text.take F.sent).drop F.sent = [] := by rw [List.drop_eq_nil_iff, List.length_take]; omega
          simp [e2, List.getElem?_eq_getElem hlt]
      | false =>
        have e1 : F.step (.service io) = F := by simp [Feed.step, hlt, hw]
        rw [e1]
        refine ⟨u, rfl, H, ?_, rfl⟩
        have e2 : (F.text.take F.sent).drop F.sent = [] := by rw [List.drop_eq_nil_iff, List.length_take]; omega
        simp [e2]
    · have heq : F.sent = F.text.length := by have := H.le; omega
      have e1 : F.step (.service io) = { F with fin := true } := by simp [Feed.step, hlt]
      rw [if_pos (by omega), e1]
      refine ⟨_, rfl, ?_, ?_, rfl⟩
      · exact { sized := ⟨H.sized.inLen, H.sized.outLen⟩, rep := H.rep.same ⟨rfl, rfl, rfl, rfl⟩, nul := H.nul, buf := ⟨t, hb⟩, le := H.le, write := ⟨w1, w2, w3⟩, state := by simp only [if_true]; exact ⟨hst.2, heq⟩ }
      · have e2 : (F.text.take F.sent).drop F.sent = [] := by rw [List.drop_eq_nil_iff, List.length_take]; omega
        simp [e2]

theorem take_drop_split {l m : Str} {a b c : Nat} (hab : a ≤ b) (hbc : b ≤ c) (hp : l.take b = m.take b) :
    (m.take c).drop a = (l.take b).drop a ++ (m.take c).drop b := by
  rw [hp]
  have h1 : m.take b = (m.take c).take b := by rw [List.take_take]; congr 1; omega
  rw [h1]
  generalize m.take c = x
  conv_lhs => rw [← List.take_append_drop b x]
  by_cases hbx : b ≤ x.length
  · rw [List.drop_append_of_le_length (by simp; omega)]
  · rw [List.drop_of_length_le (i := b) (l := x) (by omega)]; simp

theorem Spec.Feed.run_grow : ∀ (as : List Act) (F : Feed), F.sent ≤ F.text.length → F.text <+: (F.run as).text ∧ F.sent ≤ (F.run as).sent ∧
    (F.run as).sent ≤ (F.run as).text.length := by
  intro as
  induction as with
  | nil => intro F h; exact ⟨List.prefix_rfl, Nat.le_refl _, h⟩
  | cons a as ih =>
    intro F h
    obtain ⟨h1, h2, h3⟩ := F.step_grow a h
    obtain ⟨i1, i2, i3⟩ := ih (F.step a) h3
    exact ⟨h1.trans i1, Nat.le_trans h2 i2, i3⟩

theorem feed_run {E : Env} {W : World} : ∀ (as : List Act) {F : Feed} {u : Ush}, u.current.isSome = true → Feeds E W F u → F.ValidRun E as →
    ∃ v, run E u (as.map Act.op) = .ok v ∧ Feeds E W (F.run as) v ∧ v.log = u.log ++ outs (((F.run as).text.take (F.run as).sent).drop F.sent) := by
  intro as
  induction as with
  | nil =>
    intro F u hc H _
    refine ⟨u, rfl, H, ?_⟩
    have e2 : (F.text.take F.sent).drop F.sent = [] := by rw [List.drop_eq_nil_iff, List.length_take]; omega
    simp [Feed.run, e2]
  | cons a as ih =>
    intro F u hc H hv
    obtain ⟨v, h1, h2, h3, h4⟩ := feed_step hc H a hv.1
    obtain ⟨w, g1, g2, g3⟩ := ih (by rw [h4]; exact hc) h2 hv.2
    refine ⟨w, ?_, g2, ?_⟩
    · rw [List.map_cons, run, h1]; exact g1
    · obtain ⟨r1, r2, r3⟩ := Feed.run_grow as (F.step a) h2.le
      have hsent := (F.step_grow a H.le).2.1
      rw [g3, h3, List.append_assoc, ← List.map_append]
      congr 1
      show outs _ = outs _
      congr 1
      simp only [Feed.run]
      refine (take_drop_split hsent r2 ?_).symm
      obtain ⟨x, hx⟩ := r1
      rw [← hx, List.take_append_of_le_length h2.le]

theorem feeds_done {E : Env} {W : World} {F : Feed} {u : Ush} (cfg : Config E) (H : Feeds E W F u) (ok : W.Ok E) (hin : 0 < E.inSize) (i : List UInt8) :
    Done E W u i (outs (F.text.drop F.sent ++ W.prompt E)) := by
  have T : Talks E ⟨W, F.text, .buf F.sent⟩ u := by
    refine { sized := H.sized, rep := H.rep, nul := H.nul, buf := H.buf, pend := ⟨H.le, H.write.1, H.write.2.1, H.write.2.2, ?_⟩ }
    have := H.state
    cases hf : F.fin with
    | true => rw [hf] at this; exact Or.inr (by simpa using this)
    | false => rw [hf] at this; exact Or.inl (by simpa using this)
  exact talks_done cfg T ok hin i

theorem feed_text : ∀ (as : List Act) (F : Feed), (F.run as).text = F.text ++ Act.texts as := by
  intro as
  induction as with
  | nil => intro F; simp [Feed.run, Act.texts]
  | cons a as ih =>
    intro F
    simp only [Feed.run]
    rw [ih]
    cases a with
    | printf s => simp [Feed.step, Act.texts]
    | service io => simp only [Feed.step, Act.texts]; split <;> rfl

end Ush

namespace Ush
open Spec

/-- `ush_printf` of a text that does not fit. -/
theorem ushPrintf_overflow {E : Env} {u : Ush} {a s t : Str} (hz : Sized E u) (hw : u.writeBuf = .outBuf) (hb : u.outBuf = a ++ cNul :: t)
    (ha : cNul ∉ a) (hs : cNul ∉ s) (hf : E.outSize ≤ a.length + s.length) (ho : 20 ≤ E.outSize) :
    ushPrintf E u (.text s) = .ok { u with state := .writeChar, writeNext := .resetPrompt, outBuf := (a ++ s).take (E.outSize - 20) ++ msgOverflowError ++ [cNul], writeSize := E.outSize } := by
  have hlen : (a ++ cNul :: t).length = E.outSize := by rw [← hb]; exact hz.outLen
  have hal : a.length < E.outSize := by simp at hlen; omega
  have hml : msgOverflowError.length = 19 := rfl
  have hs' : cNul ∉ s.take (E.outSize - a.length - 1) := fun h => hs (List.take_subset _ _ h)
  have hsl : (s.take (E.outSize - a.length - 1)).length = E.outSize - a.length - 1 := by rw [List.length_take]; omega
  obtain ⟨t', h1⟩ := storeStr_at (a := a) (t := t) (s := s.take (E.outSize - a.length - 1)) (x := cNul) (by rw [hlen, List.length_append, hsl]; omega)
  have ht' : t' = [] := by
    have := storeStr_length h1
    rw [hlen] at this
    simp only [List.length_append, List.length_cons, hsl] at this
    exact List.length_eq_zero_iff.mp (by omega)
  subst ht'
  have htake : a ++ s.take (E.outSize - a.length - 1) = (a ++ s).take (E.outSize - 1) := by
    have e1 : a.take (E.outSize - 1) = a := List.take_of_length_le (by omega)
    have e2 : E.outSize - 1 - a.length = E.outSize - a.length - 1 := by omega
    rw [List.take_append, e1, e2]
  unfold ushPrintf
  rw [if_neg (by simp [hw])]
  simp only [M.pure_eq, M.ok_bind]
  rw [hb, strlenAt_zero ha]
  simp only [M.ok_bind]
  rw [h1]
  simp only [M.ok_bind]
  rw [List.append_assoc, strlenAt_append hs', hsl]
  simp only [M.ok_bind]
  rw [if_pos (by omega)]
  unfold printfError
  simp only
  have hcat : cNul ∉ a ++ s.take (E.outSize - a.length - 1) := not_mem_append ha hs'
  rw [← List.append_assoc, strlenAt_zero hcat]
  simp only [M.ok_bind, List.length_append, hsl]
  rw [if_neg (by rw [hml]; omega), if_neg (by rw [hml]; omega), hml, htake]
  have hll : ((a ++ s).take (E.outSize - 1) ++ [cNul]).length = E.outSize := by simp; omega
  rw [storeStr_ok (by rw [hll, hml]; omega)]
  simp only [M.ok_bind, M.pure_eq, Except.ok.injEq, hml]
  congr 1
  rw [List.drop_of_length_le (by rw [hll]; omega), List.append_nil, List.take_append_of_le_length (by simp; omega), List.take_take]
  congr 3; omega

/-- Delivery of the output buffer. -/
theorem outbuf_done {E : Env} {W : World} {u : Ush} (cfg : Config E) (H : Holds E W u) (hin : 0 < E.inSize) (hs : u.state = .writeChar)
    (hn : u.writeNext = .resetPrompt) (hw : u.writeBuf = .outBuf) (hsz : u.writeSize = u.outBuf.length) (hp : u.writePos ≤ u.writeSize) (i : List UInt8) :
    Done E W u i (outs (u.outBuf.drop u.writePos ++ W.prompt E)) := by
  have hr : Readable u u.writeBuf u.outBuf := by
    rw [hw]
    intro j hj
    simp [ptrRead, rd, hj]
  have st := Steps.deliver (E := E) i u.outBuf (u.outBuf.length - u.writePos) u H.current hs hsz (by omega) hr
  have r : Run E u i _ i (outs (u.outBuf.drop u.writePos)) := ⟨st, rfl⟩
  have HH2 : Holds E W { u with state := u.writeNext, writePos := u.outBuf.length, log := u.log ++ outs (u.outBuf.drop u.writePos) } :=
    H.same ⟨rfl, rfl, rfl, rfl⟩ ⟨H.sized.inLen, H.sized.outLen⟩
  obtain ⟨w, r2, W2⟩ := Done.after r (done_resetPrompt cfg HH2 hin i hn)
  exact ⟨w, r2.cast (by simp), W2⟩

end Ush
