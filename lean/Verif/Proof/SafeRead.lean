import Verif.Proof.Safe
/-!
# The invariant: prompt, line editor, write engine
-/
namespace Ush
open Spec

variable {E : Env} {L : Nat} {W : World} {u v : Ush} {k : Nat}

theorem Inv.at (I : Inv E L W k u) {s : St} (hs : u.state = s) (hn : s ≠ .writeChar) : Live E L W u k s := by
  have := I.live; rwa [next_of hs hn] at this

theorem Inv.of {s : St} (B : Base E L W v) (hs : v.state = s) (hl : Live E L W v k s) : Inv E L W k v :=
  { toBase := B, live := by rw [next_of hs hl.notWrite]; exact hl }

theorem goes_reset (I : Inv E L W k u) (hs : u.state = .reset) : Goes E L W k (innerStep E u) := by
  have h : 8 ≤ k := I.at hs (by decide)
  unfold innerStep; rw [hs]
  exact Goes.sayStr I.toHolds I.fits (j := 7) (show 7 ≤ 7 from Nat.le_refl _) (by omega) rfl

theorem goes_resetPrompt (I : Inv E L W k u) (hs : u.state = .resetPrompt) : Goes E L W k (innerStep E u) := by
  have h : 7 ≤ k := I.at hs (by decide)
  unfold innerStep; rw [hs]
  refine Goes.set (s := .promptPrefix) (j := 6) (I.toBase.keep ⟨rfl, rfl, rfl, rfl⟩ rfl rfl rfl rfl) rfl ?_ (by omega) rfl
  exact ⟨.inl rfl, Nat.le_refl _⟩

theorem goes_promptPrefix (I : Inv E L W k u) (hs : u.state = .promptPrefix) : Goes E L W k (innerStep E u) := by
  obtain ⟨h1, h⟩ := I.at hs (by decide)
  unfold innerStep; rw [hs]
  exact Goes.sayStr I.toHolds I.fits (j := 5) ⟨h1, Nat.le_refl _⟩ (by omega) rfl

theorem goes_promptHost (I : Inv E L W k u) (hs : u.state = .promptHost) : Goes E L W k (innerStep E u) := by
  obtain ⟨h1, h⟩ := I.at hs (by decide)
  unfold innerStep; rw [hs]
  exact Goes.sayStr I.toHolds I.fits (j := 4) ⟨h1, Nat.le_refl _⟩ (by omega) rfl

theorem goes_promptSpace (I : Inv E L W k u) (hs : u.state = .promptSpace) : Goes E L W k (innerStep E u) := by
  obtain ⟨h1, h⟩ := I.at hs (by decide)
  unfold innerStep; rw [hs]
  exact Goes.sayStr I.toHolds I.fits (j := 3) ⟨h1, Nat.le_refl _⟩ (by omega) rfl

theorem goes_promptPath (I : Inv E L W k u) (hs : u.state = .promptPath) : Goes E L W k (innerStep E u) := by
  obtain ⟨h1, h⟩ := I.at hs (by decide)
  obtain ⟨m, -, -, h2, h3, -⟩ := I.toHolds.cwd
  unfold innerStep; rw [hs]
  simp only
  unfold promptPathStep
  rw [h2]; simp only; rw [h3]
  exact Goes.sayStr I.toHolds I.fits (j := 2) ⟨h1, Nat.le_refl _⟩ (by omega) rfl

theorem goes_promptSuffix (I : Inv E L W k u) (hs : u.state = .promptSuffix) : Goes E L W k (innerStep E u) := by
  obtain ⟨h1, h⟩ := I.at hs (by decide)
  unfold innerStep; rw [hs]
  simp only
  rcases h1 with h1 | ⟨h1, h2⟩ <;> rw [h1]
  · exact Goes.sayStr I.toHolds I.fits (j := 1) (show 1 ≤ 1 from Nat.le_refl _) (by omega) rfl
  · exact Goes.sayStr I.toHolds I.fits (j := 1) ⟨h2, Nat.le_refl _⟩ (by omega) rfl

theorem goes_readPrepare (cfg : Roomy E) (I : Inv E L W k u) (hs : u.state = .readPrepare) : Goes E L W k (readStart u) := by
  have h : 1 ≤ k := I.at hs (by decide)
  have hz := I.sized.inLen
  have := cfg.inSize
  unfold readStart
  rw [wr_ok _ (by omega), M.ok_bind]
  refine Goes.set (s := .readChar) (j := 0) (I.toBase.keep ⟨rfl, rfl, rfl, rfl⟩ (by simp) rfl rfl rfl) rfl ?_ (by omega) rfl
  refine ⟨?_, ?_, ?_⟩
  · show 0 < E.inSize; omega
  · show (u.inBuf.set 0 cNul)[0]? = some cNul
    rw [List.getElem?_set_self (by omega)]
  · show 0 ≤ 2; omega

theorem goes_acPrompt (I : Inv E L W k u) (hs : u.state = .acPrompt) : Goes E L W k (innerStep E u) := by
  obtain ⟨h1, h⟩ := I.at hs (by decide)
  unfold innerStep; rw [hs]
  refine Goes.set (s := .promptPrefix) (j := 6) (I.toBase.keep ⟨rfl, rfl, rfl, rfl⟩ rfl rfl rfl rfl) rfl ?_ (by omega) rfl
  exact ⟨.inr ⟨rfl, h1⟩, Nat.le_refl _⟩

theorem cstrAt_mem {b : List UInt8} {off i : Nat} (h : b[i]? = some cNul) (hi : off ≤ i) : ∃ s, cstrAt b off = .ok s := by
  unfold cstrAt
  rw [if_pos]
  · exact ⟨_, rfl⟩
  · refine List.mem_of_getElem? (i := i - off) ?_
    rw [List.getElem?_drop, show off + (i - off) = i by omega]; exact h

theorem goes_acRecall (I : Inv E L W k u) (hs : u.state = .acRecall) : Goes E L W k (innerStep E u) := by
  obtain ⟨h1, h⟩ := I.at hs (by decide)
  unfold innerStep; rw [hs]
  obtain ⟨s, hs⟩ := cstrAt_mem (off := 0) h1.nul (by omega)
  exact Goes.say I.toHolds I.fits (by simp) (p := .inBuf 0) hs (j := 0) (show LineOk E u from h1) (by omega) rfl

/-! ## The write engine -/

/-- Steps of the write engine that remain. -/
def toWrite (u : Ush) : Nat := if u.state = .writeChar then u.writeSize - u.writePos + 1 else 0

theorem ptrRead_ok (B : Base E L W u) (h : u.writePos < u.writeSize) : ∃ c, ptrRead u u.writeBuf u.writePos = .ok c := by
  have hw := B.wok
  unfold WriteOk at hw
  unfold ptrRead
  cases hp : u.writeBuf with
  | null => rw [hp] at hw; simp only at hw; omega
  | str s => rw [hp] at hw; simp only at hw ⊢; exact ⟨_, rd_ok (by simp; omega)⟩
  | data s => rw [hp] at hw; simp only at hw ⊢; exact ⟨_, rd_ok (by omega)⟩
  | inBuf off => rw [hp] at hw; simp only at hw ⊢; exact ⟨_, rd_ok (by have := B.sized.inLen; omega)⟩
  | outBuf => rw [hp] at hw; simp only at hw ⊢; exact ⟨_, rd_ok (by have := B.sized.outLen; omega)⟩

/-- A step of the write engine. -/
theorem write_inv (I : Inv E L W k u) (hs : u.state = .writeChar) (io : Io) : ∃ v, writeChar io u = .ok v ∧ Inv E L W k v ∧ next v = next u ∧
    (toWrite v < toWrite u ∨ io.wr = false ∧ v = u) := by
  have hl : Live E L W u k u.writeNext := by have := I.live; unfold next at this; rwa [if_pos hs] at this
  have hnx : next u = u.writeNext := by unfold next; rw [if_pos hs]
  unfold writeChar
  split
  · next h =>
    have hn : next { u with state := u.writeNext } = u.writeNext := next_of rfl hl.notWrite
    refine ⟨_, rfl, { toBase := I.toBase.keep ⟨rfl, rfl, rfl, rfl⟩ rfl rfl rfl rfl, live := ?_ }, ?_, .inl ?_⟩
    · rw [hn]; exact hl.state _
    · rw [hn, hnx]
    · unfold toWrite
      rw [if_pos hs, if_neg]
      · omega
      · exact hl.notWrite
  · next h =>
    obtain ⟨c, hc⟩ := ptrRead_ok I.toBase (by omega)
    rw [hc, M.ok_bind]
    split
    · refine ⟨_, rfl, { toBase := I.toBase.keep ⟨rfl, rfl, rfl, rfl⟩ rfl rfl rfl rfl, live := ?_ }, ?_, .inl ?_⟩
      · have hn : next ({ u.emit (.out c) with writePos := u.writePos + 1 } : Ush) = u.writeNext := by
          unfold next; rw [if_pos (show ({ u.emit (.out c) with writePos := u.writePos + 1 } : Ush).state = .writeChar from hs)]; rfl
        rw [hn]
        generalize u.writeNext = s at hl
        cases s <;> exact hl
      · rfl
      · unfold toWrite
        rw [if_pos hs, if_pos (show ({ u.emit (.out c) with writePos := u.writePos + 1 } : Ush).state = .writeChar from hs)]
        show u.writeSize - (u.writePos + 1) + 1 < u.writeSize - u.writePos + 1
        omega
    · next hw => exact ⟨u, rfl, I, rfl, .inr ⟨by simpa using hw, rfl⟩⟩

/-! ## The line editor -/

/-- `k` is at least what TAB needs. -/
def tabCost (E : Env) (W : World) (u : Ush) : Nat := scanCost W + 3 + finCost E W u.inPos

theorem echo_inv {ch : UInt8} (cfg : Roomy E) (H : Holds E W u) (F : W.Fits E L)
    (hl : Live E L W u k (if ch = cCr ∨ ch = cLf then St.parsePrepare else St.readChar)) :
    ∃ v, readEcho u ch = .ok v ∧ Inv E L W k v ∧ next v = (if ch = cCr ∨ ch = cLf then St.parsePrepare else St.readChar) := by
  have hz := H.sized.outLen
  have := cfg.offset
  unfold readEcho
  have key : ∃ o, (if ch = cCr then do
      let o ← wr u.outBuf 0 ch
      let o ← wr o 1 cLf
      wr o 2 cNul
    else if ch = cBs ∨ ch = cDel then do
      let o ← wr u.outBuf 0 cBs
      let o ← wr o 1 cSpace
      let o ← wr o 2 cBs
      wr o 3 cNul
    else do
      let o ← wr u.outBuf 0 ch
      wr o 1 cNul) = .ok o ∧ o.length = E.outSize ∧ cNul ∈ o := by
    split
    · refine ⟨((u.outBuf.set 0 ch).set 1 cLf).set 2 cNul, ?_, by simp [hz], ?_⟩
      · rw [wr_ok _ (by omega), M.ok_bind, wr_ok _ (by simp; omega), M.ok_bind, wr_ok _ (by simp; omega)]
      · exact List.mem_of_getElem? (i := 2) (List.getElem?_set_self (by simp; omega))
    · split
      · refine ⟨(((u.outBuf.set 0 cBs).set 1 cSpace).set 2 cBs).set 3 cNul, ?_, by simp [hz], ?_⟩
        · rw [wr_ok _ (by omega), M.ok_bind, wr_ok _ (by simp; omega), M.ok_bind, wr_ok _ (by simp; omega), M.ok_bind, wr_ok _ (by simp; omega)]
        · exact List.mem_of_getElem? (i := 3) (List.getElem?_set_self (by simp; omega))
      · refine ⟨(u.outBuf.set 0 ch).set 1 cNul, ?_, by simp [hz], ?_⟩
        · rw [wr_ok _ (by omega), M.ok_bind, wr_ok _ (by simp; omega)]
        · exact List.mem_of_getElem? (i := 1) (List.getElem?_set_self (by simp; omega))
  obtain ⟨o, h1, h2, h3⟩ := key
  rw [h1, M.ok_bind]
  have hst : ∃ s', ptrStr { u with outBuf := o } .outBuf = .ok s' := by
    show ∃ s', cstrAt o 0 = .ok s'
    unfold cstrAt
    rw [if_pos (by simpa using h3)]
    exact ⟨_, rfl⟩
  obtain ⟨s', hs'⟩ := hst
  refine say_inv (H.same ⟨rfl, rfl, rfl, rfl⟩ ⟨H.sized.inLen, h2⟩) F (by simp) hs' ?_
  generalize (if ch = cCr ∨ ch = cLf then St.parsePrepare else St.readChar) = s at hl
  cases s <;> exact hl

theorem emit_base (B : Base E L W u) (e : Event) : Base E L W (u.emit e) := B.keep ⟨rfl, rfl, rfl, rfl⟩ rfl rfl rfl rfl

theorem Base.short (B : Base E L W u) (h : Short E L u) (hl : LineOk E u) : u.inPos < L := by
  have := B.fits.line
  have := hl.pos
  by_cases hc : L < E.inSize
  · exact h hc
  · omega

theorem read_inv (cfg : Roomy E) (I : Inv E L W k u) (hs : u.state = .readChar) (io : Io) (ht : E.autocomplete = true → io.rd = some cTab → Short E L u ∧ cNul ∉ u.inBuf.take u.inPos ∧ TabFits L W (u.inBuf.take u.inPos))
    (hen : io.rd = some cLf ∨ io.rd = some cCr → Short E L u) :
    ∃ v b j, readChar E io u = .ok (v, b) ∧ Inv E L W j v := by
  have hL : LineOk E u := I.at hs (by decide)
  have hz := I.sized.inLen
  have h2 := cfg.inSize
  unfold readChar
  cases hio : io.rd with
  | none => exact ⟨u, false, k, rfl, I⟩
  | some ch =>
    simp only
    have B := emit_base I.toBase (.inp ch)
    have hLe : LineOk E (u.emit (.inp ch)) := hL
    by_cases h3 : ch = cEtx
    · rw [if_pos h3]
      obtain ⟨v, e, i, -⟩ := sayStr_inv (t := b!"^C") (nx := .reset) (k := 8) B.toHolds B.fits (Nat.le_refl 8)
      rw [e]
      exact ⟨v, true, 8, rfl, i⟩
    rw [if_neg h3]
    by_cases hb : ch = cBs ∨ ch = cDel
    · rw [if_pos hb]
      by_cases hp : (u.emit (.inp ch)).inPos > 0
      · rw [if_pos hp]
        have hp' : u.inPos > 0 := hp
        have hpos := hL.pos
        rw [wr_ok _ (show (u.emit (.inp ch)).inPos - 1 < (u.emit (.inp ch)).inBuf.length by
          show u.inPos - 1 < u.inBuf.length; omega)]
        simp only [M.ok_bind, M.pure_eq, if_true]
        have hne : ¬ (ch = cCr ∨ ch = cLf) := by rcases hb with rfl | rfl <;> decide
        obtain ⟨v, e, i, -⟩ := echo_inv (u := { u.emit (.inp ch) with inPos := (u.emit (.inp ch)).inPos - 1, inBuf := (u.emit (.inp ch)).inBuf.set ((u.emit (.inp ch)).inPos - 1) cNul })
          (ch := ch) (k := 0) cfg (B.toHolds.same ⟨rfl, rfl, rfl, rfl⟩ ⟨by simpa using B.sized.inLen, B.sized.outLen⟩) B.fits (by
            rw [if_neg hne]
            refine ⟨?_, ?_, hL.esc⟩
            · show u.inPos - 1 < E.inSize; omega
            · show (u.inBuf.set (u.inPos - 1) cNul)[u.inPos - 1]? = some cNul
              exact List.getElem?_set_self (by omega))
        exact ⟨v, true, 0, by rw [e]; rfl, i⟩
      · rw [if_neg hp]
        refine ⟨u.emit (.inp ch), true, k, rfl, { toBase := B, live := ?_ }⟩
        rw [next_of (show (u.emit (.inp ch)).state = .readChar from hs) (by decide)]
        exact hL
    rw [if_neg hb]
    by_cases htab : ch = cTab
    · rw [if_pos htab]
      subst htab
      cases on : E.autocomplete with
      | false =>
        refine ⟨u.emit (.inp cTab), true, k, rfl, { toBase := B, live := ?_ }⟩
        rw [next_of (show (u.emit (.inp cTab)).state = .readChar from hs) (by decide)]
        exact hL
      | true =>
      obtain ⟨t0, t1, t2⟩ := ht on hio
      have hp := I.toBase.short t0 hL
      have hlen : (u.inBuf.take u.inPos).length = u.inPos := by rw [List.length_take]; have := hL.pos; omega
      have hsp := congrArg List.length (lineHead_split (u.inBuf.take u.inPos)).1
      rw [List.length_append] at hsp
      refine ⟨_, true, tabCost E W u, rfl, { toBase := I.toBase.keep ⟨rfl, rfl, rfl, rfl⟩ rfl rfl rfl rfl, live := ?_ }⟩
      exact ⟨hL, t1, ⟨show (lineHead (u.inBuf.take u.inPos)).length + (lastWord (u.inBuf.take u.inPos)).length < L by omega, fun n hn hx => (t2 n hn).1 hx⟩,
        ⟨show 0 + (u.inBuf.take u.inPos).length < L by omega, fun n hn hx => by have := (t2 n hn).2 hx; omega⟩, Nat.le_refl _⟩
    rw [if_neg htab]
    by_cases hesc : ch = cEsc
    · rw [if_pos hesc]
      exact ⟨_, true, k, rfl, Inv.of (s := .readChar) (I.toBase.keep ⟨rfl, rfl, rfl, rfl⟩ rfl rfl rfl rfl) hs ⟨hL.pos, hL.nul, by show 1 ≤ 2; omega⟩⟩
    rw [if_neg hesc]
    unfold readCharByEscape
    by_cases e0 : (u.emit (.inp ch)).ansiEsc = 0
    · rw [if_pos e0]
      have hpos := hL.pos
      rw [wr_ok _ (show (u.emit (.inp ch)).inPos < (u.emit (.inp ch)).inBuf.length by show u.inPos < u.inBuf.length; omega), M.ok_bind]
      dsimp only
      have hplt : (if (u.emit (.inp ch)).inPos + 1 ≥ E.inSize then 0 else (u.emit (.inp ch)).inPos + 1) < E.inSize := by split <;> omega
      have hpne : (if (u.emit (.inp ch)).inPos + 1 ≥ E.inSize then 0 else (u.emit (.inp ch)).inPos + 1) ≠ u.inPos := by
        show (if u.inPos + 1 ≥ E.inSize then 0 else u.inPos + 1) ≠ u.inPos
        split <;> omega
      generalize (if (u.emit (.inp ch)).inPos + 1 ≥ E.inSize then 0 else (u.emit (.inp ch)).inPos + 1) = p at hplt hpne
      rw [wr_ok _ (show p < ((u.emit (.inp ch)).inBuf.set (u.emit (.inp ch)).inPos ch).length by
        rw [List.length_set]; show p < u.inBuf.length; omega)]
      simp only [M.ok_bind, M.pure_eq, if_true]
      have hlen : (((u.emit (.inp ch)).inBuf.set (u.emit (.inp ch)).inPos ch).set p cNul).length = E.inSize := by
        rw [List.length_set, List.length_set]; exact hz
      obtain ⟨v, e, i, -⟩ := echo_inv (u := { u.emit (.inp ch) with inBuf := ((u.emit (.inp ch)).inBuf.set (u.emit (.inp ch)).inPos ch).set p cNul, inPos := p })
        (ch := ch) (k := E.inSize + 2) cfg (B.toHolds.same ⟨rfl, rfl, rfl, rfl⟩ ⟨hlen, B.sized.outLen⟩) B.fits (by
          split
          · next hnl =>
            refine ⟨⟨u.inPos, ch, ?_, ?_, ?_⟩, Nat.le_refl _⟩
            · exact I.toBase.short (hen (by rw [hio]; rcases hnl with h | h <;> simp [h])) hL
            · show ((u.inBuf.set u.inPos ch).set p cNul)[u.inPos]? = some ch
              rw [List.getElem?_set_ne hpne]
              exact List.getElem?_set_self (by omega)
            · rcases hnl with h | h <;> simp [isNewline, h]
          · refine ⟨hplt, ?_, hL.esc⟩
            show ((u.inBuf.set u.inPos ch).set p cNul)[p]? = some cNul
            exact List.getElem?_set_self (by simp; omega))
      exact ⟨v, true, _, by rw [e]; rfl, i⟩
    rw [if_neg e0]
    have hr : ∀ n, n ≤ 2 → Inv E L W k { u.emit (.inp ch) with ansiEsc := n } := by
      intro n hn
      exact Inv.of (s := .readChar) (I.toBase.keep ⟨rfl, rfl, rfl, rfl⟩ rfl rfl rfl rfl) hs ⟨hL.pos, hL.nul, hn⟩
    by_cases e1 : (u.emit (.inp ch)).ansiEsc = 1
    · rw [if_pos e1]
      split
      · exact ⟨_, true, k, rfl, hr 2 (by omega)⟩
      · exact ⟨_, true, k, rfl, hr 0 (by omega)⟩
    rw [if_neg e1]
    have he : (u.emit (.inp ch)).ansiEsc = 2 := by
      have : (u.emit (.inp ch)).ansiEsc ≤ 2 := hL.esc
      omega
    rw [if_pos he]
    exact ⟨_, true, k, rfl, hr 0 (by omega)⟩

end Ush
