import Mathlib.Data.Prod.Lex
import Verif.Proof.SafeTab
import Verif.Proof.Start
/-!
# The invariant: service calls and histories
-/
namespace Ush
open Spec

variable {E : Env} {L : Nat} {W : World} {u v : Ush} {k : Nat}

/-- How far the shell is from waiting for input: the parser before everything else, then the steps, then the bytes to print. -/
def dist (u : Ush) (k : Nat) : Nat ×ₗ Nat ×ₗ Nat := toLex ((isParse (next u)).toNat, toLex (k, toWrite u))

theorem dist_lt {j : Nat} (h : (isParse (next v) = false ∧ isParse (next u) = true) ∨
    (isParse (next v) = isParse (next u) ∧ (j < k ∨ (j = k ∧ toWrite v < toWrite u)))) : dist v j < dist u k := by
  unfold dist
  rw [Prod.Lex.toLex_lt_toLex]
  rcases h with ⟨h1, h2⟩ | ⟨h1, h2⟩
  · left; rw [h1, h2]; exact Nat.zero_lt_one
  · right
    refine ⟨by rw [h1], ?_⟩
    rw [Prod.Lex.toLex_lt_toLex]
    exact h2

/-- The outcome of a service call: progress in the same world, or the end of the parser, or the output is not accepted. -/
def Served (E : Env) (L : Nat) (W : World) (io : Io) (u : Ush) (k : Nat) : Prop :=
  ∃ v b W' j, service E io u = .ok (v, b) ∧ Inv E L W' j v ∧
    (u.state ≠ .readChar → ¬ AppTurn u → (dist v j < dist u k ∧ ((W' = W ∧ isParse (next v) = isParse (next u)) ∨ (isParse (next u) = true ∧ isParse (next v) = false ∧ isTab (next v) = false))) ∨
      (io.wr = false ∧ v = u ∧ j = k ∧ u.state = .writeChar))

theorem Served.goes {io : Io} (hc : u.current.isSome = true) (h1 : u.state ≠ .readChar) (h2 : u.state ≠ .writeChar) (h3 : u.state ≠ .readPrepare)
    (hp : isParse (next u) = false) (h : Goes E L W k (innerStep E u)) : Served E L W io u k := by
  obtain ⟨v, j, e, hj, i, n⟩ := h
  refine ⟨v, true, W, j, ?_, i, fun _ _ => .inl ⟨dist_lt (.inr ⟨n.trans hp.symm, .inl hj⟩), .inl ⟨rfl, n.trans hp.symm⟩⟩⟩
  rw [service_eq E io u hc]
  generalize hst : u.state = st at h1 h2 h3
  cases st <;> first | exact absurd rfl h1 | exact absurd rfl h2 | exact absurd rfl h3 | (simp only [e]; rfl)

theorem service_inv (cfg : Roomy E) (H : Behaves E L) (I : Inv E L W k u) (io : Io) (ht : u.state = .readChar → (io.rd = some cTab → TabOk E L u) ∧ (io.rd = some cLf ∨ io.rd = some cCr → Short E L u)) :
    Served E L W io u k := by
  have hc := I.toHolds.current
  have go : ∀ s, u.state = s → s ≠ .readChar → s ≠ .writeChar → s ≠ .readPrepare → isParse s = false → Goes E L W k (innerStep E u) → Served E L W io u k := by
    intro s hs h1 h2 h3 h4 hg
    exact Served.goes hc (by rw [hs]; exact h1) (by rw [hs]; exact h2) (by rw [hs]; exact h3) (by rw [next_of hs h2]; exact h4) hg
  have pr : ∀ s, u.state = s → (s = .processStart ∨ s = .processService ∨ s = .processFinish) → Served E L W io u k := by
    intro s hs hp
    subst hs
    have e0 : innerStep E u = processCall E u := by
      unfold innerStep; rcases hp with h | h | h <;> simp only [h]
    rcases proc_inv cfg H I hp with h | ⟨⟨v, W', j, e, i, -⟩, hu⟩
    · exact go _ rfl (by rcases hp with h | h | h <;> rw [h] <;> decide) (by rcases hp with h | h | h <;> rw [h] <;> decide)
        (by rcases hp with h | h | h <;> rw [h] <;> decide) (by rcases hp with h | h | h <;> rw [h] <;> decide) (by rw [e0]; exact h)
    · refine ⟨v, true, W', j, ?_, i, fun _ ha => absurd ⟨hp, hu⟩ ha⟩
      rw [service_eq E io u hc, e0, e]
      rcases hp with h | h | h <;> simp only [h] <;> rfl
  have pa : ∀ s, u.state = s → (s = .parseSearchArg ∨ s = .parseQuoteArg ∨ s = .parseStandardArg) → Served E L W io u k := by
    intro s hs hp
    subst hs
    have hn : isParse (next u) = true := by rcases hp with h | h | h <;> rw [next_of h (by decide)] <;> rfl
    have e0 : ∀ v, parseChar E u = .ok v → service E io u = .ok (v, true) := by
      intro v e
      have e1 : innerStep E u = .ok v := by
        unfold innerStep; rcases hp with h | h | h <;> simp only [h] <;> exact e
      rw [service_eq E io u hc, e1]
      rcases hp with h | h | h <;> simp only [h] <;> rfl
    rcases lex_char cfg H I hp with ⟨v, j, e, hj, i, n, -⟩ | ⟨v, W', j, e, i, n, nt⟩
    · exact ⟨v, true, W, j, e0 v e, i, fun _ _ => .inl ⟨dist_lt (.inr ⟨n.trans hn.symm, .inl hj⟩), .inl ⟨rfl, n.trans hn.symm⟩⟩⟩
    · exact ⟨v, true, W', j, e0 v e, i, fun _ _ => .inl ⟨dist_lt (.inl ⟨n, hn⟩), .inr ⟨hn, n, nt⟩⟩⟩
  cases hs : u.state with
  | readChar =>
    have : ∃ W2, Inv E L W2 k u ∧ (E.autocomplete = true → io.rd = some cTab → Short E L u ∧ cNul ∉ u.inBuf.take u.inPos ∧ TabFits L W2 (u.inBuf.take u.inPos)) := by
      by_cases hio : E.autocomplete = true ∧ io.rd = some cTab
      · obtain ⟨t0, t1, W2, t2, t3, t4, t5⟩ := (ht hs).1 hio.2 hio.1
        refine ⟨W2, Inv.of (s := .readChar) { sized := I.sized, rep := t2, ok := t3, fits := t4, outp := I.outp, wok := I.wok } hs ?_, fun _ _ => ⟨t0, t1, t5⟩⟩
        exact (I.at hs (by decide) : LineOk E u)
      · exact ⟨W, I, fun h1 h2 => absurd ⟨h1, h2⟩ hio⟩
    obtain ⟨W2, I2, ht2⟩ := this
    obtain ⟨v, b, j, e, i⟩ := read_inv cfg I2 hs io ht2 (ht hs).2
    exact ⟨v, b, W2, j, by rw [service_eq E io u hc, hs]; exact e, i, fun h => absurd hs h⟩
  | readPrepare =>
    obtain ⟨v, j, e, hj, i, n⟩ := goes_readPrepare cfg I hs
    have hn : isParse (next v) = isParse (next u) := by rw [n, next_of hs (by decide)]; rfl
    refine ⟨v, false, W, j, ?_, i, fun _ _ => .inl ⟨dist_lt (.inr ⟨hn, .inl hj⟩), .inl ⟨rfl, hn⟩⟩⟩
    rw [service_eq E io u hc, hs]; simp only [e]; rfl
  | writeChar =>
    obtain ⟨v, e, i, n, hw⟩ := write_inv I hs io
    refine ⟨v, true, W, k, ?_, i, fun _ _ => ?_⟩
    · rw [service_eq E io u hc, hs]; simp only [e]; rfl
    · rcases hw with hw | ⟨h1, h2⟩
      · exact .inl ⟨dist_lt (.inr ⟨by rw [n], .inr ⟨rfl, hw⟩⟩), .inl ⟨rfl, by rw [n]⟩⟩
      · exact .inr ⟨h1, h2, rfl, hs⟩
  | parsePrepare =>
    obtain ⟨v, j, e, hj, i, n, -⟩ := lex_prepare I hs
    have hn : isParse (next v) = isParse (next u) := by rw [n, next_of hs (by decide)]; rfl
    refine ⟨v, true, W, j, ?_, i, fun _ _ => .inl ⟨dist_lt (.inr ⟨hn, .inl hj⟩), .inl ⟨rfl, hn⟩⟩⟩
    rw [service_eq E io u hc]
    have : innerStep E u = .ok v := by unfold innerStep; simp only [hs]; exact e
    simp only [hs, this]; rfl
  | parseSearchArg => exact pa _ hs (.inl rfl)
  | parseQuoteArg => exact pa _ hs (.inr (.inl rfl))
  | parseStandardArg => exact pa _ hs (.inr (.inr rfl))
  | processStart => exact pr _ hs (.inl rfl)
  | processService => exact pr _ hs (.inr (.inl rfl))
  | processFinish => exact pr _ hs (.inr (.inr rfl))
  | reset => exact go _ hs (by decide) (by decide) (by decide) rfl (goes_reset I hs)
  | resetPrompt => exact go _ hs (by decide) (by decide) (by decide) rfl (goes_resetPrompt I hs)
  | promptPrefix => exact go _ hs (by decide) (by decide) (by decide) rfl (goes_promptPrefix I hs)
  | promptHost => exact go _ hs (by decide) (by decide) (by decide) rfl (goes_promptHost I hs)
  | promptSpace => exact go _ hs (by decide) (by decide) (by decide) rfl (goes_promptSpace I hs)
  | promptPath => exact go _ hs (by decide) (by decide) (by decide) rfl (goes_promptPath I hs)
  | promptSuffix => exact go _ hs (by decide) (by decide) (by decide) rfl (goes_promptSuffix I hs)
  | acPrepare => exact go _ hs (by decide) (by decide) (by decide) rfl (goes_acPrepare I hs)
  | acCandStart => exact go _ hs (by decide) (by decide) (by decide) rfl (goes_acCandStart I hs)
  | acCandCount => exact go _ hs (by decide) (by decide) (by decide) rfl (goes_scan I (by rw [hs]; rfl))
  | acCandOptimise => exact go _ hs (by decide) (by decide) (by decide) rfl (goes_scan I (by rw [hs]; rfl))
  | acCandPrint => exact go _ hs (by decide) (by decide) (by decide) rfl (goes_scan I (by rw [hs]; rfl))
  | acCandFinish => exact go _ hs (by decide) (by decide) (by decide) rfl (goes_acCandFinish I hs)
  | acPromptPrepare => exact (I.at hs (by decide)).elim
  | acPrompt => exact go _ hs (by decide) (by decide) (by decide) rfl (goes_acPrompt I hs)
  | acRecall => exact go _ hs (by decide) (by decide) (by decide) rfl (goes_acRecall I hs)
  | acRecallSuffix => exact go _ hs (by decide) (by decide) (by decide) rfl (goes_acRecallSuffix I hs)

/-- One move. -/
theorem move_inv (cfg : Roomy E) (H : Behaves E L) (I : Inv E L W k u) {m : Move} (hm : m.Ok E L u) :
    ∃ v W' j, run E u m.ops = .ok v ∧ Inv E L W' j v := by
  cases m with
  | service io =>
    obtain ⟨v, b, W', j, e, i, -⟩ := service_inv cfg H I io hm
    refine ⟨v, W', j, ?_, i⟩
    show ((service E io u >>= fun p => (pure p.1 : M Ush)) >>= fun w => run E w []) = _
    rw [e]; rfl
  | calls as =>
    obtain ⟨v, W', j, e, i, -⟩ := calls_inv cfg as.length as W k u (Nat.le_refl _) I hm
    exact ⟨v, W', j, by rw [← e]; exact run_apis E as u, i⟩

theorem run_append (E : Env) (as bs : List Op) (u : Ush) : run E u (as ++ bs) = run E u as >>= fun v => run E v bs := by
  induction as generalizing u with
  | nil => rfl
  | cons a as ih =>
    simp only [List.cons_append, run]
    cases step E u a with
    | error e => rfl
    | ok v => simp only [M.ok_bind]; exact ih v

/-- A history. -/
theorem legal_inv (cfg : Roomy E) (H : Behaves E L) : ∀ (ms : List Move) {u : Ush} {W : World} {k : Nat}, Inv E L W k u → Legal E L u ms →
    ∃ v W' j, run E u (ms.flatMap Move.ops) = .ok v ∧ Inv E L W' j v := by
  intro ms
  induction ms with
  | nil => intro u W k I _; exact ⟨u, W, k, rfl, I⟩
  | cons m ms ih =>
    intro u W k I hl
    obtain ⟨v, W', j, e, i⟩ := move_inv cfg H I hl.1
    obtain ⟨w, W2, j2, e2, i2⟩ := ih i (hl.2 v e)
    exact ⟨w, W2, j2, by rw [List.flatMap_cons, run_append, e, M.ok_bind, e2], i2⟩

theorem Booted.inv (B : Booted E W u) (ok : W.Ok E) (F : W.Fits E L) : Inv E L W 7 u := by
  obtain ⟨h1, h2, h3, h4, h5⟩ := B.pend
  refine { sized := B.sized, rep := B.rep, ok := ok, fits := F, outp := ?_, wok := ?_, live := ?_ }
  · intro h; rw [h3] at h; cases h
  · unfold WriteOk; rw [h3, h4]; exact Nat.le_succ _
  · have : next u = .resetPrompt := by unfold next; rw [if_pos h1, h2]
    rw [this]; exact Nat.le_refl 7

/-- Under a schedule that accepts output again and again, the shell gets to wait for input or to call the application. -/
theorem served_inv (cfg : Roomy E) (H : Behaves E L) (f : Nat → Io) (hf : ∀ n, ∃ m, n ≤ m ∧ (f m).wr = true) (d : Nat ×ₗ Nat ×ₗ Nat) :
    ∀ {u v : Ush} {W : World} {k t : Nat}, dist v k = d → serve E f u t = .ok v → Inv E L W k v →
      ∃ t' w W' j, t ≤ t' ∧ serve E f u t' = .ok w ∧ Inv E L W' j w ∧ (w.state = .readChar ∨ AppTurn w) := by
  induction d using WellFoundedLT.induction with
  | ind d ih =>
    intro u v W k t hd hv I
    obtain ⟨m, hm, hw⟩ := hf t
    -- wait for the accepting call
    obtain ⟨r, rfl⟩ := Nat.exists_eq_add_of_le hm
    clear hm
    revert hw
    induction r generalizing t with
    | zero =>
      intro hw
      by_cases hg : v.state = .readChar ∨ AppTurn v
      · exact ⟨t, v, W, k, Nat.le_refl _, hv, I, hg⟩
      · rw [not_or] at hg
        obtain ⟨w, b, W', j, e, i, p⟩ := service_inv cfg H I (f t) (fun h => absurd h hg.1)
        rcases p hg.1 hg.2 with ⟨p, -⟩ | ⟨p, -⟩
        · obtain ⟨t', x, W2, j2, h1, h2, h3⟩ := ih (dist w j) (hd ▸ p) (t := t + 1) rfl (by rw [serve, hv, M.ok_bind, e]; rfl) i
          exact ⟨t', x, W2, j2, by omega, h2, h3⟩
        · rw [Nat.add_zero, p] at hw; cases hw
    | succ r ihr =>
      intro hw
      by_cases hg : v.state = .readChar ∨ AppTurn v
      · exact ⟨t, v, W, k, Nat.le_refl _, hv, I, hg⟩
      · rw [not_or] at hg
        obtain ⟨w, b, W', j, e, i, p⟩ := service_inv cfg H I (f t) (fun h => absurd h hg.1)
        have hs : serve E f u (t + 1) = .ok w := by rw [serve, hv, M.ok_bind, e]; rfl
        rcases p hg.1 hg.2 with ⟨p, -⟩ | ⟨-, p, -⟩
        · obtain ⟨t', x, W2, j2, h1, h2, h3⟩ := ih (dist w j) (hd ▸ p) (t := t + 1) rfl hs i
          exact ⟨t', x, W2, j2, by omega, h2, h3⟩
        · rw [p] at hs
          obtain ⟨t', x, W2, j2, h1, h2, h3⟩ := ihr (t := t + 1) hs (by rw [show t + 1 + r = t + (r + 1) by omega]; exact hw)
          exact ⟨t', x, W2, j2, by omega, h2, h3⟩

end Ush
