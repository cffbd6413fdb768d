import Verif.Proof.Effort
import Verif.Props.Safe
/-!
# C59 The number of service calls until the answer is bounded

With an output that takes every byte, the shell is called once for every printed byte and a bounded number of times besides.  The bound
depends on the size of the input buffer, on how many commands, files and directories there are, and on the size of the largest file; it
is linear for lines, and a product for TAB.
-/
namespace Ush.Props
open Spec

/-- From any moment of any history on: `n` service calls that have not led to an answer are at most two for every step of the work, one
for every byte that was printed meanwhile, and one for every time the output did not take a byte. -/
theorem C59_calls (E : Env) (L D : Nat) (hc : CfgOk E) (room : Roomy E) (beh : Behaves E L)
    (files : ∀ id w d, E.userGet id w = some d → d.length ≤ D) (inBuf outBuf : List UInt8)
    (h1 : inBuf.length = E.inSize) (h2 : outBuf.length = E.outSize) (os : List FsOp) (hv : (initWorld E).ValidRun E os)
    (ok : (after E os).Ok E) (fits : (after E os).Fits E L) :
    ∃ u, run E (blank inBuf outBuf) (steps os) = .ok u ∧
      ∀ ms, Legal E L u ms → ∃ v, run E u (ms.flatMap Move.ops) = .ok v ∧
        ∀ (f : Nat → Io) (n : Nat), Busy E f v n → ∃ w W, serve E f v n = .ok w ∧ WInv E w W ∧
          n + (printed v.log).length ≤ 2 * max (tabEffort E W) (lineEffort E D W) + 1 + (printed w.log).length + refused f n := by
  obtain ⟨u, e, B, -⟩ := boot hc inBuf outBuf h1 h2 os hv
  refine ⟨u, e, fun ms hl => ?_⟩
  obtain ⟨v, W, k, h, i⟩ := legal_inv room beh ms (B.inv ok fits) hl
  refine ⟨v, h, fun f n hb => ?_⟩
  have fin : ∀ k', Inv E L W k' v → (if isParse (next v) then k' ≤ E.inSize + 2 else k' ≤ max (tabEffort E W) (lineEffort E D W)) →
      ∃ w W, serve E f v n = .ok w ∧ WInv E w W ∧
        n + (printed v.log).length ≤ 2 * max (tabEffort E W) (lineEffort E D W) + 1 + (printed w.log).length + refused f n := by
    intro k' i' hk
    obtain ⟨w, W', j, e1, i1, g⟩ := serve_effort room beh files (fun W => max (tabEffort E W) (lineEffort E D W)) f
      (fun _ W => Nat.le_max_right _ _) i' hk n hb
    refine ⟨w, W', e1, i1.rep, ?_⟩
    have hl : E.inSize + 2 ≤ lineEffort E D W' := by unfold lineEffort; omega
    unfold pr at g
    split at g <;> omega
  cases hp : isParse (next v) with
  | true => exact fin _ { toBase := i.toBase, live := i.live.lex hp } (by rw [if_pos hp])
  | false =>
    have hnp : ¬ (isParse (next v) = true) := by rw [hp]; decide
    cases ht : isTab (next v) with
    | true => exact fin _ { toBase := i.toBase, live := i.live.tab i.toHolds ht } (by rw [if_neg hnp]; exact Nat.le_max_left _ _)
    | false => exact fin _ { toBase := i.toBase, live := i.live.run i.toHolds files hp ht } (by rw [if_neg hnp]; unfold lineEffort; omega)

/-- After a key: the bound for TAB, or the one for lines, which does not contain a product. -/
theorem C59_key (E : Env) (L D : Nat) (hc : CfgOk E) (room : Roomy E) (beh : Behaves E L)
    (files : ∀ id w d, E.userGet id w = some d → d.length ≤ D) (inBuf outBuf : List UInt8)
    (h1 : inBuf.length = E.inSize) (h2 : outBuf.length = E.outSize) (os : List FsOp) (hv : (initWorld E).ValidRun E os)
    (ok : (after E os).Ok E) (fits : (after E os).Fits E L) :
    ∃ u, run E (blank inBuf outBuf) (steps os) = .ok u ∧
      ∀ ms io, Legal E L u (ms ++ [.service io]) → ∃ r v, run E u (ms.flatMap Move.ops) = .ok r ∧ step E r (.service io) = .ok v ∧
        (r.state = .readChar → ∀ (f : Nat → Io) (n : Nat), Busy E f v n → ∃ w W, serve E f v n = .ok w ∧ WInv E w W ∧
          n + (printed v.log).length ≤
            2 * (if io.rd = some cTab then tabEffort E W else lineEffort E D W) + 1 + (printed w.log).length + refused f n) := by
  obtain ⟨u, e, B, -⟩ := boot hc inBuf outBuf h1 h2 os hv
  refine ⟨u, e, fun ms io hl => ?_⟩
  obtain ⟨hl, hl2⟩ := legal_append _ _ hl
  obtain ⟨r, W0, k0, h, i0⟩ := legal_inv room beh ms (B.inv ok fits) hl
  obtain ⟨v, b, W, k, hsv, i, -⟩ := service_inv room beh i0 io (hl2 r h).1
  refine ⟨r, v, h, by show (service E io r >>= _) = _; rw [hsv]; rfl, fun hr f n hb => ?_⟩
  have hrd : readChar E io r = .ok (v, b) := by rw [service_eq E io r i0.toHolds.current, hr] at hsv; exact hsv
  have fin : ∀ (X : World → Nat), (isParse (next v) = true → ∀ W, lineEffort E D W ≤ X W) → ∀ k', Inv E L W k' v →
      (if isParse (next v) then k' ≤ E.inSize + 2 else k' ≤ X W) → ∃ w W, serve E f v n = .ok w ∧ WInv E w W ∧
        n + (printed v.log).length ≤ 2 * X W + 1 + (printed w.log).length + refused f n := by
    intro X hX k' i' hk
    obtain ⟨w, W', j, e1, i1, g⟩ := serve_effort room beh files X f hX i' hk n hb
    refine ⟨w, W', e1, i1.rep, ?_⟩
    unfold pr at g
    split at g
    · have hl : E.inSize + 2 ≤ lineEffort E D W' := by unfold lineEffort; omega
      have := hX g.1 W'
      omega
    · omega
  by_cases ht : io.rd = some cTab
  · simp only [if_pos ht]
    rcases readChar_isTab hr hrd ht with g | g
    · have hnp : ¬ (isParse (next v) = true) := by
        generalize next v = s at g
        cases s <;> first | exact absurd g (by decide) | decide
      exact fin (tabEffort E) (fun h => absurd h hnp) _ { toBase := i.toBase, live := i.live.tab i.toHolds g } (by rw [if_neg hnp])
    · cases n with
      | zero => exact ⟨v, W, rfl, i.rep, by omega⟩
      | succ n => exact absurd (.inl g) (hb 0 (by omega) v rfl)
  · simp only [if_neg ht]
    have g := readChar_tab hr hrd ht
    cases hp : isParse (next v) with
    | true => exact fin (lineEffort E D) (fun _ _ => Nat.le_refl _) _ { toBase := i.toBase, live := i.live.lex hp } (by rw [if_pos hp])
    | false =>
      have hnp : ¬ (isParse (next v) = true) := by rw [hp]; decide
      exact fin (lineEffort E D) (fun _ _ => Nat.le_refl _) _ { toBase := i.toBase, live := i.live.run i.toHolds files hp g }
        (by rw [if_neg hnp]; unfold lineEffort; omega)

/-! ### A concrete shell -/

theorem sE2_files : ∀ id w d, sE2.userGet id w = some d → d.length ≤ 3 := by
  intro id w d h
  have h : some (if id = 7 then [0, 65, 255] else b!"on") = some d := h
  cases h
  split <;> decide

example : ∃ u, run sE2 (blank (List.replicate 32 0) (List.replicate 64 0)) (steps sHist) = .ok u ∧
    ∀ ms io, Legal sE2 32 u (ms ++ [.service io]) → ∃ r v, run sE2 u (ms.flatMap Move.ops) = .ok r ∧ step sE2 r (.service io) = .ok v ∧
      (r.state = .readChar → ∀ (f : Nat → Io) (n : Nat), Busy sE2 f v n → ∃ w W, serve sE2 f v n = .ok w ∧ WInv sE2 w W ∧
        n + (printed v.log).length ≤
          2 * (if io.rd = some cTab then tabEffort sE2 W else lineEffort sE2 3 W) + 1 + (printed w.log).length + refused f n) :=
  C59_key sE2 32 3 sE2_ok.1 sE2_ok.2.1 (sE2_behaves 32) sE2_files _ _ rfl rfl sHist sE2_ok.2.2.1 sE2_ok.2.2.2.1 sE2_ok.2.2.2.2

/-- In the world of this shell there are 17 entries (two groups with nine commands, three directories with three files): at most 225 calls
after Enter and 3895 after TAB, besides those that print. -/
example : sW.entries = 17 ∧ 2 * lineEffort sE2 3 sW + 1 = 225 ∧ 2 * tabEffort sE2 sW + 1 = 3895 := by decide +kernel

/-- The calls until the shell waits for a key, and the bytes printed meanwhile. -/
def answer (E : Env) (u : Ush) : Nat → Nat → Option (Nat × Nat)
  | 0, _ => none
  | fuel + 1, n => if u.state = .readChar then some (n, (printed u.log).length) else
    match step E u (.service ⟨none, true⟩) with
    | .ok v => answer E v fuel (n + 1)
    | .error _ => none

/-- After the keys `cs` and then `c`. -/
def measured (cs : Str) (c : UInt8) : Option (Nat × Nat) :=
  match run sE2 (blank (List.replicate 32 0) (List.replicate 64 0)) (steps sHist ++ List.replicate 60 (.service ⟨none, true⟩) ++ typing 8 cs ++ [.service ⟨some c, true⟩]) with
  | .ok u => (answer sE2 u 4000 0).map fun p => (p.1, p.2 - (printed u.log).length)
  | .error _ => none

/-- `help`, `ls`, a TAB on the empty line that lists everything, a TAB that completes a word: calls and printed bytes. -/
example : measured b!"help" cLf = some (464, 392) ∧ measured b!"ls" cLf = some (119, 79) ∧ measured b!"" cTab = some (232, 82) ∧
    measured b!"n" cTab = some (29, 5) := by decide +kernel

example : ∃ u, run sE2 (blank (List.replicate 32 0) (List.replicate 64 0)) (steps sHist) = .ok u ∧
    ∀ ms, Legal sE2 32 u ms → ∃ v, run sE2 u (ms.flatMap Move.ops) = .ok v ∧
      ∀ (f : Nat → Io) (n : Nat), Busy sE2 f v n → ∃ w W, serve sE2 f v n = .ok w ∧ WInv sE2 w W ∧
        n + (printed v.log).length ≤ 2 * max (tabEffort sE2 W) (lineEffort sE2 3 W) + 1 + (printed w.log).length + refused f n :=
  C59_calls sE2 32 3 sE2_ok.1 sE2_ok.2.1 (sE2_behaves 32) sE2_files _ _ rfl rfl sHist sE2_ok.2.2.1 sE2_ok.2.2.2.1 sE2_ok.2.2.2.2

end Ush.Props
