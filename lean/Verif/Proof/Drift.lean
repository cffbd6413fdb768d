import Verif.Proof.Wrap
import Verif.Proof.TabNul
/-! # TAB on a line with a NUL, where nothing can be added: the position wanders through the buffer -/
namespace Ush
open Spec

section
variable {E : Env} {W : World} {u v w : Ush}

theorem drop_split {b x : List UInt8} {p : Nat} (h : b.drop p = x) (hx : x ≠ []) : ∃ pre, pre.length = p ∧ b = pre ++ x := by
  refine ⟨b.take p, ?_, by rw [← h, List.take_append_drop]⟩
  rw [List.length_take, Nat.min_eq_left]
  rcases Nat.le_total p b.length with h' | h'
  · exact h'
  · rw [List.drop_eq_nil_of_le h'] at h
    exact absurd h.symm hx

/-- Another character is going to be added behind the word `y`, which is terminated by a NUL already; it takes `m` more characters until that is overwritten. -/
structure Drift (E : Env) (W : World) (p : Nat) (y : Str) (m : Nat) (u : Ush) : Prop extends Holds E W u where
  word : ∃ rest, u.inBuf.drop p = y ++ cNul :: rest
  input : u.acInput = p
  nul : cNul ∉ y
  cand : u.acCand = (W.offers y).getLast?
  count : u.acCount = (W.offers y).length
  size : u.inPos < E.inSize
  phase : (p + y.length < u.inPos ∧ m = E.inSize - u.inPos + p) ∨ (u.inPos < p ∧ u.inPos < u.acSuffixLen ∧ m = p - u.inPos)

theorem stuck_never {e : Fault} (hc : u.current.isSome = true) (h1 : u.state = .acCandFinish) (h : innerStep E u = .error e) (i : List UInt8) : Never E u i := by
  have hs : ∀ io, service E io u = .error e := by
    intro io
    rw [service_eq E io u hc]
    rw [h1]
    simp only
    rw [h]; rfl
  intro n v r hn
  cases n with
  | zero => cases hn; exact ⟨by rw [h1]; simp, rfl⟩
  | succ n =>
    rw [chain_succ] at hn
    unfold drive1 at hn
    rw [hs] at hn
    cases hn

/-- The word has been overwritten.  What follows is a fault, or has no end. -/
theorem drift_end {p : Nat} (H : Holds E W u) (hb : ∃ rest, u.inBuf.drop p = cNul :: rest) (hi : u.acInput = p) (hp : u.inPos = p) (hl : p < u.acSuffixLen) (hs : u.state = .acCandOptimise)
    (hn : u.acPrevCount ≤ (W.offers []).length) (h0 : u.acCount = 0) (k1 : u.procNode = u.commands) (k2 : u.procStage = 0) (k3 : u.procIndex = 0) (k4 : u.procItem = 0) (i : List UInt8) :
    ∃ v, Steps E u i v i ∧ Never E v i := by
  obtain ⟨rest, hb⟩ := hb
  obtain ⟨pre, hpre, hbuf⟩ := drop_split hb (by simp)
  have S : Scan E W pre [] u := { toHolds := H, scan := by rw [hs]; rfl, buf := ⟨rest, hbuf⟩, input := hi.trans hpre.symm, nul := by simp }
  by_cases hr : W.Room E []
  · obtain ⟨v, r, St, s1, s2, s3, s4⟩ := scan_all S hr i k1 k2 k3 k4
    have Hv : Holds E W v := H.same St.toSameFs ⟨by rw [St.inBuf]; exact H.sized.inLen, by rw [St.outBuf]; exact H.sized.outLen⟩
    have e : innerStep E v = acOptimizeContinue E v := by
      rw [innerStep_finish s1]
      unfold acCandidatesFinish
      rw [s2, hs]
      simp only
      rw [if_neg (by rw [s3, h0, St.acPrevCount]; omega)]
    cases h : acOptimizeContinue E v with
    | error x => exact ⟨v, r.steps, stuck_never Hv.current s1 (e.trans h) i⟩
    | ok v1 =>
      have L : Lost E v1 := by
        refine acOptimize_lost Hv.current Hv.sized.inLen (.inl ⟨?_, ?_, ?_⟩) h
        · rw [St.inPos, St.acInput, hp, hi]
        · rw [St.inPos, St.inBuf, hp, hbuf, ← hpre]; simp
        · rw [St.inPos, St.acSuffixLen, hp]; exact hl
      have hlog : v1.log = v.log := acOptimizeContinue_log h
      exact ⟨v1, r.steps.trans (Run.inner i (l := []) Hv.current (by rw [s1]; simp) (by rw [s1]; simp) (by rw [e, h]) (by simp [hlog])).steps, L.never i⟩
  · obtain ⟨v, s, h⟩ := scan_far S i k1 k2 k3 k4 hr
    exact ⟨v, s, never_stuck h i⟩

theorem Drift.strlen {p m : Nat} {y : Str} (D : Drift E W p y m u) : strlenAt u.inBuf u.acInput = .ok y.length := by
  obtain ⟨rest, h⟩ := D.word
  rw [D.input]
  exact strlenAt_of_drop (rest := rest) D.nul h

/-- The next search. -/
def optNext' (u : Ush) (b : List UInt8) (q : Nat) : Ush :=
  { u with acPrevCount := u.acCount, inBuf := b, inPos := q, acSuffixLen := u.acSuffixLen + 1, acCount := 0, procStage := 0, procNode := u.commands, procIndex := 0, procItem := 0, state := .acCandOptimise }

/-- One more character. -/
theorem Drift.next {p m : Nat} {y c : Str} (D : Drift E W p y m u) (hr : W.Room E y) (flat : W.Flat) (hc : (W.offers y).getLast? = some c) (hcy : c ≠ y) (i : List UInt8) :
    ∃ u1, acOptimizeContinue E u = .ok u1 ∧ u1.log = u.log ∧
      ((∃ v, Steps E u1 i v i ∧ Never E v i) ∨
        ∃ v m', m' < m ∧ Steps E u1 i v i ∧ v.state = .acCandFinish ∧ innerStep E v = acOptimizeContinue E v ∧ Drift E W p y m' v) := by
  have hcm : c ∈ W.offers y := List.mem_of_getLast? hc
  have hlt : y.length < c.length := by
    obtain ⟨t, ht⟩ := offers_prefix hcm
    cases t with
    | nil => rw [List.append_nil] at ht; exact absurd ht.symm hcy
    | cons a t => rw [← ht]; simp
  obtain ⟨rest, hw⟩ := D.word
  have hsz := D.sized.inLen
  have hq := D.size
  have hpl : p + y.length < E.inSize := by
    have := congrArg List.length hw
    rw [List.length_drop, hsz] at this
    simp at this
    omega
  -- the two writes
  have e1 : wr u.inBuf u.inPos c[y.length] = .ok (u.inBuf.set u.inPos c[y.length]) := by unfold wr; rw [if_pos (by omega)]
  let q := if u.inPos + 1 ≥ E.inSize then 0 else u.inPos + 1
  have hqs : q < E.inSize := by show (if u.inPos + 1 ≥ E.inSize then 0 else u.inPos + 1) < _; split <;> omega
  have e2 : wr (u.inBuf.set u.inPos c[y.length]) q cNul = .ok ((u.inBuf.set u.inPos c[y.length]).set q cNul) := by unfold wr; rw [if_pos (by simpa [hsz] using hqs)]
  have e : acOptimizeContinue E u = .ok (optNext' u ((u.inBuf.set u.inPos c[y.length]).set q cNul) q) := by
    unfold acOptimizeContinue optNext'
    simp only [D.strlen, M.ok_bind, D.cand, hc]
    rw [if_neg (by omega), rd_ok hlt, M.ok_bind, e1, M.ok_bind]
    show (wr (u.inBuf.set u.inPos c[y.length]) q cNul >>= _) = _
    rw [e2, M.ok_bind]
    rfl
  refine ⟨_, e, rfl, ?_⟩
  have hlen : ((u.inBuf.set u.inPos c[y.length]).set q cNul).length = E.inSize := by simpa using hsz
  have H1 : Holds E W (optNext' u ((u.inBuf.set u.inPos c[y.length]).set q cNul) q) := ⟨⟨hlen, D.sized.outLen⟩, D.rep.same ⟨rfl, rfl, rfl, rfl⟩, D.ok⟩
  -- the first write does not touch the word
  have w1 : ∃ rest, (u.inBuf.set u.inPos c[y.length]).drop p = y ++ cNul :: rest := by
    rw [List.drop_set]
    rcases D.phase with ⟨h, -⟩ | ⟨h, -, -⟩
    · rw [if_neg (by omega), hw, List.set_append_right _ _ (by omega)]
      obtain ⟨d, hd⟩ : ∃ d, u.inPos - p - y.length = d + 1 := ⟨u.inPos - p - y.length - 1, by omega⟩
      rw [hd, List.set_cons_succ]
      exact ⟨_, rfl⟩
    · rw [if_pos h]; exact ⟨rest, hw⟩
  obtain ⟨rest1, w1⟩ := w1
  by_cases hqp : q = p
  · left
    refine drift_end (p := p) H1 ?_ D.input hqp ?_ rfl ?_ rfl rfl rfl rfl rfl i
    · show ∃ rest, ((u.inBuf.set u.inPos c[y.length]).set q cNul).drop p = _
      rw [List.drop_set, if_neg (by omega), w1, hqp, Nat.sub_self]
      cases y with
      | nil => exact ⟨_, rfl⟩
      | cons a y => exact ⟨_, rfl⟩
    · show p < u.acSuffixLen + 1
      rcases D.phase with ⟨h, -⟩ | ⟨h1, h2, -⟩
      · have : q = 0 := by
          show (if u.inPos + 1 ≥ E.inSize then 0 else u.inPos + 1) = 0
          have : q = if u.inPos + 1 ≥ E.inSize then 0 else u.inPos + 1 := rfl
          split
          · rfl
          · next h' => rw [if_neg h'] at this; omega
        omega
      · have : q = if u.inPos + 1 ≥ E.inSize then 0 else u.inPos + 1 := rfl
        rw [if_neg (by omega)] at this
        omega
    · show u.acCount ≤ _
      rw [D.count]; exact flat y
  · right
    have hq' : q = if u.inPos + 1 ≥ E.inSize then 0 else u.inPos + 1 := rfl
    have w2 : ∃ rest, ((u.inBuf.set u.inPos c[y.length]).set q cNul).drop p = y ++ cNul :: rest := by
      rw [List.drop_set]
      by_cases hlt' : q < p
      · rw [if_pos hlt']; exact ⟨_, w1⟩
      · have : p + y.length < q := by
          rcases D.phase with ⟨h, -⟩ | ⟨h1, h2, -⟩
          · split at hq' <;> omega
          · split at hq' <;> omega
        rw [if_neg hlt', w1, List.set_append_right _ _ (by omega)]
        obtain ⟨d, hd⟩ : ∃ d, q - p - y.length = d + 1 := ⟨q - p - y.length - 1, by omega⟩
        rw [hd, List.set_cons_succ]
        exact ⟨_, rfl⟩
    obtain ⟨rest2, w2⟩ := w2
    obtain ⟨pre, hpre, hbuf⟩ := drop_split w2 (by simp)
    have S : Scan E W pre y (optNext' u ((u.inBuf.set u.inPos c[y.length]).set q cNul) q) :=
      { toHolds := H1, scan := rfl, buf := ⟨rest2, hbuf⟩, input := D.input.trans hpre.symm, nul := D.nul }
    obtain ⟨v, r, St, s1, s2, s3, s4⟩ := scan_all S hr i rfl rfl rfl rfl
    have Hv : Holds E W v := H1.same St.toSameFs ⟨by rw [St.inBuf]; exact hlen, by rw [St.outBuf]; exact H1.sized.outLen⟩
    have p1 : v.inPos = q := St.inPos
    have p2 : v.acSuffixLen = u.acSuffixLen + 1 := St.acSuffixLen
    have p3 : v.acCount = (W.offers y).length := by rw [s3]; exact Nat.zero_add _
    have p4 : v.acPrevCount = (W.offers y).length := by rw [St.acPrevCount]; exact D.count
    refine ⟨v, if p + y.length < q then E.inSize - q + p else p - q, ?_, r.steps, s1, ?_, ?_⟩
    · rcases D.phase with ⟨h, h'⟩ | ⟨h1, h2, h'⟩
      · split at hq'
        · rw [if_neg (by omega)]; omega
        · rw [if_pos (by omega)]; omega
      · rw [if_neg (by omega) ] at hq'
        rw [if_neg (by omega)]; omega
    · rw [innerStep_finish s1]
      unfold acCandidatesFinish
      rw [s2]
      show (if v.acCount < v.acPrevCount then _ else _) = _
      rw [if_neg (by omega)]
    · refine { toHolds := Hv, word := ⟨rest2, by rw [St.inBuf]; exact w2⟩, input := by rw [St.acInput]; exact D.input, nul := D.nul, cand := ?_, count := p3, size := by rw [p1]; exact hqs, phase := ?_ }
      · rw [s4, hc]; rfl
      · rw [p1, p2]
        rcases D.phase with ⟨h, h'⟩ | ⟨h1, h2, h'⟩
        · split at hq'
          · exact .inr ⟨by omega, by omega, by rw [if_neg (by omega)]⟩
          · exact .inl ⟨by omega, by rw [if_pos (by omega)]⟩
        · rw [if_neg (by omega)] at hq'
          exact .inr ⟨by omega, by omega, by rw [if_neg (by omega)]⟩

theorem Drift.never {p : Nat} {y c : Str} (hr : W.Room E y) (flat : W.Flat) (hc : (W.offers y).getLast? = some c) (hcy : c ≠ y) (i : List UInt8) :
    ∀ (m : Nat) (u : Ush), Drift E W p y m u → ∃ u1, acOptimizeContinue E u = .ok u1 ∧ u1.log = u.log ∧ ∃ v, Steps E u1 i v i ∧ Never E v i := by
  intro m
  induction m using Nat.strongRecOn with
  | _ m ih =>
    intro u D
    obtain ⟨u1, h1, h2, h | ⟨v, m', hm, s, hs, e, D'⟩⟩ := D.next hr flat hc hcy i
    · exact ⟨u1, h1, h2, h⟩
    · obtain ⟨u2, g1, g2, w, s', hn⟩ := ih m' hm v D'
      exact ⟨u1, h1, h2, w, s.trans ((Run.inner i (l := []) D'.toHolds.current (by rw [hs]; simp) (by rw [hs]; simp) (e.trans g1) (by simp [g2])).steps.trans s'), hn⟩

theorem next_end {y : Str} (h : (W.offers y).getLast? = some y) : W.tried E y = [] := by
  unfold World.tried
  split
  · have hg : W.growth E.inSize y = [y] := growth_none (more_end h)
    rw [hg]
    simp [World.next, h]
  · rfl

/-- TAB on a line with a NUL, where there is no room or several names are to be tried: the shell never waits for a key again. -/
theorem press_never {e : Editor} (on : E.autocomplete = true) (H : Waiting E W u e) (i : List UInt8) (hnul : cNul ∈ e.line) (flat : W.Flat) (far : ¬ W.LineFits E e.line) :
    ∃ v, Steps E u (cTab :: i) v i ∧ Never E v i := by
  obtain ⟨k1, k2⟩ := tabTarget_split (seen e.line)
  obtain ⟨w, r1, T, hs⟩ := press_start on H i hnul k1 k2
  obtain ⟨t0, ht0⟩ := seen_split hnul
  unfold World.LineFits at far
  simp only at far
  generalize (tabTarget (seen e.line)).1 = pre at *
  generalize (tabTarget (seen e.line)).2 = y at *
  have T1 : TabAt E W pre y e.esc e.line (acCandidatesStart w) := T.with ⟨rfl, rfl, rfl, rfl⟩ rfl rfl rfl rfl rfl
  by_cases hr : W.Room E y
  · obtain ⟨a, r2, Ta, a1, a2, a3, a4⟩ := press_count T hs hr i
    have ca := Ta.toHolds.current
    have n1 : a.state ≠ .readChar := by rw [a1]; simp
    have n2 : a.state ≠ .writeChar := by rw [a1]; simp
    by_cases h2 : 2 ≤ (W.offers y).length
    · have hne : W.offers y ≠ [] := by intro h; rw [h] at h2; simp at h2
      obtain ⟨c, hc⟩ : ∃ c, (W.offers y).getLast? = some c := by
        cases hg : (W.offers y).getLast? with
        | none => exact absurd (List.getLast?_eq_none_iff.mp hg) hne
        | some c => exact ⟨c, rfl⟩
      have hcy : c ≠ y := by
        rintro rfl
        refine far ⟨⟨hr, fun _ _ h => by omega, ?_⟩, fun _ _ => hc⟩
        rw [next_end hc]
        simp
      obtain ⟨rest, hb⟩ := Ta.buf
      obtain ⟨rest', hb'⟩ := Ta.whole
      have hll : e.line.length < E.inSize := by
        have := congrArg List.length hb'
        rw [Ta.sized.inLen] at this
        simp at this
        omega
      have D : Drift E W pre.length y (E.inSize - e.line.length + pre.length) { a with acSuffixLen := 0 } :=
        { toHolds := ⟨⟨Ta.sized.inLen, Ta.sized.outLen⟩, Ta.rep.same ⟨rfl, rfl, rfl, rfl⟩, T.ok⟩
          word := ⟨rest, by show a.inBuf.drop _ = _; rw [hb, List.drop_left]⟩
          input := Ta.input
          nul := Ta.nul
          cand := a4 hne
          count := a3
          size := by show a.inPos < _; rw [Ta.pos]; exact hll
          phase := by
            left
            show _ < a.inPos ∧ _ = _ - a.inPos + _
            rw [Ta.pos]
            refine ⟨?_, rfl⟩
            have := congrArg List.length ht0
            rw [k1] at this
            simp at this
            omega }
      obtain ⟨u1, g1, g2, v, s, hn⟩ := Drift.never hr flat hc hcy i _ _ D
      have ei : innerStep E a = .ok u1 := by
        rw [innerStep_finish a1, acFinish_many (n := (W.offers y).length - 2) a2 (by rw [a3]; omega)]
        exact g1
      exact ⟨v, (r1.trans (r2.trans (Run.inner i (l := []) ca n1 n2 ei (by simp [g2])))).steps.trans s, hn⟩
    · obtain ⟨c, hc, hfit⟩ : ∃ c, W.offers y = [c] ∧ E.inSize ≤ pre.length + c.length := by
        refine Classical.byContradiction fun h => far ⟨⟨hr, fun c hc hl => ?_, fun z hz => ?_⟩, fun _ h => absurd h h2⟩
        · obtain ⟨d, hd⟩ := List.length_eq_one_iff.mp hl
          rw [hd] at hc
          rw [List.mem_singleton.mp hc]
          exact Classical.byContradiction fun h' => h ⟨d, hd, by omega⟩
        · unfold World.tried at hz
          rw [if_neg h2] at hz
          cases hz
      refine ⟨a, (r1.trans r2).steps, stuck_never (e := .oob) ca a1 ?_ i⟩
      rw [innerStep_finish a1]
      unfold acCandidatesFinish
      rw [a2, a3, a4 (by rw [hc]; simp), hc]
      simp only [List.length_singleton, List.getLast?_singleton]
      rw [Ta.word, M.ok_bind]
      have : storeStr a.inBuf a.acInput c = .error .oob := by
        unfold storeStr
        rw [if_neg (by rw [Ta.sized.inLen, Ta.input]; omega)]
      rw [this]
      rfl
  · have r2 : Run E w i (acCandidatesStart w) i [] :=
      Run.inner i T.toHolds.current (by rw [hs]; simp) (by rw [hs]; simp) (by unfold innerStep; rw [hs]) (by simp [acCandidatesStart, acPrepareCandidates])
    obtain ⟨v, s, h⟩ := scan_far (T1.scan rfl) i rfl rfl rfl rfl hr
    exact ⟨v, (r1.trans r2).steps.trans s, never_stuck h i⟩

end
end Ush
