import Verif.Proof.Reach
import Verif.Proof.Calm
import Verif.Proof.Host
/-! # TAB with a word that does not fit: the position has wrapped around -/
namespace Ush
open Spec

section
variable {E : Env} {W : World} {u v w : Ush}

/-- The fields that a scan does not touch. -/
structure SameLine (u v : Ush) : Prop where
  current : v.current = u.current
  inBuf : v.inBuf = u.inBuf
  inPos : v.inPos = u.inPos
  acInput : v.acInput = u.acInput
  acSuffixLen : v.acSuffixLen = u.acSuffixLen
  state : v.state = u.state

theorem SameLine.trans (h : SameLine u v) (k : SameLine v w) : SameLine u w :=
  ⟨k.current.trans h.current, k.inBuf.trans h.inBuf, k.inPos.trans h.inPos, k.acInput.trans h.acInput, k.acSuffixLen.trans h.acSuffixLen, k.state.trans h.state⟩

theorem acProcess_line (hs : u.state = .acCandOptimise) (h : acCandidatesProcess E u = .ok v) :
    SameLine u { v with state := .acCandOptimise } ∧ (v.state = .acCandOptimise ∨ (v.state = .acCandFinish ∧ v.acPrevState = .acCandOptimise)) := by
  have fin : SameLine u v → SameLine u { v with state := .acCandOptimise } ∧ (v.state = .acCandOptimise ∨ (v.state = .acCandFinish ∧ v.acPrevState = .acCandOptimise)) :=
    fun e => ⟨⟨e.current, e.inBuf, e.inPos, e.acInput, e.acSuffixLen, hs.symm⟩, .inl (e.state.trans hs)⟩
  unfold acCandidatesProcess at h
  split at h
  · unfold acCheckForFinish at h
    mgo h <;> (cases h; first | exact fin ⟨rfl, rfl, rfl, rfl, rfl, rfl⟩ | exact ⟨⟨rfl, rfl, rfl, rfl, rfl, hs.symm⟩, .inr ⟨rfl, hs⟩⟩)
  · obtain ⟨r, h1, h⟩ := M.bind_eq_ok.mp h
    have e1 : SameLine u r.1 := by
      unfold acCheckForNext at h1
      mgo h1 <;> (cases h1; exact ⟨rfl, rfl, rfl, rfl, rfl, rfl⟩)
    simp only at h
    split at h
    · cases h; exact fin e1
    · obtain ⟨q, h2, h⟩ := M.bind_eq_ok.mp h
      have e2 : SameLine r.1 q.1 := by
        unfold acFilePrepare at h2
        mgo h2
        all_goals
          first
            | (cases h2; exact ⟨rfl, rfl, rfl, rfl, rfl, rfl⟩)
            | (simp only at h2; split at h2 <;> (cases h2; exact ⟨rfl, rfl, rfl, rfl, rfl, rfl⟩))
      have e3 := e1.trans e2
      have hp : q.1.state ≠ .acCandPrint := by rw [e3.state, hs]; simp
      split at h
      · cases h; exact fin e3
      · unfold acFileIndex at h
        split at h
        · obtain ⟨nm, h3, h⟩ := M.bind_eq_ok.mp h
          rw [if_neg hp] at h
          cases h
          exact fin (e3.trans ⟨rfl, rfl, rfl, rfl, rfl, rfl⟩)
        · rw [if_neg hp] at h
          cases h
          exact fin (e3.trans ⟨rfl, rfl, rfl, rfl, rfl, rfl⟩)
        · mgo h <;> (cases h; exact fin (e3.trans ⟨rfl, rfl, rfl, rfl, rfl, rfl⟩))
        · cases h

/-- More characters are to be printed than there are in the line. -/
structure Lost (E : Env) (u : Ush) : Prop where
  current : u.current.isSome = true
  size : u.inBuf.length = E.inSize
  search : u.state ≠ .acRecallSuffix →
    (u.acInput < u.inPos ∧ u.inBuf[u.inPos]? = some cNul ∧ u.inPos < u.acSuffixLen) ∨
    (u.inPos = u.acInput ∧ u.inBuf[u.inPos]? = some cNul ∧ u.inPos + 1 < u.acSuffixLen) ∨ E.inSize < u.acSuffixLen
  recall : u.state = .acRecallSuffix → (∃ k, u.acInput ≤ k ∧ u.inBuf[k]? = some cNul ∧ k < u.acSuffixLen) ∨ E.inSize ≤ u.acSuffixLen
  state : u.state = .acCandOptimise ∨ (u.state = .acCandFinish ∧ u.acPrevState = .acCandOptimise) ∨ u.state = .acRecallSuffix

theorem Lost.read (L : Lost E u) : u.state ≠ .readChar := by
  rcases L.state with h | ⟨h, -⟩ | h <;> rw [h] <;> simp

theorem wr_nul {b c : List UInt8} {k : Nat} (h : wr b k cNul = .ok c) : c[k]? = some cNul := by
  unfold wr at h
  split at h
  · next hk => cases h; simp [hk]
  · cases h

theorem wr_keeps {b c : List UInt8} {k j : Nat} (h : wr b k cNul = .ok c) (hj : b[j]? = some cNul) : c[j]? = some cNul := by
  unfold wr at h
  split at h
  · next hk =>
    cases h
    rw [List.getElem?_set]
    split
    · first | rfl | simp [hk]
    · exact hj
  · cases h

theorem wr_size {b c : List UInt8} {k : Nat} {a : UInt8} (h : wr b k a = .ok c) : c.length = b.length := by
  unfold wr at h
  split at h
  · cases h; simp
  · cases h

theorem cstrAt_le' {b : List UInt8} {s : Str} {off k : Nat} (h : cstrAt b off = .ok s) (hk : off ≤ k) (hn : b[k]? = some cNul) : s.length ≤ k - off := by
  refine cstrAt_le (b := b.drop off) ?_ ?_
  · unfold cstrAt at h ⊢
    rw [List.drop_zero]
    exact h
  · rw [List.getElem?_drop, Nat.add_sub_cancel' hk]
    exact hn

theorem cstrAt_lt {b : List UInt8} {s : Str} {off : Nat} (h : cstrAt b off = .ok s) : off + s.length < b.length := by
  have hm : cNul ∈ b.drop off := by
    unfold cstrAt at h
    split at h
    · assumption
    · cases h
  obtain ⟨k, hk, e⟩ := List.mem_iff_getElem.mp hm
  have hl := hk
  rw [List.length_drop] at hl
  have := cstrAt_le' (k := off + k) h (by omega) (by rw [← List.getElem?_drop, List.getElem?_eq_getElem hk, e])
  omega

/-- Another character is added, or none is left. -/
theorem acOptimize_lost (hc : u.current.isSome = true) (hz : u.inBuf.length = E.inSize)
    (hl : (u.acInput ≤ u.inPos ∧ u.inBuf[u.inPos]? = some cNul ∧ u.inPos < u.acSuffixLen) ∨ E.inSize < u.acSuffixLen)
    (h : acOptimizeContinue E u = .ok v) : Lost E v := by
  unfold acOptimizeContinue at h
  simp only at h
  obtain ⟨pos, -, h⟩ := M.bind_eq_ok.mp h
  split at h
  · cases h
  · split at h
    · cases h
      refine ⟨hc, hz, fun h => absurd rfl h, fun _ => ?_, .inr (.inr rfl)⟩
      rcases hl with h | h
      · exact .inl ⟨u.inPos, h⟩
      · exact .inr (Nat.le_of_lt h)
    · obtain ⟨ch, -, h⟩ := M.bind_eq_ok.mp h
      obtain ⟨b1, h1, h⟩ := M.bind_eq_ok.mp h
      obtain ⟨b2, h2, h⟩ := M.bind_eq_ok.mp h
      cases h
      refine ⟨hc, ((wr_size h2).trans (wr_size h1)).trans hz, fun _ => ?_, (fun h => by cases h), .inl rfl⟩
      have hn := wr_nul h2
      change (u.acInput < (if u.inPos + 1 ≥ E.inSize then 0 else u.inPos + 1) ∧ b2[if u.inPos + 1 ≥ E.inSize then 0 else u.inPos + 1]? = some cNul ∧
          (if u.inPos + 1 ≥ E.inSize then 0 else u.inPos + 1) < u.acSuffixLen + 1) ∨
        ((if u.inPos + 1 ≥ E.inSize then 0 else u.inPos + 1) = u.acInput ∧ b2[if u.inPos + 1 ≥ E.inSize then 0 else u.inPos + 1]? = some cNul ∧
          (if u.inPos + 1 ≥ E.inSize then 0 else u.inPos + 1) + 1 < u.acSuffixLen + 1) ∨ E.inSize < u.acSuffixLen + 1
      rcases hl with ⟨k1, -, k3⟩ | h
      · by_cases hw : u.inPos + 1 ≥ E.inSize
        · exact .inr (.inr (by omega))
        · rw [if_neg hw] at hn ⊢
          exact .inl ⟨by omega, hn, by omega⟩
      · exact .inr (.inr (by omega))

/-- Nothing but a fault ends this. -/
theorem Lost.step (L : Lost E u) (io : Io) {b : Bool} (h : service E io u = .ok (v, b)) : Lost E v := by
  rw [service_eq E io u L.current] at h
  have h' : innerStep E u = .ok v := by
    rcases L.state with hs | ⟨hs, -⟩ | hs <;>
    · rw [hs] at h
      simp only at h
      obtain ⟨q, hq, h⟩ := M.bind_eq_ok.mp h
      cases h
      exact hq
  clear h
  rcases L.state with hs | ⟨hs, hp⟩ | hs
  · rw [isScan.inner (by rw [hs]; rfl)] at h'
    obtain ⟨e, st⟩ := acProcess_line hs h'
    have e1 := e.current
    have e2 := e.inBuf
    have e3 := e.inPos
    have e4 := e.acInput
    have e5 := e.acSuffixLen
    simp only at e1 e2 e3 e4 e5
    refine ⟨by rw [e1]; exact L.current, by rw [e2]; exact L.size, fun _ => ?_, fun h => ?_, ?_⟩
    · rw [e2, e3, e4, e5]
      exact L.search (by rw [hs]; simp)
    · rcases st with h' | ⟨h', -⟩ <;> rw [h] at h' <;> cases h'
    · rcases st with h | h
      · exact .inl h
      · exact .inr (.inl h)
  · rw [innerStep_finish hs] at h'
    unfold acCandidatesFinish at h'
    rw [hp] at h'
    simp only at h'
    have hl := L.search (by rw [hs]; simp)
    split at h'
    · obtain ⟨b1, h1, h'⟩ := M.bind_eq_ok.mp h'
      split at h'
      · cases h'
      · cases h'
        refine ⟨L.current, (wr_size h1).trans L.size, fun h => absurd rfl h, fun _ => ?_, .inr (.inr rfl)⟩
        rcases hl with ⟨k1, k2, k3⟩ | ⟨k1, k2, k3⟩ | k
        · refine .inl ⟨_, ?_, wr_nul h1, ?_⟩
          · show u.acInput ≤ if u.inPos > 0 then u.inPos - 1 else u.inPos
            rw [if_pos (by omega)]; omega
          · show (if u.inPos > 0 then u.inPos - 1 else u.inPos) < u.acSuffixLen - 1
            rw [if_pos (by omega)]; omega
        · refine .inl ⟨u.inPos, by show u.acInput ≤ _; omega, wr_keeps h1 k2, ?_⟩
          show u.inPos < u.acSuffixLen - 1
          omega
        · refine .inr ?_
          show E.inSize ≤ u.acSuffixLen - 1
          omega
    · refine acOptimize_lost L.current L.size ?_ h'
      rcases hl with ⟨k1, k2, k3⟩ | ⟨k1, k2, k3⟩ | k
      · exact .inl ⟨by omega, k2, k3⟩
      · exact .inl ⟨by omega, k2, by omega⟩
      · exact .inr k
  · exfalso
    unfold innerStep at h'
    rw [hs] at h'
    simp only at h'
    unfold acRecallSuffix at h'
    obtain ⟨len, h1, h'⟩ := M.bind_eq_ok.mp h'
    unfold strlenAt at h1
    obtain ⟨s, h2, h1⟩ := M.bind_eq_ok.mp h1
    cases h1
    have hlt : u.acInput + s.length < u.acSuffixLen := by
      rcases L.recall hs with ⟨k, k1, k2, k3⟩ | k
      · have := cstrAt_le' h2 k1 k2
        omega
      · have := cstrAt_lt h2
        have := L.size
        omega
    rw [if_pos hlt] at h'
    cases h'

theorem Lost.chain (L : Lost E u) (i : List UInt8) : ∀ (n : Nat) {v : Ush} {r : List UInt8}, chain E u i n = .ok (v, r) → Lost E v ∧ r = i := by
  intro n
  induction n generalizing u with
  | zero => intro v r h; cases h; exact ⟨L, rfl⟩
  | succ n ih =>
    intro v r h
    rw [chain_succ] at h
    obtain ⟨⟨w, q⟩, h1, h⟩ := M.bind_eq_ok.mp h
    unfold drive1 at h1
    obtain ⟨⟨w', b⟩, hw, h1⟩ := M.bind_eq_ok.mp h1
    rw [if_neg (fun h => L.read h.1)] at h1
    cases h1
    exact ih (L.step _ hw) h

/-- The search begins again with the empty word.  It ends with a fault, or not at all. -/
theorem Wrapped.lost {es : EscSt} {n : Nat} (H : Wrapped E W es n u) (hn : n ≤ (W.offers []).length) (hn0 : 0 < n) (i : List UInt8) :
    ∃ v, Steps E u i v i ∧ ((∀ io, service E io v = .error .oob) ∨ Lost E v) := by
  have S := H.toTabbing.scan (by rw [H.state]; rfl)
  by_cases hr : W.Room E []
  · obtain ⟨v, r, St, s1, s2, s3, s4⟩ := scan_all S hr i H.node H.stage H.index H.item
    have Tv := H.toTabbing.same St
    have pc : v.acPrevCount = n := by rw [St.acPrevCount]; exact H.prev
    have sl : v.acSuffixLen = u.acSuffixLen := St.acSuffixLen
    have hsuf := H.suffix
    obtain ⟨rest, hb⟩ := Tv.buf
    have hv : v.inBuf[v.inPos]? = some cNul := by rw [hb, Tv.pos]; rfl
    have hcnt : ¬ v.acCount < v.acPrevCount := by rw [s3, H.count, pc]; omega
    have e : innerStep E v = acOptimizeContinue E v := by
      rw [innerStep_finish s1]
      unfold acCandidatesFinish
      rw [s2, H.state]
      simp only
      rw [if_neg hcnt]
    obtain ⟨c, hc⟩ : ∃ c, v.acCand = some c := by
      rw [s4]
      cases ho : W.offers [] with
      | nil => rw [ho] at hn; simp at hn; omega
      | cons a l => rw [List.getLast?_eq_getLast_of_ne_nil (by simp)]; exact ⟨_, rfl⟩
    obtain ⟨v1, h1⟩ : ∃ v1, acOptimizeContinue E v = .ok v1 := by
      by_cases hl : c.length ≤ 0
      · exact ⟨_, acOptimize_end Tv hc hl⟩
      · have hsz := Tv.sized.inLen
        rcases Nat.lt_or_ge 1 E.inSize with h1 | h1
        · obtain ⟨rest, e, -⟩ := acOptimize_step Tv hc (by simpa using Nat.lt_of_not_le hl) (by simpa using h1)
          exact ⟨_, e⟩
        · have hcn : cNul ∉ c := by
            refine Tv.toHolds.offers_nul (x := []) c ?_
            rw [s4] at hc
            cases ho : (W.offers []).getLast? with
            | none =>
              have := List.getLast?_eq_none_iff.mp ho
              rw [this] at hn; simp at hn; omega
            | some d =>
              rw [ho] at hc
              cases hc
              exact List.mem_of_getLast? ho
          have := Tv.length
          obtain ⟨v1, e, -⟩ := acOptimize_wrap Tv hc hcn (by simpa using Nat.lt_of_not_le hl) (by simp at this ⊢; omega) i
          exact ⟨v1, e⟩
    have hpos : v.inPos = 0 := Tv.pos
    have L : Lost E v1 := acOptimize_lost Tv.toHolds.current Tv.sized.inLen (.inl ⟨by rw [hpos, Tv.input]; exact Nat.le_refl _, hv, by rw [hpos, sl]; exact hsuf⟩) h1
    have hlog : v1.log = v.log := acOptimizeContinue_log h1
    refine ⟨v1, r.steps.trans (Run.inner i (l := []) Tv.toHolds.current (by rw [s1]; simp) (by rw [s1]; simp) (by rw [e, h1]) (by simp [hlog])).steps, .inr L⟩
  · obtain ⟨v, s, h⟩ := scan_far S i H.node H.stage H.index H.item hr
    exact ⟨v, s, .inl h⟩

/-! ## Without an end -/

theorem chain_suffix : ∀ (n : Nat) {u v : Ush} {i r : List UInt8}, chain E u i n = .ok (v, r) → r <:+ i := by
  intro n
  induction n with
  | zero => intro u v i r h; cases h; exact List.suffix_refl _
  | succ n ih =>
    intro u v i r h
    rw [chain_succ] at h
    obtain ⟨⟨w, q⟩, h1, h⟩ := M.bind_eq_ok.mp h
    have := ih h
    rcases drive1_pending h1 with rfl | ⟨-, -, rfl⟩
    · exact this
    · exact this.trans (List.tail_suffix _)

/-- The names for the word `x` have been counted. -/
structure Counted (E : Env) (W : World) (p : Str) (es : EscSt) (N : Nat) (x : Str) (u : Ush) : Prop extends Tabbing E W [] x es u where
  state : u.state = .acCandFinish
  prev : u.acPrevState = .acCandCount ∨ (u.acPrevState = .acCandOptimise ∧ u.acPrevCount = N)
  count : u.acCount = N
  cand : u.acCand = (W.offers x).getLast?
  word : x <+: p

theorem Counted.step {p x : Str} {es : EscSt} {N : Nat} (D : Endless E W p N) (C : Counted E W p es N x u) (i : List UInt8) :
    ∃ m v x', chain E u i (m + 1) = .ok (v, i) ∧ Counted E W p es N x' v := by
  have hx : x.length < E.inSize := by have := C.toTabbing.length; simpa using this
  obtain ⟨hN, hp⟩ := D.names x C.word hx
  have hm := D.many
  obtain ⟨c, hc⟩ : ∃ c, (W.offers x).getLast? = some c := by
    cases hg : (W.offers x).getLast? with
    | none => have := List.getLast?_eq_none_iff.mp hg; rw [this] at hN; simp at hN; omega
    | some c => exact ⟨c, rfl⟩
  have hcm := List.mem_of_getLast? hc
  obtain ⟨t, ht⟩ := hp c hcm
  have hcl : x.length < c.length := by rw [← ht]; have := D.long; simp; omega
  have hcn := C.toTabbing.toHolds.offers_nul c hcm
  have next : ∀ b : Ush, b.acCand = u.acCand → SameFs u b → b.inBuf = u.inBuf → b.outBuf = u.outBuf → b.acInput = u.acInput → b.inPos = u.inPos → b.ansiEsc = u.ansiEsc →
      b.acCount = u.acCount → b.log = u.log → innerStep E u = acOptimizeContinue E b → ∃ m v x', chain E u i (m + 1) = .ok (v, i) ∧ Counted E W p es N x' v := by
    intro b b1 b2 b3 b4 b5 b6 b7 b8 b9 e
    have Tb : Tabbing E W [] x es b :=
      { toHolds := C.toTabbing.toHolds.same b2 ⟨by rw [b3]; exact C.sized.inLen, by rw [b4]; exact C.sized.outLen⟩, buf := by rw [b3]; exact C.buf, input := by rw [b5]; exact C.input,
        nul := C.nul, nulPre := C.nulPre, pos := by rw [b6]; exact C.pos, esc := by rw [b7]; exact C.esc }
    have hcb : b.acCand = some c := by rw [b1, C.cand, hc]
    -- the scan for the next word
    have go : ∀ (z : Str) (u1 : Ush), z <+: p → z.length < E.inSize → Tabbing E W [] z es u1 → acOptimizeContinue E b = .ok u1 → u1.state = .acCandOptimise → u1.acCount = 0 →
        u1.acPrevCount = N → u1.procNode = u1.commands → u1.procStage = 0 → u1.procIndex = 0 → u1.procItem = 0 →
        ∃ m v x', chain E u i (m + 1) = .ok (v, i) ∧ Counted E W p es N x' v := by
      intro z u1 hz hzl T1 e1 g1 g2 g3 g4 g5 g6 g7
      obtain ⟨v, r, St, s1, s2, s3, s4⟩ := scan_all (T1.scan (by rw [g1]; rfl)) (D.room z hz hzl) i g4 g5 g6 g7
      have Tv := T1.same St
      obtain ⟨k, hk⟩ := r.steps
      have hzN := (D.names z hz hzl).1
      have hnz : W.offers z ≠ [] := by intro h; rw [h] at hzN; simp at hzN; omega
      refine ⟨k, v, z, ?_, { toTabbing := Tv, state := s1, prev := .inr ⟨s2.trans g1, by rw [St.acPrevCount]; exact g3⟩, count := by rw [s3, g2, hzN]; omega, cand := ?_, word := hz }⟩
      · rw [chain_succ]
        have : drive1 E u i .full = .ok (u1, i) := by
          unfold drive1
          rw [service_eq E _ u C.toTabbing.toHolds.current, C.state]
          simp only [reduceCtorEq, false_and, if_false]
          rw [e, e1]
          rfl
        rw [this]
        exact hk
      · rw [s4, List.getLast?_eq_getLast_of_ne_nil hnz]; rfl
    by_cases hfit : x.length + 1 < E.inSize
    · obtain ⟨rest, e1, hl⟩ := acOptimize_step Tb hcb hcl (by simpa using hfit)
      have hz : x ++ [c[x.length]] <+: p := by
        obtain ⟨y, hy⟩ := C.word
        have := D.long
        cases y with
        | nil => rw [List.append_nil] at hy; rw [← hy] at this; omega
        | cons a y =>
          refine ⟨y, ?_⟩
          simp [← hy, ← ht]
      refine go _ _ hz (by simpa using hfit) ?_ e1 rfl rfl (by show b.acCount = N; rw [b8]; exact C.count) rfl rfl rfl rfl
      have hnz : cNul ∉ x ++ [c[x.length]] := by
        intro h
        obtain ⟨y, hy⟩ := hz
        exact hcn (by rw [← ht, ← hy]; exact List.mem_append_left _ (List.mem_append_left _ h))
      exact { toHolds := ⟨⟨hl, Tb.sized.outLen⟩, Tb.rep.same ⟨rfl, rfl, rfl, rfl⟩, Tb.ok⟩, buf := ⟨rest, rfl⟩, input := Tb.input, nul := hnz, nulPre := Tb.nulPre, pos := by show b.inPos + 1 = _; rw [Tb.pos]; simp, esc := Tb.esc }
    · obtain ⟨u1, e1, -, ⟨-, Wr⟩ | h⟩ := acOptimize_wrap Tb hcb hcn hcl (by simp; omega) i
      · exact go [] u1 (by simp) (by simp; omega) Wr.toTabbing e1 Wr.state Wr.count (by rw [Wr.prev, b8]; exact C.count) Wr.node Wr.stage Wr.index Wr.item
      · exact absurd rfl h.1
  rcases C.prev with h | ⟨h, h'⟩
  · exact next { u with acSuffixLen := 0 } rfl ⟨rfl, rfl, rfl, rfl⟩ rfl rfl rfl rfl rfl rfl rfl (by rw [innerStep_finish C.state, acFinish_many (n := N - 2) h (by rw [C.count]; omega)])
  · refine next u rfl ⟨rfl, rfl, rfl, rfl⟩ rfl rfl rfl rfl rfl rfl rfl ?_
    rw [innerStep_finish C.state]
    unfold acCandidatesFinish
    rw [h]
    simp only
    rw [if_neg (by rw [C.count, h']; omega)]

theorem Counted.forever {p : Str} {es : EscSt} {N : Nat} (D : Endless E W p N) (i : List UInt8) : ∀ (n : Nat) {u : Ush} {x : Str}, Counted E W p es N x u →
    ∃ v, chain E u i n = .ok (v, i) := by
  intro n
  induction n using Nat.strongRecOn with
  | _ n ih =>
    intro u x C
    obtain ⟨m, v, x', h, C'⟩ := C.step D i
    by_cases hn : n ≤ m + 1
    · obtain ⟨d, hd⟩ := Nat.exists_eq_add_of_le hn
      rw [hd, chain_add] at h
      obtain ⟨⟨w, q⟩, h1, h2⟩ := M.bind_eq_ok.mp h
      have k1 := chain_pending _ h1
      have k2 := chain_pending _ h2
      have := chain_suffix _ h1
      simp only at k2
      exact ⟨w, by rw [h1, this.eq_of_length (by omega)]⟩
    · obtain ⟨w, hw⟩ := ih (n - (m + 1)) (by omega) C'
      refine ⟨w, ?_⟩
      rw [show n = m + 1 + (n - (m + 1)) by omega, chain_add, h]
      exact hw

/-! ## Never again -/

/-- The shell never waits for a key again: it runs into a fault or goes on for ever. -/
def Never (E : Env) (u : Ush) (i : List UInt8) : Prop := ∀ (n : Nat) (v : Ush) (r : List UInt8), chain E u i n = .ok (v, r) → v.state ≠ .readChar ∧ r = i

theorem Lost.never (L : Lost E u) (i : List UInt8) : Never E u i := fun n _ _ h => ⟨(L.chain i n h).1.read, (L.chain i n h).2⟩

theorem stuck_read (h : ∀ io, service E io u = .error .oob) : u.state ≠ .readChar := by
  intro hs
  have h := h ⟨none, true⟩
  cases hc : u.current.isSome with
  | false =>
    unfold service at h
    cases hu : u.current with
    | some n => rw [hu] at hc; cases hc
    | none => rw [hu] at h; cases h
  | true =>
    rw [service_eq E _ u hc, hs] at h
    simp only at h
    unfold readChar at h
    cases h

theorem never_stuck (h : ∀ io, service E io u = .error .oob) (i : List UInt8) : Never E u i := by
  have hs := stuck_read h
  intro n v r hn
  cases n with
  | zero => cases hn; exact ⟨hs, rfl⟩
  | succ n =>
    rw [chain_succ] at hn
    unfold drive1 at hn
    rw [h] at hn
    cases hn

/-- Before the point from which the shell never waits again, it does not wait either, unless it consumes something. -/
theorem Never.before {inp r : List UInt8} (h : Steps E u inp v r) (hn : Never E v r) (n : Nat) {w : Ush} {q : List UInt8} (e : chain E u inp n = .ok (w, q)) :
    r.length ≤ q.length ∧ (q.length = r.length → w.state ≠ .readChar) := by
  obtain ⟨m, hm⟩ := h
  change chain E u inp m = .ok (v, r) at hm
  by_cases hle : n ≤ m
  · obtain ⟨d, rfl⟩ := Nat.exists_eq_add_of_le hle
    rw [chain_add, e] at hm
    have k := chain_pending _ hm
    refine ⟨k, fun hq hs => ?_⟩
    -- it waits
    cases d with
    | zero => cases hm; exact (hn 0 _ _ rfl).1 hs
    | succ d =>
      have hqr : r = q := (chain_suffix _ hm).eq_of_length hq.symm
      subst hqr
      change chain E w r (d + 1) = _ at hm
      have hcw : w.current.isSome = true := by
        cases hcw : w.current.isSome with
        | true => rfl
        | false => rw [chain_succ, drive1_noroot E w r _ hcw] at hm; cases hm
      by_cases hr : r = []
      · have := chain_idle E w r ⟨hs, hr⟩ hcw (d + 1)
        rw [this] at hm
        cases hm
        exact (hn 0 _ _ rfl).1 hs
      · rw [chain_succ] at hm
        obtain ⟨⟨w', q'⟩, h1, h2⟩ := M.bind_eq_ok.mp hm
        have k2 := chain_pending _ h2
        unfold drive1 at h1
        obtain ⟨⟨w'', b⟩, hw, h1⟩ := M.bind_eq_ok.mp h1
        rw [if_pos ⟨hs, rfl⟩] at h1
        cases h1
        rw [List.length_tail] at k2
        have := List.length_pos_iff.mpr hr
        omega
  · obtain ⟨d, rfl⟩ := Nat.exists_eq_add_of_le (Nat.le_of_not_le hle)
    rw [chain_add, hm] at e
    obtain ⟨h1, rfl⟩ := hn d _ _ e
    exact ⟨Nat.le_refl _, fun _ => h1⟩

theorem Counted.later {p : Str} {es : EscSt} {N : Nat} (D : Endless E W p N) (i : List UInt8) : ∀ (n : Nat) {u : Ush} {x : Str}, Counted E W p es N x u →
    ∃ m ≥ n, ∃ v x', chain E u i m = .ok (v, i) ∧ Counted E W p es N x' v := by
  intro n
  induction n with
  | zero => intro u x C; exact ⟨0, Nat.le_refl _, u, x, rfl, C⟩
  | succ n ih =>
    intro u x C
    obtain ⟨m, v, x', h, C'⟩ := C.step D i
    obtain ⟨k, hk, w, y, h', C''⟩ := ih C'
    exact ⟨m + 1 + k, by omega, w, y, by rw [chain_add, h]; exact h', C''⟩

theorem Counted.never {p x : Str} {es : EscSt} {N : Nat} (D : Endless E W p N) (C : Counted E W p es N x u) (i : List UInt8) : Never E u i := by
  intro n v r h
  obtain ⟨v', h'⟩ := Counted.forever D i n C
  rw [h] at h'
  cases h'
  refine ⟨fun hs => ?_, rfl⟩
  have hcv : v.current.isSome = true := by
    cases hcv : v.current.isSome with
    | true => rfl
    | false =>
      obtain ⟨w, hw⟩ := Counted.forever D i (n + 1) C
      rw [chain_add, h, M.ok_bind] at hw
      change chain E v i 1 = _ at hw
      rw [chain_succ, drive1_noroot E v i _ hcv] at hw
      cases hw
  by_cases hr : i = []
  · obtain ⟨m, hm, w, y, hw, Cw⟩ := Counted.later D i n C
    obtain ⟨d, rfl⟩ := Nat.exists_eq_add_of_le hm
    rw [chain_add, h, M.ok_bind] at hw
    have := chain_idle E v i ⟨hs, hr⟩ hcv d
    rw [this] at hw
    cases hw
    rw [Cw.state] at hs
    cases hs
  · obtain ⟨w, hw⟩ := Counted.forever D i (n + 1) C
    rw [chain_add, h, M.ok_bind] at hw
    change chain E v i 1 = _ at hw
    rw [chain_succ] at hw
    obtain ⟨⟨w', q'⟩, h1, h2⟩ := M.bind_eq_ok.mp hw
    have k2 := chain_pending _ h2
    unfold drive1 at h1
    obtain ⟨⟨w'', b⟩, -, h1⟩ := M.bind_eq_ok.mp h1
    rw [if_pos ⟨hs, rfl⟩] at h1
    cases h1
    rw [List.length_tail] at k2
    have := List.length_pos_iff.mpr hr
    omega

theorem fair_never (g : Nat → Slot) (hg : Fair g) {inp r : List UInt8} (h : Steps E u inp v r) (hn : Never E v r) :
    ∃ N, ∀ n ≥ N, ∀ w q, driveN E g u inp n = .ok (w, q) → w.state ≠ .readChar ∧ q = r := by
  obtain ⟨N, hN⟩ := fair_gets g hg h
  refine ⟨N, fun n hle w q e => ?_⟩
  obtain ⟨d, rfl⟩ := Nat.exists_eq_add_of_le hle
  unfold driveN at hN e
  rw [List.range_add, List.map_append, drive_append, hN] at e
  obtain ⟨k, -, hk⟩ := drive_chain E _ _ _ _ _ e
  exact hn k _ _ hk

end
end Ush
