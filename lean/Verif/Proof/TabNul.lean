import Verif.Proof.Tab
/-! # TAB on a line with a NUL -/
namespace Ush
open Spec

section
variable {E : Env} {W : World} {pre x : Str} {es : EscSt} {line : Str} {u v : Ush}

/-- The line is `line`, the word that is being completed is `x`, after `pre`. -/
structure TabAt (E : Env) (W : World) (pre x : Str) (es : EscSt) (line : Str) (u : Ush) : Prop extends Holds E W u where
  whole : ∃ rest, u.inBuf = line ++ cNul :: rest
  buf : ∃ rest, u.inBuf = pre ++ (x ++ cNul :: rest)
  input : u.acInput = pre.length
  nul : cNul ∉ x
  nulPre : cNul ∉ pre
  pos : u.inPos = line.length
  esc : u.ansiEsc = es.toNat

theorem TabAt.scan (T : TabAt E W pre x es line u) (h : isScan u.state = true) : Scan E W pre x u :=
  { toHolds := T.toHolds, scan := h, buf := T.buf, input := T.input, nul := T.nul }

theorem TabAt.same (T : TabAt E W pre x es line u) (h : SameTab u v) : TabAt E W pre x es line v :=
  { toHolds := T.toHolds.same h.toSameFs ⟨by rw [h.inBuf]; exact T.sized.inLen, by rw [h.outBuf]; exact T.sized.outLen⟩,
    whole := by rw [h.inBuf]; exact T.whole, buf := by rw [h.inBuf]; exact T.buf, input := by rw [h.acInput]; exact T.input, nul := T.nul, nulPre := T.nulPre,
    pos := by rw [h.inPos]; exact T.pos, esc := by rw [h.ansiEsc]; exact T.esc }

/-- Fields that the shell uses otherwise may change. -/
theorem TabAt.with (T : TabAt E W pre x es line u) (h : SameFs u v) (h1 : v.inBuf = u.inBuf) (h2 : v.outBuf = u.outBuf) (h3 : v.acInput = u.acInput) (h4 : v.inPos = u.inPos)
    (h5 : v.ansiEsc = u.ansiEsc) : TabAt E W pre x es line v :=
  { toHolds := T.toHolds.same h ⟨by rw [h1]; exact T.sized.inLen, by rw [h2]; exact T.sized.outLen⟩,
    whole := by rw [h1]; exact T.whole, buf := by rw [h1]; exact T.buf, input := by rw [h3]; exact T.input, nul := T.nul, nulPre := T.nulPre,
    pos := by rw [h4]; exact T.pos, esc := by rw [h5]; exact T.esc }

theorem TabAt.word (T : TabAt E W pre x es line u) : strlenAt u.inBuf u.acInput = .ok x.length := by
  obtain ⟨rest, hb⟩ := T.buf
  rw [hb, T.input]
  exact strlenAt_of_drop (rest := rest) T.nul (by simp)

theorem TabAt.waiting (T : TabAt E W pre x es line u) (hs : u.state = .readChar) (h : cLf ∉ line ∧ cCr ∉ line) : Waiting E W u ⟨line, es⟩ :=
  { toHolds := T.toHolds, shows := ⟨hs, T.esc, T.pos, T.whole⟩, clean := h }

theorem seen_split (h : cNul ∈ line) : ∃ t, line = seen line ++ cNul :: t := by
  unfold seen
  induction line with
  | nil => cases h
  | cons a l ih =>
    by_cases ha : a = cNul
    · subst ha
      exact ⟨l, by simp⟩
    · obtain ⟨t, ht⟩ := ih ((List.mem_cons.mp h).resolve_left fun e => ha e.symm)
      refine ⟨t, ?_⟩
      rw [List.takeWhile_cons_of_pos (by simpa using ha), List.cons_append, ← ht]

theorem seen_nul (line : Str) : cNul ∉ seen line := by
  unfold seen
  intro h
  have := List.mem_takeWhile_imp h
  simp at this

/-- TAB: the word to be completed is determined. -/
theorem press_start {e : Editor} {y : Str} (on : E.autocomplete = true) (H : Waiting E W u e) (i : List UInt8) (hnul : cNul ∈ e.line)
    (hsplit : seen e.line = pre ++ y) (hoff : lastArgOff (seen e.line) = pre.length) :
    ∃ v, Run E u (cTab :: i) v i [.inp cTab] ∧ TabAt E W pre y e.esc e.line v ∧ v.state = .acCandStart := by
  have hc := H.toHolds.current
  obtain ⟨rest, hb⟩ := H.shows.buf
  obtain ⟨t, ht⟩ := seen_split hnul
  have hb' : u.inBuf = seen e.line ++ cNul :: (t ++ cNul :: rest) := by
    conv_lhs => rw [hb, ht]
    simp
  have r1 : Run E u (cTab :: i) { u.emit (.inp cTab) with state := .acPrepare } i [.inp cTab] :=
    ⟨drive1_read (b := true) hc H.shows.state (by unfold readChar; rw [on]; rfl), rfl⟩
  have hcs : cstrAt u.inBuf 0 = .ok (seen e.line) := by rw [hb']; exact cstrAt_zero _ _ (seen_nul _)
  have r2 : Run E { u.emit (.inp cTab) with state := .acPrepare } i { u.emit (.inp cTab) with acInput := pre.length, state := .acCandStart } i [] := by
    refine Run.inner i hc (by simp) (by simp) ?_ (by simp)
    show acStatePrepare { u.emit (.inp cTab) with state := .acPrepare } = _
    unfold acStatePrepare
    show (cstrAt u.inBuf 0 >>= _) = _
    rw [hcs, M.ok_bind, hoff]
    rfl
  refine ⟨_, (r1.trans r2).cast (by simp), ?_, rfl⟩
  have hn := seen_nul e.line
  rw [hsplit] at hn
  exact { toHolds := ⟨⟨H.sized.inLen, H.sized.outLen⟩, H.rep.same ⟨rfl, rfl, rfl, rfl⟩, H.ok⟩
          whole := ⟨rest, hb⟩
          buf := ⟨t ++ cNul :: rest, by show u.inBuf = _; rw [hb', hsplit]; simp⟩
          input := rfl
          nul := fun h => hn (by simp [h])
          nulPre := fun h => hn (by simp [h])
          pos := H.shows.pos
          esc := H.shows.esc }

/-- Counting the candidates. -/
theorem press_count {y : Str} (T : TabAt E W pre y es line u) (hs : u.state = .acCandStart) (hr : W.Room E y) (i : List UInt8) :
    ∃ a, Run E u i a i [] ∧ TabAt E W pre y es line a ∧ a.state = .acCandFinish ∧ a.acPrevState = .acCandCount ∧
      a.acCount = (W.offers y).length ∧ (W.offers y ≠ [] → a.acCand = (W.offers y).getLast?) := by
  have r1 : Run E u i (acCandidatesStart u) i [] :=
    Run.inner i T.toHolds.current (by rw [hs]; simp) (by rw [hs]; simp) (by unfold innerStep; rw [hs]) (by simp [acCandidatesStart, acPrepareCandidates])
  have T1 : TabAt E W pre y es line (acCandidatesStart u) := T.with ⟨rfl, rfl, rfl, rfl⟩ rfl rfl rfl rfl rfl
  obtain ⟨a, r2, Sa, a1, a2, a3, a4⟩ := scan_all (T1.scan rfl) hr i rfl rfl rfl rfl
  refine ⟨a, r1.trans r2, T1.same Sa, a1, a2, by rw [a3]; exact Nat.zero_add _, fun hne => ?_⟩
  rw [a4, List.getLast?_eq_getLast_of_ne_nil hne]
  rfl

/-- The list of candidates, the prompt and the line up to the NUL. -/
theorem press_list (cfg : Config E) (T : TabAt E W pre x es line u) (hr : W.Room E x) (i : List UInt8) (hs : u.state = .acCandPrint)
    (h1 : u.procNode = u.commands) (h2 : u.procStage = 0) (h3 : u.procIndex = 0) (h4 : u.procItem = 0) :
    ∃ v, Run E u i v i (outs ((W.offers x).flatMap (· ++ crlf) ++ W.prompt E ++ (pre ++ x))) ∧ TabAt E W pre x es line v ∧ v.state = .readChar := by
  obtain ⟨a, ra, Sa, a1, a2, -, -⟩ := scan_all (T.scan (by rw [hs]; rfl)) hr i h1 h2 h3 h4
  have Ta := T.same Sa
  have ca := Ta.toHolds.current
  have eb : innerStep E a = .ok { a with state := .acPrompt } := by
    rw [innerStep_finish a1]
    unfold acCandidatesFinish
    rw [a2, hs]
  have rb := Run.inner i (l := []) ca (by rw [a1]; simp) (by rw [a1]; simp) eb (by simp)
  have rc : Run E { a with state := .acPrompt } i { a with state := .promptPrefix, promptNext := .acRecall } i [] :=
    Run.inner i ca (by simp) (by simp) rfl (by simp)
  obtain ⟨m, -, m1, m2, m3, m4, -⟩ := Ta.toHolds.cwd
  obtain ⟨d, rd, qd, sd⟩ := prompt_run cfg.texts (u := { a with state := .promptPrefix, promptNext := .acRecall }) i rfl m2 m3 m4
  have Td : TabAt E W pre x es line d := Ta.same (qd.tab.after ⟨⟨rfl, rfl, rfl, rfl⟩, rfl, rfl, rfl, rfl, rfl, rfl, rfl⟩)
  obtain ⟨rest, hb⟩ := Td.buf
  have re := Run.sayIn (E := E) (u := d) (u' := d) (a := []) (s := pre ++ x) (rest := rest) (next := .readChar) i Td.toHolds.current
    (by rw [sd]; simp) (by rw [sd]; simp) (by unfold innerStep; rw [sd]; rfl) (by rw [hb]; simp) (by simp [Td.nul, Td.nulPre]) rfl rfl
  refine ⟨_, (ra.trans (rb.trans (rc.trans (rd.trans re)))).cast ?_, Td.with ⟨rfl, rfl, rfl, rfl⟩ rfl rfl rfl rfl rfl, rfl⟩
  rw [hs, World.prompt, m1]
  simp [outs, scanText]

theorem more_end {y : Str} (h : (W.offers y).getLast? = some y) : W.more y = none := by
  unfold World.more
  rw [h]
  simp

/-- TAB on a line with a NUL. -/
theorem press_run {e : Editor} (on : E.autocomplete = true) (cfg : Config E) (H : Waiting E W u e) (i : List UInt8) (hnul : cNul ∈ e.line) (ht : W.LineFits E e.line) :
    ∃ v, Run E u (cTab :: i) v i (.inp cTab :: outs (W.press E e.line).2) ∧ v.state = .readChar ∧ (W.LineClean E e.line → Waiting E W v ⟨(W.press E e.line).1, e.esc⟩) := by
  obtain ⟨k1, k2⟩ := tabTarget_split (seen e.line)
  obtain ⟨w, r1, T, hs⟩ := press_start on H i hnul k1 k2
  unfold World.press
  unfold World.LineFits at ht
  unfold World.LineClean
  obtain ⟨t0, ht0⟩ := seen_split hnul
  simp only at ht ⊢
  generalize (tabTarget (seen e.line)).1 = pre at *
  generalize (tabTarget (seen e.line)).2 = y at *
  obtain ⟨⟨hr, hfit, -⟩, hlast⟩ := ht
  obtain ⟨a, r2, Ta, a1, a2, a3, a4⟩ := press_count T hs hr i
  have ca := Ta.toHolds.current
  have n1 : a.state ≠ .readChar := by rw [a1]; simp
  have n2 : a.state ≠ .writeChar := by rw [a1]; simp
  have ei : innerStep E a = acCandidatesFinish E a := innerStep_finish a1
  rcases hcs : W.offers y with _ | ⟨c, _ | ⟨c2, cs⟩⟩
  · rw [acFinish_none a2 (by rw [a3, hcs]; rfl)] at ei
    have hm : W.more y = none := by unfold World.more; rw [hcs]; rfl
    have hg : W.grown E y = y := by
      unfold World.grown
      rw [hcs]
      exact lastOf_none hm
    rw [if_pos ⟨hnul, by simp⟩]
    have Tb : TabAt E W pre y e.esc e.line { a with state := .readChar } := Ta.with ⟨rfl, rfl, rfl, rfl⟩ rfl rfl rfl rfl rfl
    refine ⟨_, (r1.trans (r2.trans (Run.inner i (l := []) ca n1 n2 ei (by simp)))).cast ?_, rfl, fun _ => Tb.waiting rfl H.clean⟩
    simp [World.tabs, hcs, hg]
  · have hcm : c ∈ W.offers y := by rw [hcs]; simp
    have hnc := Ta.toHolds.offers_nul c hcm
    obtain ⟨t, ht⟩ := offers_prefix hcm
    obtain ⟨rest, hb⟩ := Ta.buf
    have hlen := Ta.sized.inLen
    have hst := storeStr_ok (b := a.inBuf) (off := a.acInput) (s := c) (by rw [hlen, Ta.input]; exact hfit c hcm (by rw [hcs]; rfl))
    generalize hr2 : List.drop (a.acInput + c.length + 1) a.inBuf = rest2 at hst
    have hb2 : a.inBuf.take a.acInput ++ c ++ [cNul] ++ rest2 = pre ++ (c ++ cNul :: rest2) := by
      rw [hb, Ta.input]; simp
    rw [hb2] at hst
    have hsl : strlenAt (pre ++ (c ++ cNul :: rest2)) 0 = .ok (pre.length + c.length) := by
      rw [strlenAt_of_drop (s := pre ++ c) (rest := rest2) (by simp [Ta.nulPre, hnc]) (by simp)]
      simp
    rw [acFinish_one a2 (by rw [a3, hcs]; rfl) (by rw [a4 (by rw [hcs]; simp), hcs]; rfl) Ta.word hst hsl, show a.acInput + y.length = (pre ++ y).length by rw [Ta.input]; simp] at ei
    have hnt : cNul ∉ t := fun h => hnc (by rw [← ht]; simp [h])
    have r3 := Run.sayIn (s := t) (rest := rest2) i ca n1 n2 ei (by show pre ++ (c ++ cNul :: rest2) = _; rw [← ht]; simp) hnt rfl rfl
    have Tb : Tabbing E W pre c e.esc { a with inBuf := pre ++ (c ++ cNul :: rest2), inPos := pre.length + c.length } :=
      { toHolds := ⟨⟨(storeStr_length hst).trans hlen, Ta.sized.outLen⟩, Ta.rep.same ⟨rfl, rfl, rfl, rfl⟩, T.ok⟩, buf := ⟨_, rfl⟩, input := Ta.input, nul := hnc, nulPre := T.nulPre, pos := rfl, esc := Ta.esc }
    have hg : W.grown E y = c := by unfold World.grown; rw [hcs]
    rw [if_neg (by simp)]
    have hsub : ∀ b, b ∈ pre ++ y → b ∈ e.line := fun b hb => by rw [ht0, k1]; exact List.mem_append_left _ hb
    refine ⟨_, (r1.trans (r2.trans r3)).cast ?_, rfl, fun hcl => ?_⟩
    · unfold World.tabs
      rw [hg, if_neg (by rw [hcs]; simp), ← ht]
      simp
    · rw [hg, ← ht, List.drop_left] at hcl
      unfold World.tabs
      rw [hg]
      refine (Tb.said _ _ _).waiting rfl ?_ ?_
      · rw [← ht, ← List.append_assoc]
        exact fun h => (List.mem_append.mp h).elim (fun h => H.clean.1 (hsub _ h)) hcl.1
      · rw [← ht, ← List.append_assoc]
        exact fun h => (List.mem_append.mp h).elim (fun h => H.clean.2 (hsub _ h)) hcl.2
  · have hl := hlast hnul (by rw [hcs]; simp)
    have hne : W.offers y ≠ [] := by rw [hcs]; simp
    have hm := more_end hl
    have hg : W.grown E y = y := by
      unfold World.grown
      rw [hcs]
      exact lastOf_none hm
    have hcand : a.acCand = some y := by rw [a4 hne, hl]
    rw [acFinish_many (n := cs.length) a2 (by rw [a3, hcs]; rfl)] at ei
    have eo : acOptimizeContinue E { a with acSuffixLen := 0 } = .ok { a with acSuffixLen := 0, acPrevCount := a.acCount, state := .acRecallSuffix } := by
      unfold acOptimizeContinue
      simp only [Ta.word, M.ok_bind, hcand]
      rw [if_pos (Nat.le_refl _)]
      rfl
    rw [eo] at ei
    have r3 := Run.inner i (l := []) ca n1 n2 ei (by simp)
    have T3 : TabAt E W pre y e.esc e.line { a with acSuffixLen := 0, acPrevCount := a.acCount, state := .acRecallSuffix } :=
      Ta.with ⟨rfl, rfl, rfl, rfl⟩ rfl rfl rfl rfl rfl
    generalize hb : { a with acSuffixLen := 0, acPrevCount := a.acCount, state := St.acRecallSuffix } = b at r3 T3
    have hbs : b.state = .acRecallSuffix := by rw [← hb]
    have hbl : b.acSuffixLen = 0 := by rw [← hb]
    have hst : strlenAt b.inBuf (b.acInput + y.length) = .ok 0 := by
      obtain ⟨rest, hbb⟩ := T3.buf
      rw [hbb, T3.input]
      exact strlenAt_of_drop (s := []) (rest := rest) (by simp) (by rw [← List.length_append, ← List.append_assoc, List.drop_left]; rfl)
    have e4 : innerStep E b = writePointer (acPrepareCandidates b) (.str crlf) .acCandPrint := by
      unfold innerStep
      rw [hbs]
      simp only
      unfold acRecallSuffix
      rw [T3.word, M.ok_bind, if_neg (by rw [hbl]; simp)]
      simp only [hbl, Nat.sub_zero, hst, M.ok_bind]
      rw [if_neg (by simp)]
    have r4 := Run.sayStr (u' := acPrepareCandidates b) i T3.toHolds.current (by rw [hbs]; simp) (by rw [hbs]; simp) e4 (by decide) rfl rfl
    have T4 : TabAt E W pre y e.esc e.line (said (acPrepareCandidates b) (.str crlf) crlf .acCandPrint) := T3.with ⟨rfl, rfl, rfl, rfl⟩ rfl rfl rfl rfl rfl
    obtain ⟨v, r5, Tv, hv⟩ := press_list cfg T4 hr i rfl rfl rfl rfl rfl
    rw [if_pos ⟨hnul, by simp⟩]
    refine ⟨v, (r1.trans (r2.trans (r3.trans (r4.trans r5)))).cast ?_, hv, fun _ => Tv.waiting hv H.clean⟩
    unfold World.tabs
    rw [hg, if_pos ⟨by rw [hcs]; simp, rfl⟩]
    simp [outs]

/-- TAB, on every line. -/
theorem tab_press {e : Editor} (on : E.autocomplete = true) (cfg : Config E) (H : Waiting E W u e) (i : List UInt8) (ht : W.LineFits E e.line) (hcl : W.LineClean E e.line) :
    ∃ v, Run E u (cTab :: i) v i (.inp cTab :: outs (W.press E e.line).2) ∧ Waiting E W v ⟨(W.press E e.line).1, e.esc⟩ := by
  by_cases hnul : cNul ∈ e.line
  · obtain ⟨v, r, -, h⟩ := press_run on cfg H i hnul ht
    exact ⟨v, r, h hcl⟩
  · rw [press_plain hnul]
    exact tab_run on cfg H i hnul ((lineOk_plain hnul).mp ⟨ht, hcl⟩)

end
end Ush
