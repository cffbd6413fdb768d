import Verif.Spec.Reach
import Verif.Proof.Tame
import Verif.Proof.Fair
/-! # Words there is no room for: lemmas -/
namespace Ush
open Spec

section
variable {E : Env} {W : World} {u v w : Ush} {T : Talk} {f : FileDesc} {cb : Cb} {l0 : List Event}

theorem getAbsolutePath_far {cwd : Str} (hp : 0 < E.pathMax) (hc : currentPath u = .ok cwd) (arg : Str)
    (hl : ¬ (fullText cwd arg).length < E.pathMax) : getAbsolutePath E u arg = .error .oob := by
  unfold getAbsolutePath
  rw [vla_ok hp]
  simp only [M.ok_bind]
  unfold fullText at hl
  by_cases h : arg.head? = some cSlash
  · rw [if_pos h] at hl
    rw [if_pos h]
    unfold strcpy
    rw [if_neg hl]; rfl
  · rw [if_neg h] at hl
    rw [if_neg h, hc]
    simp only [M.ok_bind]
    unfold strcpy
    split
    · simp only [M.ok_bind]
      by_cases h2 : cwd = b!"/"
      · rw [if_neg (by simpa using h2)]
        rw [if_pos h2] at hl
        rw [M.pure_eq, M.ok_bind]
        unfold strcat
        rw [if_neg (by simpa using hl)]; rfl
      · rw [if_pos h2]
        rw [if_neg h2] at hl
        unfold strcat
        split
        · simp only [M.ok_bind]
          rw [if_neg (by simp at hl ⊢; omega)]; rfl
        · rfl
    · rfl

theorem Holds.abs_far (H : Holds E W u) {a : Str} (hl : ¬ W.Room E a) : getAbsolutePath E u a = .error .oob := by
  obtain ⟨m, h0, h1, -⟩ := H.cwd
  have C := H.rep.cwd m h0
  unfold World.Room at hl
  rw [h1] at hl
  exact getAbsolutePath_far H.rep.tree.pathMax C.path a hl

theorem Holds.find_far (H : Holds E W u) {a : Str} (hl : ¬ W.Near E a) : fileFindByName E u a = .error .oob := by
  unfold World.Near at hl
  have h1 : W.groups.files.find? (fun f => f.name == a) = none := by
    rw [List.find?_eq_none]
    intro f hf hn
    exact hl (.inl (List.mem_map.mpr ⟨f, hf, by simpa using hn⟩))
  unfold fileFindByName
  rw [vla_ok H.rep.tree.pathMax, M.ok_bind, findCommand_chain u.nodes a W.groups E.nodeCount u.commands H.rep.cmds.chain H.rep.cmds.files H.rep.cmds.length, M.ok_bind, h1]
  simp only
  rw [H.abs_far (fun h => hl (.inr h))]
  rfl

/-- The next call is a fault, whatever the terminal does. -/
theorem stuck (hc : w.current.isSome = true) (h1 : w.state ≠ .readChar) (h2 : w.state ≠ .writeChar) (h : innerStep E w = .error .oob) :
    ∀ io, service E io w = .error .oob := by
  intro io
  rw [service_eq E io w hc]
  split
  · next hs => exact absurd hs h1
  · next hs =>
    unfold innerStep at h
    simp only [hs] at h
    rw [h]; rfl
  · next hs => exact absurd hs h2
  · rw [h]; rfl

theorem catCheck_far (H : Holds E W u) : ∀ (ws : List Str) (A t : List UInt8), (∀ w ∈ ws, cNul ∉ w) →
    ¬ W.CatNear E ws → u.inBuf = A ++ packed ws ++ t → catCheck E u (offs A.length ws) = .error .oob := by
  intro ws
  induction ws with
  | nil => intro A t _ h _; exact absurd trivial h
  | cons a ws ih =>
    intro A t hn hl hb
    have hc : cstrAt u.inBuf A.length = .ok a := by
      rw [hb, packed_cons]
      have := cstrAt_append A a (packed ws ++ t) (hn a (by simp))
      simpa using this
    rw [offs, catCheck, hc]
    simp only [M.ok_bind]
    by_cases h1 : W.Near E a
    · have h2 : catError W [a] = none ∧ ¬ W.CatNear E ws := by
        refine ⟨Classical.byContradiction fun h => hl ⟨h1, fun h' => absurd h' h⟩, fun h => hl ⟨h1, fun _ => h⟩⟩
      rw [H.find (hn a (by simp)) h1]
      simp only [M.ok_bind]
      cases hf : W.file? a with
      | none => simp [catError, hf] at h2
      | some g =>
        by_cases hg : g.getData = none
        · simp [catError, hf, hg] at h2
        · simp only
          rw [if_neg hg]
          have := ih (A ++ a ++ [cNul]) t (fun w hw => hn w (by simp [hw])) h2.2 (by rw [hb]; simp)
          rw [show A.length + a.length + 1 = (A ++ a ++ [cNul]).length by simp; omega]
          exact this
    · rw [H.find_far h1]
      rfl

theorem callExec_far {n : Str} {as : List Str} {b : Builtin} (C : Called E T w v f (.builtin b) (n :: as) l0) (h : ¬ T.world.ArgsNear E b as) :
    callExec E v f (.builtin b) (offs 0 (n :: as)) (n :: as) = .error .oob := by
  have H := C.holds
  have A := C.argsE
  have hl := C.argsLen
  unfold callExec
  simp only
  generalize v.emit (.exec (.builtin b) (n :: as)) = u at H A
  have one : ∀ a, as = [a] → ∃ o, argAt (offs 0 (n :: as)) 1 = .ok o ∧ cstrAt u.inBuf o = .ok a := fun a ha => by
    obtain ⟨o, g1, g2, -⟩ := A.at (i := 1) (w := a) (by rw [ha]; rfl)
    exact ⟨o, g1, g2⟩
  cases b with
  | pwd => exact absurd (by unfold World.ArgsNear; trivial) h
  | cat =>
    rcases as with _ | ⟨a, as⟩
    · exact absurd (by unfold World.ArgsNear; trivial) h
    · obtain ⟨t, ht⟩ := A.buf
      simp only
      unfold catCallback
      rw [if_neg (by rw [hl]; simp), offs_tail, catCheck_far H (a :: as) (n ++ [cNul]) t (fun w hw => A.nul w (by simp [hw])) h (by rw [ht]; simp)]
      rfl
  | cd =>
    rcases as with _ | ⟨a, _ | ⟨a', as⟩⟩
    · exact absurd (by unfold World.ArgsNear; trivial) h
    · obtain ⟨o, g1, g2⟩ := one a rfl
      have h0 : a ≠ [] := fun h' => h fun h'' => absurd h' h''
      simp only
      unfold cdCallback
      rw [if_neg (by rw [hl]; simp), g1, M.ok_bind, g2, M.ok_bind]
      unfold setCurrentDir
      rw [if_neg h0, H.abs_far (fun hr => h fun _ => hr)]
      rfl
    · exact absurd (by unfold World.ArgsNear; trivial) h
  | ls =>
    rcases as with _ | ⟨a, _ | ⟨a', as⟩⟩
    · exact absurd (by unfold World.ArgsNear; trivial) h
    · obtain ⟨o, g1, g2⟩ := one a rfl
      simp only
      unfold lsCallback
      rw [hl]
      simp only [List.length_cons, List.length_nil]
      rw [g1, M.ok_bind, g2, M.ok_bind, H.abs_far h]
      rfl
    · exact absurd (by unfold World.ArgsNear; trivial) h
  | xxd =>
    rcases as with _ | ⟨a, _ | ⟨a', as⟩⟩
    · exact absurd (by unfold World.ArgsNear; trivial) h
    · obtain ⟨o, g1, g2⟩ := one a rfl
      simp only
      unfold xxdCallback
      rw [if_neg (by rw [hl]; simp), g1, M.ok_bind, g2, M.ok_bind, H.find_far h]
      rfl
    · exact absurd (by unfold World.ArgsNear; trivial) h
  | help =>
    rcases as with _ | ⟨a, _ | ⟨a', as⟩⟩
    · exact absurd (by unfold World.ArgsNear; trivial) h
    · obtain ⟨o, g1, g2⟩ := one a rfl
      simp only
      unfold helpCallback
      rw [hl]
      simp only [List.length_cons, List.length_nil]
      rw [g1, M.ok_bind, g2, M.ok_bind, H.find_far h]
      rfl
    · exact absurd (by unfold World.ArgsNear; trivial) h
  | echo =>
    rcases as with _ | ⟨a, _ | ⟨s, _ | ⟨t, _ | ⟨z, as⟩⟩⟩⟩
    · exact absurd (by unfold World.ArgsNear; trivial) h
    · exact absurd (by unfold World.ArgsNear; trivial) h
    · exact absurd (by unfold World.ArgsNear; trivial) h
    · have hs : s = b!">" := Classical.byContradiction fun h' => h fun h'' => absurd h'' h'
      have ht : ¬ T.world.Near E t := fun h' => h fun _ => h'
      obtain ⟨o2, g1, g2, -⟩ := A.at (i := 2) (w := s) rfl
      obtain ⟨o3, g3, g4, -⟩ := A.at (i := 3) (w := t) rfl
      simp only
      unfold echoCallback
      rw [hl]
      simp only [List.length_cons, List.length_nil]
      rw [g1, M.ok_bind, g2, M.ok_bind, if_neg (by simp [hs]), g3, M.ok_bind, g4, M.ok_bind, H.find_far ht]
      rfl
    · exact absurd (by unfold World.ArgsNear; trivial) h

/-- Enter. -/
theorem line_far {e : Editor} (cfg : Config E) (H : Waiting E W u e) (c : UInt8) (i : List UInt8)
    (hesc : e.esc = .none) (hen : c = cLf ∨ c = cCr) (hin : 2 ≤ E.inSize)
    {argv : List Str} (hw : words (sent E.inSize e.line) = argv) {cs : List Call}
    (hh : HookSays E (u.log ++ .inp c :: outs (enterEcho c)) argv cs)
    (hv : (Talk.start W c).ValidRun E cs) (ok : ((Talk.start W c).run E cs).1.world.Ok E)
    (far : ¬ ((Talk.start W c).run E cs).1.world.LineNear E argv) :
    ∃ v, Steps E u (c :: i) v i ∧ ∀ io, service E io v = .error .oob := by
  rcases argv with _ | ⟨name, as⟩
  · exact absurd trivial far
  by_cases near : ((Talk.start W c).run E cs).1.world.Near E name
  · obtain ⟨w, v, r, s1, s2, s3, Hk, hl, step⟩ := enter_hook cfg H c i hesc hen hin hw hh hv ok near
    refine ⟨w, r.steps, stuck s3 s1 s2 ?_⟩
    have far2 : ¬ _ := fun h2 => far ⟨near, h2⟩
    cases hf : ((Talk.start W c).run E cs).1.world.file? name with
    | none => rw [hf] at far2; exact absurd trivial far2
    | some f =>
      rw [hf] at far2 step
      simp only [Option.bind_some] at far2
      simp only at step
      cases hx : f.exec with
      | none => rw [hx] at far2; exact absurd trivial far2
      | some cb =>
        rw [hx] at far2
        simp only [hx] at step
        cases cb with
        | user id => exact absurd trivial far2
        | builtin b =>
          have C : Called E ((Talk.start W c).run E cs).1 w v f (.builtin b) (name :: as) (hookEvents E (name :: as) ++ ((Talk.start W c).run E cs).2.map .ret) :=
            ⟨s1, s2, s3, step, by rw [hl, List.append_assoc], Hk.talks, Hk.args, ok, by omega⟩
          rw [step]
          exact callExec_far C far2
  · obtain ⟨w, w', r, s1, s2, s3, s4, s5, P⟩ := enter_parse cfg H c i hesc hen hin
    rw [hw] at P
    have Tk : Talks E (Talk.start W c) w' := P.talks (enterEcho_nul hen)
    have hlog : w'.log = u.log ++ .inp c :: outs (enterEcho c) := by rw [s5, r.log]
    obtain ⟨v, h1, h2, h3, h4, h5⟩ := callHook_sim cfg (argv := name :: as) (cs := cs) Tk (by rw [hlog]; exact hh) hv
    have hargs := P.args.same h4 h5
    refine ⟨w, r.steps, stuck s3 s1 s2 ?_⟩
    rw [s4]
    unfold parseFinish
    rw [P.args.getArgs]
    simp only [M.ok_bind]
    rw [if_neg (by simp [offs]), P.args.argStrs]
    simp only [M.ok_bind]
    rw [h1]
    simp only [M.ok_bind]
    obtain ⟨o, g1, g2, -⟩ := hargs.at (i := 0) (w := name) rfl
    rw [g1]
    simp only [M.ok_bind]
    rw [g2]
    simp only [M.ok_bind]
    rw [(h2.holds ok).find_far near]
    rfl

/-- A scan for a word whose path does not fit. -/
theorem scan_far {pre x : Str} (S : Scan E W pre x u) (i : List UInt8) (hn : u.procNode = u.commands) (hst : u.procStage = 0) (hidx : u.procIndex = 0)
    (hit : u.procItem = 0) (far : ¬ W.Room E x) : ∃ v, Steps E u i v i ∧ ∀ io, service E io v = .error .oob := by
  have hpm := S.rep.tree.pathMax
  obtain ⟨m, h0, h1, h2, h3, h4, h5⟩ := S.toHolds.cwd
  obtain ⟨a, ra, Ta, a1, a2⟩ := scan_groups i W.groups S (by rw [hn]; exact S.rep.cmds.chain) S.rep.cmds.files hst hidx hit
    (fun c hc f hf => (S.ok.cmdTexts c hc f hf).name)
  have Sa := S.same Ta.toSameTab Ta.state
  have rb := Sa.step i (acProcess_stage1 hpm a2 a1) rfl
  have Tb' : Tally a { a with procNode := a.current, procIndex := 0, procItem := 0, procStage := 1 } [] := { toSameFs := ⟨rfl, rfl, rfl, rfl⟩, inBuf := rfl, outBuf := rfl, inPos := rfl, ansiEsc := rfl, acInput := rfl, acPrevCount := rfl, acSuffixLen := rfl, state := rfl, count := rfl, cand := rfl }
  have Sb := Sa.same Tb'.toSameTab Tb'.state
  generalize hb : ({ a with procNode := a.current, procIndex := 0, procItem := 0, procStage := 1 } : Ush) = b at *
  have b1 : b.procNode = some m.id := by rw [← hb]; exact Ta.current.trans h2
  have b2 : b.procStage = 1 := by rw [← hb]
  have b3 : b.procIndex = 0 := by rw [← hb]
  have b4 : b.procItem = 0 := by rw [← hb]
  obtain ⟨c, rc, Tc, c1, c2, c3, c4⟩ := scan_files i m.files Sb b1 (Or.inr b2) b3
    (by rw [b4, (Sb.rep.dir h5).files]; rfl) (fun f hf => (S.ok.treeTexts m h5 f hf).name)
  have Sc := Sb.same Tc.toSameTab Tc.state
  have rd := Sc.step i (acProcess_next1 c2 (c1.trans b2) c4) rfl
  have Td : Tally c { c with procItem := 0, procNode := none } [] := { toSameFs := ⟨rfl, rfl, rfl, rfl⟩, inBuf := rfl, outBuf := rfl, inPos := rfl, ansiEsc := rfl, acInput := rfl, acPrevCount := rfl, acSuffixLen := rfl, state := rfl, count := rfl, cand := rfl }
  have Sd := Sc.same Td.toSameTab Td.state
  generalize hd : ({ c with procItem := 0, procNode := none } : Ush) = d at *
  have d1 : d.procNode = none := by rw [← hd]
  have d2 : d.procStage = 1 := by rw [← hd]; exact c1.trans b2
  refine ⟨d, (ra.trans (rb.trans (rc.trans rd))).steps, stuck Sd.toHolds.current (isScan.read Sd.scan) (isScan.write Sd.scan) ?_⟩
  rw [isScan.inner Sd.scan]
  unfold acCandidatesProcess
  rw [d1]
  simp only
  unfold acCheckForFinish
  rw [vla_ok hpm, M.ok_bind, d2]
  simp only
  rw [Sd.word, M.ok_bind, Sd.toHolds.abs_far far]
  rfl

/-- TAB. -/
theorem tab_far {e : Editor} (on : E.autocomplete = true) (H : Waiting E W u e) (i : List UInt8) (hnul : cNul ∉ e.line)
    (far : ¬ W.Room E (tabTarget e.line).2) : ∃ v, Steps E u (cTab :: i) v i ∧ ∀ io, service E io v = .error .oob := by
  obtain ⟨k1, k2⟩ := tabTarget_split e.line
  obtain ⟨v, r, Tb, hs⟩ := tab_start on H i hnul k1 k2
  have hc := Tb.toHolds.current
  have r2 : Run E v i (acCandidatesStart v) i [] := Run.inner i hc (by rw [hs]; simp) (by rw [hs]; simp) (by unfold innerStep; rw [hs]) (by simp [acCandidatesStart, acPrepareCandidates])
  have S : Scan E W (tabTarget e.line).1 (tabTarget e.line).2 (acCandidatesStart v) :=
    Tabbing.scan (es := e.esc) { toHolds := ⟨⟨Tb.sized.inLen, Tb.sized.outLen⟩, Tb.rep.same ⟨rfl, rfl, rfl, rfl⟩, Tb.ok⟩, buf := Tb.buf, input := Tb.input, nul := Tb.nul, nulPre := Tb.nulPre, pos := Tb.pos, esc := Tb.esc } rfl
  obtain ⟨d, s, h⟩ := scan_far S i rfl rfl rfl rfl far
  exact ⟨d, (r.trans r2).steps.trans s, h⟩

/-- A scan for a word that is not terminated: it is read over the end of the input buffer. -/
theorem scan_cut (H : Holds E W u) (i : List UInt8) (hs : isScan u.state = true) (hx : cstrAt u.inBuf u.acInput = .error .oob) (hn : u.procNode = u.commands) (hst : u.procStage = 0)
    (hit : u.procItem = 0) : ∃ v, Steps E u i v i ∧ ∀ io, service E io v = .error .oob := by
  have hpm := H.rep.tree.pathMax
  have last : ∀ (w : Ush), Holds E W w → isScan w.state = true → cstrAt w.inBuf w.acInput = .error .oob → w.procNode = none → w.procStage = 1 →
      ∀ io, service E io w = .error .oob := by
    intro w Hw ws wx wn wst
    refine stuck Hw.current (isScan.read ws) (isScan.write ws) ?_
    rw [isScan.inner ws]
    unfold acCandidatesProcess
    rw [wn]
    simp only
    unfold acCheckForFinish
    rw [vla_ok hpm, M.ok_bind, wst]
    simp only
    rw [wx]
    rfl
  have file : ∀ (w : Ush) (n : NodeId), Holds E W w → isScan w.state = true → cstrAt w.inBuf w.acInput = .error .oob → w.procNode = some n → (w.procStage = 0 ∨ w.procStage = 1) →
      w.procItem < (w.nodes n).files.length → ∀ io, service E io w = .error .oob := by
    intro w n Hw ws wx wn wst wi
    refine stuck Hw.current (isScan.read ws) (isScan.write ws) ?_
    rw [isScan.inner ws]
    unfold acCandidatesProcess
    rw [wn]
    simp only
    have h1 : acCheckForNext w n = .ok (w, false) := by
      unfold acCheckForNext
      rcases wst with h | h <;> simp only [h] <;> rw [if_neg (by omega)]
    rw [h1, M.ok_bind]
    simp only [Bool.false_eq_true, if_false]
    unfold acFilePrepare
    rw [wx]
    rfl
  have step : ∀ (w w' : Ush), Holds E W w → isScan w.state = true → acCandidatesProcess E w = .ok w' → w'.log = w.log → Run E w i w' i [] := by
    intro w w' Hw ws e el
    exact Run.inner i Hw.current (isScan.read ws) (isScan.write ws) (by rw [isScan.inner ws, e]) (by simp [el])
  -- the command groups
  have groups : ∀ (cs : Groups) (w : Ush), Holds E W w → isScan w.state = true → cstrAt w.inBuf w.acInput = .error .oob → IsChain w.nodes w.procNode (cs.map Group.id) →
      w.procStage = 0 → w.procItem = 0 → ∃ v, Steps E w i v i ∧ ((∀ io, service E io v = .error .oob) ∨
        (Holds E W v ∧ isScan v.state = true ∧ cstrAt v.inBuf v.acInput = .error .oob ∧ v.procNode = none ∧ v.procStage = 0)) := by
    intro cs
    induction cs with
    | nil => intro w Hw ws wx wc wst wi; exact ⟨w, Steps.refl _ _ _, .inr ⟨Hw, ws, wx, wc, wst⟩⟩
    | cons c cs ih =>
      intro w Hw ws wx wc wst wi
      by_cases hl : (w.nodes c.id).files.length ≤ w.procItem
      · have r := step w _ Hw ws (acProcess_next0 wc.1 wst hl) rfl
        obtain ⟨v, s, h⟩ := ih { w with procItem := 0, procNode := (w.nodes c.id).next } ⟨⟨Hw.sized.inLen, Hw.sized.outLen⟩, Hw.rep.same ⟨rfl, rfl, rfl, rfl⟩, Hw.ok⟩ ws wx wc.2 wst rfl
        exact ⟨v, r.steps.trans s, h⟩
      · exact ⟨w, Steps.refl _ _ _, .inl (file w c.id Hw ws wx wc.1 (.inl wst) (by omega))⟩
  obtain ⟨v, s, h | ⟨Hv, vs, vx, vn, vst⟩⟩ := groups W.groups u H hs hx (by rw [hn]; exact H.rep.cmds.chain) hst hit
  · exact ⟨v, s, h⟩
  have r := step v _ Hv vs (acProcess_stage1 hpm vn vst) rfl
  have Hb : Holds E W { v with procNode := v.current, procIndex := 0, procItem := 0, procStage := 1 } := ⟨⟨Hv.sized.inLen, Hv.sized.outLen⟩, Hv.rep.same ⟨rfl, rfl, rfl, rfl⟩, Hv.ok⟩
  obtain ⟨m, h0, h1, h2, h3, h4, h5⟩ := Hv.cwd
  by_cases hl : (v.nodes m.id).files.length ≤ 0
  · have r2 := step { v with procNode := v.current, procIndex := 0, procItem := 0, procStage := 1 } _ Hb vs (acProcess_next1 (n := m.id) h2 rfl hl) rfl
    refine ⟨_, s.trans (r.trans r2).steps, last _ ⟨⟨Hv.sized.inLen, Hv.sized.outLen⟩, Hv.rep.same ⟨rfl, rfl, rfl, rfl⟩, Hv.ok⟩ vs vx rfl rfl⟩
  · exact ⟨_, s.trans r.steps, file _ m.id Hb vs vx h2 (.inr rfl) (by show 0 < (v.nodes m.id).files.length; omega)⟩

/-- The position has wrapped around: the word is empty, but there are characters to be printed. -/
structure Wrapped (E : Env) (W : World) (es : EscSt) (n : Nat) (u : Ush) : Prop extends Tabbing E W [] [] es u where
  state : u.state = .acCandOptimise
  count : u.acCount = 0
  prev : u.acPrevCount = n
  suffix : 0 < u.acSuffixLen
  node : u.procNode = u.commands
  stage : u.procStage = 0
  index : u.procIndex = 0
  item : u.procItem = 0

/-- One more character does not fit. -/
theorem acOptimize_wrap {pre x c : Str} {es : EscSt} (T : Tabbing E W pre x es u) (hc : u.acCand = some c) (hcn : cNul ∉ c) (h : x.length < c.length)
    (hfit : pre.length + x.length + 1 = E.inSize) (i : List UInt8) :
    ∃ u1, acOptimizeContinue E u = .ok u1 ∧ u1.log = u.log ∧
      ((pre = [] ∧ Wrapped E W es u.acCount u1) ∨ (pre ≠ [] ∧ ∃ v, Steps E u1 i v i ∧ ∀ io, service E io v = .error .oob)) := by
  obtain ⟨rest, hb⟩ := T.buf
  have hl := T.sized.inLen
  have hr : rest = [] := by
    rw [hb] at hl; simp at hl
    exact List.eq_nil_of_length_eq_zero (by omega)
  subst hr
  have e1 : wr u.inBuf u.inPos c[x.length] = .ok ((pre ++ x) ++ [c[x.length]]) := by
    rw [hb, T.pos, ← List.append_assoc, ← List.length_append]
    exact wr_append_length _ _ _ _
  obtain ⟨a, l, hal⟩ : ∃ a l, (pre ++ x) ++ [c[x.length]] = a :: l := by
    cases h' : (pre ++ x) ++ [c[x.length]] with
    | nil => simp at h'
    | cons a l => exact ⟨a, l, rfl⟩
  have e : acOptimizeContinue E u = .ok { u with acPrevCount := u.acCount, inBuf := cNul :: l, inPos := 0, acSuffixLen := u.acSuffixLen + 1, acCount := 0, procStage := 0, procNode := u.commands, procIndex := 0, procItem := 0, state := .acCandOptimise } := by
    unfold acOptimizeContinue
    simp only [T.word, M.ok_bind, hc]
    rw [if_neg (by omega), rd_ok h, M.ok_bind, e1, M.ok_bind, hal, if_pos (by rw [T.pos]; omega)]
    have : wr (a :: l) 0 cNul = .ok (cNul :: l) := by
      unfold wr
      simp
    rw [this, M.ok_bind]
    simp only [acPrepareCandidates]
    rfl
  refine ⟨_, e, rfl, ?_⟩
  have hlen : (cNul :: l).length = E.inSize := by
    have := congrArg List.length hal
    simp at this ⊢
    omega
  have Hh : ∀ b : Ush, b = { u with acPrevCount := u.acCount, inBuf := cNul :: l, inPos := 0, acSuffixLen := u.acSuffixLen + 1, acCount := 0, procStage := 0, procNode := u.commands, procIndex := 0, procItem := 0, state := .acCandOptimise } → Holds E W b := by
    rintro b rfl
    exact ⟨⟨hlen, T.sized.outLen⟩, T.rep.same ⟨rfl, rfl, rfl, rfl⟩, T.ok⟩
  by_cases hp : pre = []
  · left
    subst hp
    exact ⟨rfl, { toTabbing := { toHolds := Hh _ rfl, buf := ⟨l, rfl⟩, input := T.input, nul := by simp, nulPre := by simp, pos := rfl, esc := T.esc }, state := rfl, count := rfl, prev := rfl, suffix := Nat.succ_pos _, node := rfl, stage := rfl, index := rfl, item := rfl }⟩
  · right
    refine ⟨hp, scan_cut (Hh _ rfl) i rfl ?_ rfl rfl rfl⟩
    show cstrAt (cNul :: l) u.acInput = _
    unfold cstrAt
    rw [if_neg]
    rw [T.input]
    cases pre with
    | nil => exact absurd rfl hp
    | cons p pre =>
      simp only [List.cons_append, List.cons.injEq] at hal
      rw [← hal.2]
      simp only [List.length_cons, List.drop_succ_cons, List.append_assoc, List.drop_left]
      intro hm
      rcases List.mem_append.mp hm with hm | hm
      · exact T.nul hm
      · rw [List.mem_singleton] at hm
        exact hcn (hm ▸ List.getElem_mem h)

/-- The search for the common prefix, where one of the words that are tried does not fit. -/
theorem optimise_far {pre : Str} {es : EscSt} (i : List UInt8) :
    ∀ (k : Nat) (x : Str) (u : Ush), Tabbing E W pre x es u → E.inSize ≤ k + x.length →
      (∃ z ∈ (W.growth k x).filterMap W.next, ¬ (pre.length + z.length < E.inSize ∧ W.Room E z)) → 2 ≤ (W.offers x).length →
      u.acCount = (W.offers x).length → u.acCand = (W.offers x).getLast? →
      ∃ u1, acOptimizeContinue E u = .ok u1 ∧ u1.log = u.log ∧ ∃ v, Steps E u1 i v i ∧
        ((∀ io, service E io v = .error .oob) ∨ (pre = [] ∧ ∃ z ∈ (W.growth k x).filterMap W.next, E.inSize ≤ z.length ∧ Wrapped E W es (W.offers z.dropLast).length v)) := by
  intro k
  induction k with
  | zero =>
    intro x u T hk
    have := T.length
    omega
  | succ k ih =>
  intro x u T hk hex h2 hcnt hcand
  have hne : W.offers x ≠ [] := by intro h; rw [h] at h2; simp at h2
  obtain ⟨c, hc⟩ : ∃ c, (W.offers x).getLast? = some c := by
    cases hg : (W.offers x).getLast? with
    | none => exact absurd (List.getLast?_eq_none_iff.mp hg) hne
    | some c => exact ⟨c, rfl⟩
  rw [hc] at hcand
  have hcm : c ∈ W.offers x := List.mem_of_getLast? hc
  have hnul := T.toHolds.offers_nul c hcm
  by_cases hlen : c.length ≤ x.length
  · exfalso
    have hm : W.more x = none := by
      unfold World.more
      rw [hc]
      simp [List.getElem?_eq_none hlen]
    obtain ⟨z, hz, -⟩ := hex
    rw [growth_none hm] at hz
    obtain ⟨y, hy, hz⟩ := List.mem_filterMap.mp hz
    rw [List.mem_singleton.mp hy] at hz
    unfold World.next at hz
    rw [hc] at hz
    simp [List.getElem?_eq_none hlen] at hz
  have hlt : x.length < c.length := by omega
  have hnx := next_some hc hlt
  have hin : x ++ [c[x.length]] ∈ (W.growth (k + 1) x).filterMap W.next := List.mem_filterMap.mpr ⟨x, growth_mem _ _, hnx⟩
  have hTl := T.length
  by_cases hfit : pre.length + (x.length + 1) < E.inSize
  · obtain ⟨rest, e, hbl⟩ := acOptimize_step T hcand hlt hfit
    refine ⟨_, e, rfl, ?_⟩
    have hmore : W.more x = if (W.offers x).length ≤ (W.offers (x ++ [c[x.length]])).length then some (x ++ [c[x.length]]) else none := by
      unfold World.more
      rw [hc]
      simp [List.getElem?_eq_getElem hlt, h2]
    have hgr : ∀ z ∈ (W.growth (k + 1) x).filterMap W.next, z = x ++ [c[x.length]] ∨
        (W.more x = some (x ++ [c[x.length]]) ∧ z ∈ (W.growth k (x ++ [c[x.length]])).filterMap W.next) := by
      intro z hz
      obtain ⟨y, hy, hz⟩ := List.mem_filterMap.mp hz
      cases hm : W.more x with
      | none =>
        rw [growth_none hm] at hy
        rw [List.mem_singleton.mp hy, hnx] at hz
        exact .inl (Option.some.inj hz).symm
      | some q =>
        have hq : q = x ++ [c[x.length]] := by
          rw [hmore] at hm
          split at hm
          · exact (Option.some.inj hm).symm
          · cases hm
        rw [growth_some hm] at hy
        rcases List.mem_cons.mp hy with hy | hy
        · rw [hy, hnx] at hz
          exact .inl (Option.some.inj hz).symm
        · exact .inr ⟨by rw [hq], List.mem_filterMap.mpr ⟨y, hq ▸ hy, hz⟩⟩
    have hzl : (x ++ [c[x.length]]).length = x.length + 1 := by simp
    have hzc : x ++ [c[x.length]] <+: c := by
      obtain ⟨t, ht⟩ := offers_prefix hcm
      cases t with
      | nil => rw [List.append_nil] at ht; rw [ht] at hlt; omega
      | cons a t =>
        refine ⟨t, ?_⟩
        simp [← ht]
    generalize hz : x ++ [c[x.length]] = z at *
    have Tz : Tabbing E W pre z es (optNext u (pre ++ (z ++ cNul :: rest))) :=
      { toHolds := ⟨⟨hbl, T.sized.outLen⟩, T.rep.same ⟨rfl, rfl, rfl, rfl⟩, T.ok⟩, buf := ⟨rest, rfl⟩, input := T.input,
        nul := fun h => hnul (hzc.subset h), nulPre := T.nulPre, pos := by show u.inPos + 1 = _; rw [T.pos, hzl]; omega, esc := T.esc }
    by_cases hroom : W.Room E z
    · obtain ⟨q, hq, hbad⟩ := hex
      obtain ⟨hm, hq'⟩ : W.more x = some z ∧ q ∈ (W.growth k z).filterMap W.next := by
        rcases hgr q hq with h | h
        · exact absurd ⟨by rw [h, hzl]; omega, h ▸ hroom⟩ hbad
        · exact h
      obtain ⟨v, r, St, s1, s2, s3, s4⟩ := scan_all (Tz.scan rfl) hroom i rfl rfl rfl rfl
      have Tv := Tz.same St
      have s3' : v.acCount = (W.offers z).length := by rw [s3]; exact Nat.zero_add _
      have pc : v.acPrevCount = (W.offers x).length := by rw [St.acPrevCount]; exact hcnt
      have hless : (W.offers x).length ≤ (W.offers z).length := by
        rw [hmore] at hm
        split at hm
        · assumption
        · cases hm
      have hnz : W.offers z ≠ [] := by intro h; rw [h] at hless; exact hne (List.eq_nil_of_length_eq_zero (Nat.le_zero.mp hless))
      obtain ⟨u1, o1, o2, w, o3, o4⟩ := ih z v Tv (by omega) ⟨q, hq', hbad⟩ (by omega) s3' (by rw [s4, List.getLast?_eq_getLast_of_ne_nil hnz]; rfl)
      refine ⟨w, r.steps.trans ((Run.inner i (l := []) Tv.toHolds.current (by rw [s1]; simp) (by rw [s1]; simp) ?_ (by simp [o2])).steps.trans o3), ?_⟩
      · rw [innerStep_finish s1]
        unfold acCandidatesFinish
        rw [s2]
        simp only
        rw [if_neg (by rw [s3', pc]; omega)]
        exact o1
      · rcases o4 with h | ⟨h1, q', h3, h4⟩
        · exact .inl h
        · exact .inr ⟨h1, q', by rw [growth_some hm]; exact mem_filterMap_tail h3, h4⟩
    · obtain ⟨v, s, h⟩ := scan_far (Tz.scan rfl) i rfl rfl rfl rfl hroom
      exact ⟨v, s, .inl h⟩
  · obtain ⟨u1, o1, o2, h | ⟨-, v, s, h⟩⟩ := acOptimize_wrap T hcand hnul hlt (by omega) i
    · refine ⟨u1, o1, o2, u1, Steps.refl _ _ _, .inr ⟨h.1, _, hin, ?_, ?_⟩⟩
      · simp only [List.length_append, List.length_singleton]
        have : pre.length = 0 := by rw [h.1]; rfl
        omega
      · rw [List.dropLast_concat, ← hcnt]
        exact h.2
    · exact ⟨u1, o1, o2, v, s, .inl h⟩

/-- TAB where there is no room for the completion. -/
theorem tab_full {e : Editor} (on : E.autocomplete = true) (H : Waiting E W u e) (i : List UInt8) (hnul : cNul ∉ e.line)
    (far : ¬ W.TabFits E (tabTarget e.line).1 (tabTarget e.line).2) :
    ∃ v, Steps E u (cTab :: i) v i ∧ ((∀ io, service E io v = .error .oob) ∨ ((tabTarget e.line).1 = [] ∧
      ∃ z ∈ W.tried E (tabTarget e.line).2, E.inSize ≤ z.length ∧ Wrapped E W e.esc (W.offers z.dropLast).length v)) := by
  by_cases hr : W.Room E (tabTarget e.line).2
  · obtain ⟨k1, k2⟩ := tabTarget_split e.line
    obtain ⟨v, r, T, hs⟩ := tab_start on H i hnul k1 k2
    generalize (tabTarget e.line).1 = pre at *
    generalize (tabTarget e.line).2 = y at *
    by_cases h1 : ∀ c ∈ W.offers y, (W.offers y).length = 1 → pre.length + c.length < E.inSize
    · have h2 : ∃ z ∈ W.tried E y, ¬ (pre.length + z.length < E.inSize ∧ W.Room E z) := by
        refine Classical.byContradiction fun h => far ⟨hr, h1, fun z hz => Classical.byContradiction fun h' => h ⟨z, hz, h'⟩⟩
      have h3 : 2 ≤ (W.offers y).length := by
        refine Classical.byContradiction fun h => ?_
        obtain ⟨z, hz, -⟩ := h2
        unfold World.tried at hz
        rw [if_neg h] at hz
        cases hz
      have ht : W.tried E y = (W.growth E.inSize y).filterMap W.next := by unfold World.tried; rw [if_pos h3]
      rw [ht] at h2 ⊢
      obtain ⟨a, r12, Ta, a1, a2, a3, a4⟩ := count_run T hs hr i
      have Tb : Tabbing E W pre y e.esc { a with acSuffixLen := 0 } :=
        { toHolds := ⟨⟨Ta.sized.inLen, Ta.sized.outLen⟩, Ta.rep.same ⟨rfl, rfl, rfl, rfl⟩, T.ok⟩, buf := Ta.buf, input := Ta.input, nul := Ta.nul, nulPre := T.nulPre, pos := Ta.pos, esc := Ta.esc }
      obtain ⟨u1, o1, o2, w, o3, o4⟩ := optimise_far i E.inSize y _ Tb (by omega) h2 h3 a3 (a4 (by intro h; rw [h] at h3; simp at h3))
      have e : innerStep E a = .ok u1 := by
        rw [innerStep_finish a1, acFinish_many (n := (W.offers y).length - 2) a2 (by rw [a3]; omega)]
        exact o1
      refine ⟨w, (r.trans (r12.trans (Run.inner i (l := []) Ta.toHolds.current (by rw [a1]; simp) (by rw [a1]; simp) e (by simp [o2])))).steps.trans o3, ?_⟩
      exact o4
    · obtain ⟨c, hc⟩ : ∃ c, W.offers y = [c] ∧ E.inSize ≤ pre.length + c.length := by
        refine Classical.byContradiction fun h => h1 fun c hc hl => ?_
        obtain ⟨d, hd⟩ := List.length_eq_one_iff.mp hl
        rw [hd] at hc
        rw [List.mem_singleton.mp hc]
        exact Classical.byContradiction fun h' => h ⟨d, hd, by omega⟩
      obtain ⟨w, r2, h⟩ := overflow_run T hs hr i hc.1 hc.2
      exact ⟨w, r.steps.trans r2.steps, .inl h⟩
  · obtain ⟨v, s, h⟩ := tab_far on H i hnul hr
    exact ⟨v, s, .inl h⟩

/-- A configuration at which the shell does not wait is reached under every fair timing. -/
theorem fair_gets (g : Nat → Slot) (hg : Fair g) {inp r : List UInt8} (h : Steps E u inp v r) : ∃ t, driveN E g u inp t = .ok (v, r) := by
  obtain ⟨n, hn⟩ := h
  have key : ∀ (n : Nat) (w : Ush) (i : List UInt8) (t : Nat), chain E w i n = .ok (v, r) → driveN E g u inp t = .ok (w, i) →
      ∃ t', driveN E g u inp t' = .ok (v, r) := by
    intro n
    induction n with
    | zero => intro w r t h1 h2; cases h1; exact ⟨t, h2⟩
    | succ n ih =>
      intro w i t h1 h2
      rw [chain_succ] at h1
      obtain ⟨q, hq, h3⟩ := M.bind_eq_ok.mp h1
      by_cases hw : Idle w i
      · have hcw : w.current.isSome = true := by
          cases hcw : w.current.isSome with
          | true => rfl
          | false => rw [drive1_noroot E w i _ hcw] at hq; cases hq
        have hz := chain_idle E w i hw hcw (n + 1)
        rw [chain_succ, hq] at hz
        rw [M.ok_bind] at hz
        rw [h3] at hz
        cases hz
        exact ⟨t, h2⟩
      · obtain ⟨t', -, h4⟩ := fair_step E g hg u inp t w i h2 q hq hw
        exact ih q.1 q.2 t' h3 h4
  exact key n u inp 0 hn rfl

/-- A fault under one timing is a fault under every fair timing. -/
theorem fair_stuck (g : Nat → Slot) (hg : Fair g) {inp r : List UInt8} (h : Steps E u inp v r) (hs : ∀ io, service E io v = .error .oob) :
    ∃ N, ∀ n ≥ N, driveN E g u inp n = .error .oob := by
  obtain ⟨N, hN⟩ := fair_gets g hg h
  refine ⟨N + 1, fun m hm => ?_⟩
  obtain ⟨d, rfl⟩ := Nat.exists_eq_add_of_le hm
  clear hm
  induction d with
  | zero =>
    show driveN E g u inp (N + 1) = _
    rw [driveN_succ, hN, M.ok_bind]
    unfold drive1
    rw [hs]; rfl
  | succ d ih => rw [← Nat.add_assoc, driveN_succ, ih]; rfl

end
end Ush
