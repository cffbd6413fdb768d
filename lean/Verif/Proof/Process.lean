import Verif.Proof.Builtin
/-!
# The built-in commands with a process: cat, help and ls
-/
namespace Ush
open Spec

variable {E : Env} {W : World} {T : Talk} {u v w : Ush} {f : FileDesc} {argv : List Str}

/-- A built-in process of the file `f` is running. -/
structure Serving (E : Env) (W : World) (f : FileDesc) (argv : List Str) (u : Ush) : Prop extends Holds E W u where
  file : u.procFile = some f
  args : Args u argv

/-- The state `v` differs from `u` only in the state of the process. -/
structure SameProc (u v : Ush) : Prop extends SameFs u v where
  file : v.procFile = u.procFile
  inBuf : v.inBuf = u.inBuf
  argsCount : v.argsCount = u.argsCount

theorem Serving.same (S : Serving E W f argv u) (h : SameProc u v) (ho : v.outBuf.length = u.outBuf.length) : Serving E W f argv v :=
  ⟨S.toHolds.same h.toSameFs ⟨by rw [h.inBuf]; exact S.sized.inLen, by rw [ho]; exact S.sized.outLen⟩, h.file.trans S.file,
    S.args.same h.inBuf h.argsCount⟩

/-- The states in which the process is called. -/
def isProc : St → Bool
  | .processStart | .processService | .processFinish => true
  | _ => false

theorem isProc.inner (h : isProc u.state = true) : innerStep E u = processCall E u := by
  unfold innerStep
  cases hs : u.state <;> rw [hs] at h <;> first | rfl | cases h

theorem isProc.read (h : isProc u.state = true) : u.state ≠ .readChar := by
  intro hs; rw [hs] at h; cases h

theorem isProc.write (h : isProc u.state = true) : u.state ≠ .writeChar := by
  intro hs; rw [hs] at h; cases h

/-- A silent step of a process. -/
theorem Serving.step (S : Serving E W f argv u) (i : List UInt8) (hp : isProc u.state = true) {u' : Ush} {l : List Event}
    (h : processCall E u = .ok u') (hl : u'.log = u.log ++ l) : Run E u i u' i l :=
  Run.inner i S.current (isProc.read hp) (isProc.write hp) (by rw [isProc.inner hp, h]) hl

/-- A step of a process that prints a text from outside the buffers. -/
theorem Serving.sayStr (S : Serving E W f argv u) (i : List UInt8) (hp : isProc u.state = true) {u' : Ush} {s : Str} {next : St}
    (h : processCall E u = writePointer u' (.str s) next) (hs : cNul ∉ s) (hl : u'.log = u.log) (sm : SameProc u u')
    (ho : u'.outBuf = u.outBuf) :
    Run E u i (said u' (.str s) s next) i (outs s) ∧ Serving E W f argv (said u' (.str s) s next) := by
  have S' : Serving E W f argv u' := S.same sm (by rw [ho])
  exact ⟨Run.sayStr i S.current (isProc.read hp) (isProc.write hp) (by rw [isProc.inner hp, h]) hs hl sm.current,
    S'.same ⟨⟨rfl, rfl, rfl, rfl⟩, rfl, rfl, rfl⟩ rfl⟩

/-- A step of a process that prints a text from the output buffer. -/
theorem Serving.sayOut (S : Serving E W f argv u) (i : List UInt8) (hp : isProc u.state = true) {u' : Ush} {s t : Str} {next : St}
    (h : processCall E u = writePointer u' .outBuf next) (hs : cNul ∉ s) (hl : u'.log = u.log) (sm : SameProc u u')
    (hb : u'.outBuf = s ++ cNul :: t) (ho : u'.outBuf.length = u.outBuf.length) :
    Run E u i (said u' .outBuf s next) i (outs s) ∧ Serving E W f argv (said u' .outBuf s next) := by
  have S' : Serving E W f argv u' := S.same sm ho
  exact ⟨Run.sayOut i S.current (isProc.read hp) (isProc.write hp) (by rw [isProc.inner hp, h]) hb hs hl sm.current,
    S'.same ⟨⟨rfl, rfl, rfl, rfl⟩, rfl, rfl, rfl⟩ rfl⟩

/-- The text in the output buffer after `sprintf(output_buffer, ...)`. -/
theorem store_out (S : Serving E W f argv u) {s : Str} (h : s.length < E.outSize) :
    ∃ t, storeStr u.outBuf 0 s = .ok (s ++ cNul :: t) ∧ (s ++ cNul :: t).length = u.outBuf.length := by
  have hb : s.length < u.outBuf.length := by rw [S.sized.outLen]; exact h
  obtain ⟨t, ht⟩ := storeStr_zero hb
  refine ⟨t, ht, ?_⟩
  rw [storeStr_ok (by simpa using hb)] at ht
  have := congrArg List.length (Except.ok.inj ht)
  rw [← this]
  simp; omega

theorem processCall_cat (h : u.procFile = some f) (hf : f.process = some (.builtin .cat)) : processCall E u = catService E u := by
  unfold processCall; rw [h]; simp only [hf]

theorem processCall_help (h : u.procFile = some f) (hf : f.process = some (.builtin .help)) : processCall E u = helpService E u := by
  unfold processCall; rw [h]; simp only [hf]

theorem processCall_ls (h : u.procFile = some f) (hf : f.process = some (.builtin .ls)) : processCall E u = lsService E u := by
  unfold processCall; rw [h]; simp only [hf]

theorem processCall_xxd (h : u.procFile = some f) (hf : f.process = some (.builtin .xxd)) : processCall E u = xxdService E u := by
  unfold processCall; rw [h]; simp only [hf]

/-- The state after the start of a process. -/
theorem Called.start {cb : Cb} {l0 : List Event} (C : Called E T w v f cb argv l0) {u : Ush} (h : SameFs v u) (h1 : u.inBuf = v.inBuf)
    (h2 : u.argsCount = v.argsCount) (h3 : u.outBuf.length = v.outBuf.length) (h4 : u.procFile = some f) : Serving E T.world f argv u :=
  ⟨(C.talks.holds C.ok).same h ⟨by rw [h1]; exact C.sized.inLen, by rw [h3]; exact C.sized.outLen⟩, h4, C.args.same h1 h2⟩

/-! ## cat -/

theorem catCheck_eq {u : Ush} (H : Holds E W u) : ∀ (ws : List Str) (A t : List UInt8), (∀ w ∈ ws, cNul ∉ w) →
    W.CatNear E ws → u.inBuf = A ++ packed ws ++ t → catCheck E u (offs A.length ws) = .ok (catError W ws) := by
  intro ws
  induction ws with
  | nil => intro A t _ _ _; rfl
  | cons a ws ih =>
    intro A t hn hl hb
    have hc : cstrAt u.inBuf A.length = .ok a := by
      rw [hb, packed_cons]
      have := cstrAt_append A a (packed ws ++ t) (hn a (by simp))
      simpa using this
    rw [offs, catCheck, hc]
    simp only [M.ok_bind]
    rw [H.find (hn a (by simp)) hl.1, catError]
    simp only [M.ok_bind]
    cases hf : W.file? a with
    | none => rfl
    | some g =>
      simp only
      split
      · rfl
      · rename_i hg
        have := ih (A ++ a ++ [cNul]) t (fun w hw => hn w (by simp [hw])) (hl.2 (by simp [catError, hf, hg])) (by rw [hb]; simp)
        rw [show A.length + a.length + 1 = (A ++ a ++ [cNul]).length by simp; omega]
        exact this

theorem offs_tail (n : Str) (as : List Str) : (offs 0 (n :: as)).tail = offs (n ++ [cNul]).length as := by
  simp [offs]

theorem catCallback_eq {cb : Cb} {l0 : List Event} {n : Str} {as : List Str} (C : Called E T w v f cb (n :: as) l0) (h : as ≠ []) (hl : T.world.CatNear E as) {u : Ush}
    (hu : u = v.emit (.exec cb (n :: as))) : catCallback E u f (offs 0 (n :: as)) = (match catError T.world as with
      | some s => printStatus E u s
      | none => .ok (processStart u f)) := by
  have H : Holds E T.world u := hu ▸ C.holds
  have A : Args u (n :: as) := hu ▸ C.argsE
  obtain ⟨t, ht⟩ := A.buf
  unfold catCallback
  rw [if_neg (by rw [C.argsLen]; cases as with | nil => exact absurd rfl h | cons a as => simp), offs_tail,
    catCheck_eq H as (n ++ [cNul]) t (fun w hw => A.nul w (by simp [hw])) hl (by rw [ht]; simp)]
  simp only [M.ok_bind]
  cases catError T.world as <;> rfl

theorem catReads_length : ∀ (as : List Str) (l : List Event) (rs : List (Nat × Str)), CatReads E W l as rs → rs.length = as.length := by
  intro as
  induction as with
  | nil => intro l rs h; cases rs with | nil => rfl | cons r rs => exact h.elim
  | cons a as ih =>
    intro l rs h
    cases rs with
    | nil => exact h.elim
    | cons r rs => simp [ih _ _ h.2.2]

theorem catReads_error : ∀ (as : List Str) (l : List Event) (rs : List (Nat × Str)), CatReads E W l as rs → catError W as = none := by
  intro as
  induction as with
  | nil => intro l rs h; rfl
  | cons a as ih =>
    intro l rs h
    cases rs with
    | nil => exact h.elim
    | cons r rs =>
      obtain ⟨⟨g, h1, h2⟩, -, h4⟩ := h
      unfold catError
      rw [h1]
      simp only
      rw [if_neg (by rw [h2]; simp)]
      exact ih _ _ h4

/-- If all can be read, all can be looked up. -/
theorem catNear_all : ∀ (as : List Str), W.CatNear E as → catError W as = none → ∀ a ∈ as, W.Near E a := by
  intro as
  induction as with
  | nil => intro _ _ a h; cases h
  | cons b as ih =>
    intro h he a ha
    have h1 : catError W [b] = none ∧ catError W as = none := by
      cases hf : W.file? b with
      | none => simp [catError, hf] at he
      | some g =>
        by_cases hg : g.getData = none
        · simp [catError, hf, hg] at he
        · simpa [catError, hf, hg] using he
    rcases List.mem_cons.mp ha with rfl | ha
    · exact h.1
    · exact ih (h.2 h1.1) h1.2 a ha

theorem catNear_of : ∀ (as : List Str), (∀ a ∈ as, W.Near E a) → W.CatNear E as := by
  intro as
  induction as with
  | nil => intro _; trivial
  | cons a as ih => exact fun h => ⟨h a (by simp), fun _ => ih fun b hb => h b (by simp [hb])⟩

/-- The files are printed one after the other. -/
theorem cat_run (cfg : Config E) (hin : 0 < E.inSize) (hf : f.process = some (.builtin .cat)) (i : List UInt8) (hlen : ∀ a ∈ argv.tail, W.Near E a) :
    ∀ (as : List Str) (rs : List (Nat × Str)) (u : Ush), Serving E W f argv u → u.state = .processService → argv.drop u.procItem = as → 1 ≤ u.procItem →
      CatReads E W u.log as rs → Done E W u i (catLog rs ++ outs (W.prompt E)) := by
  intro as
  induction as with
  | nil =>
    intro rs u S hs hd h1i hr
    have hrs : rs = [] := by cases rs with | nil => rfl | cons r rs => exact hr.elim
    subst hrs
    have hge : argv.length ≤ u.procItem := by
      by_contra hc
      have := congrArg List.length hd
      simp at this; omega
    have hp : isProc u.state = true := by rw [hs]; rfl
    have r1 := S.step i hp (u' := { u with state := .processFinish }) (l := []) (by
      rw [processCall_cat S.file hf]; unfold catService; rw [hs]; simp only
      rw [if_pos (by rw [S.args.count]; exact hge)]) (by simp)
    have S1 : Serving E W f argv { u with state := .processFinish } := S.same ⟨⟨rfl, rfl, rfl, rfl⟩, rfl, rfl, rfl⟩ rfl
    have r2 := S1.step i rfl (u' := { u with state := .resetPrompt }) (l := []) (by
      rw [processCall_cat S1.file hf]; rfl) (by simp)
    have S2 : Serving E W f argv { u with state := .resetPrompt } := S.same ⟨⟨rfl, rfl, rfl, rfl⟩, rfl, rfl, rfl⟩ rfl
    obtain ⟨x, r, hx⟩ := Done.after (r1.trans r2) (done_resetPrompt cfg S2.toHolds hin i rfl)
    exact ⟨x, r.cast (by simp [catLog]), hx⟩
  | cons a as ih =>
    intro rs u S hs hd h1i hr
    cases rs with
    | nil => exact hr.elim
    | cons r rs =>
      obtain ⟨⟨g, h1, h2⟩, h3, h4⟩ := hr
      have hget : argv[u.procItem]? = some a := by
        have := congrArg (·[0]?) hd
        simpa using this
      have hlt : u.procItem < argv.length := (List.getElem?_eq_some_iff.mp hget).1
      have hmem : a ∈ argv := List.mem_of_getElem? hget
      obtain ⟨o, g1, g2, -⟩ := S.args.at hget
      have hp : isProc u.state = true := by rw [hs]; rfl
      let u1 : Ush := { u with procItem := u.procItem + 1, log := u.log ++ [.getData r.1] }
      have hstep : processCall E u = .ok (writePointerBin u1 (.data r.2) r.2.length .processService) := by
        rw [processCall_cat S.file hf]; unfold catService; rw [hs]; simp only
        rw [if_neg (by rw [S.args.count]; omega), S.args.getArgs]
        simp only [M.ok_bind]
        rw [g1]
        simp only [M.ok_bind]
        rw [g2]
        simp only [M.ok_bind]
        rw [S.toHolds.find (S.args.nul a hmem) (hlen a (by
          rw [← List.drop_one]
          refine List.mem_of_getElem? (i := u.procItem - 1) ?_
          rw [List.getElem?_drop, show 1 + (u.procItem - 1) = u.procItem by omega]
          exact hget)), h1]
        simp only [M.ok_bind, h2, callGet, h3 u rfl]
        rw [show (u.emit (.getData r.1)).state = .processService from hs]
        rfl
      have S1 : Serving E W f argv u1 := S.same ⟨⟨rfl, rfl, rfl, rfl⟩, rfl, rfl, rfl⟩ rfl
      have r1 : Run E u i (said u1 (.data r.2) r.2 .processService) i (.getData r.1 :: outs r.2) :=
        ⟨(Steps.inner i S.current (isProc.read hp) (isProc.write hp) (by rw [isProc.inner hp, hstep])).trans
          (Steps.say i u1 (.data r.2) r.2 .processService S1.current (Readable.data _ _)), by simp [u1]⟩
      have S2 : Serving E W f argv (said u1 (.data r.2) r.2 .processService) := S1.same ⟨⟨rfl, rfl, rfl, rfl⟩, rfl, rfl, rfl⟩ rfl
      have D := ih rs _ S2 rfl (by
        show argv.drop (u.procItem + 1) = as
        rw [← List.drop_drop, hd]; rfl) (by show 1 ≤ u.procItem + 1; omega) (by
        show CatReads E W (u.log ++ [.getData r.1] ++ outs r.2) as rs
        simpa using h4)
      obtain ⟨x, r', hx⟩ := Done.after r1 D
      exact ⟨x, r'.cast (by simp [catLog]), hx⟩

theorem serves_cat_bad (cfg : Config E) (L : List Event) (h : argv.length < 2) :
    Serves E T f (.builtin .cat) argv L (outs (statusString E.tr .cmdWrongArguments ++ crlf ++ T.world.prompt E)) T.world := by
  intro w v l0 i C _
  refine C.err cfg _ i ?_
  unfold callExec catCallback
  simp only
  rw [if_pos (by rw [C.argsLen]; exact h)]

theorem serves_cat_error (cfg : Config E) (L : List Event) (n : Str) (as : List Str) (hl : T.world.CatNear E as) (s : Status) (h : catError T.world as = some s) :
    Serves E T f (.builtin .cat) (n :: as) L (outs (statusString E.tr s ++ crlf ++ T.world.prompt E)) T.world := by
  intro w v l0 i C _
  refine C.err cfg _ i ?_
  have := catCallback_eq C (by intro h0; rw [h0] at h; cases h) hl rfl
  rw [h] at this
  exact this

theorem serves_cat (cfg : Config E) (L : List Event) (n : Str) (as : List Str) (hl : T.world.CatNear E as) (ha : as ≠ []) (hf : f.process = some (.builtin .cat))
    (rs : List (Nat × Str)) (h : CatReads E T.world L as rs) :
    Serves E T f (.builtin .cat) (n :: as) L (catLog rs ++ outs (T.world.prompt E)) T.world := by
  intro w v l0 i C hL
  have e := catCallback_eq C ha hl rfl
  rw [catReads_error as _ rs h] at e
  let u1 : Ush := processStart (v.emit (.exec (.builtin .cat) (n :: as))) f
  refine C.goOn i (v' := u1) rfl e ?_
  have S1 : Serving E T.world f (n :: as) u1 := C.start ⟨rfl, rfl, rfl, rfl⟩ rfl rfl rfl rfl
  let u2 : Ush := { u1 with procItem := 1, state := .processService }
  have S2 : Serving E T.world f (n :: as) u2 := S1.same ⟨⟨rfl, rfl, rfl, rfl⟩, rfl, rfl, rfl⟩ rfl
  have r := S1.step i rfl (u' := u2) (l := []) (by rw [processCall_cat S1.file hf]; rfl) (by simp [u2])
  exact Done.after (l' := catLog rs ++ outs (T.world.prompt E)) r (cat_run (argv := n :: as) cfg C.inSize hf i (catNear_all as hl (catReads_error as _ rs h)) as rs u2 S2 rfl rfl (Nat.le_refl 1) (by rw [← hL] at h; exact h))

/-! ## help -/

theorem nul_append {a b : Str} (h1 : cNul ∉ a) (h2 : cNul ∉ b) : cNul ∉ a ++ b := by simp [h1, h2]

theorem rowHead_nul (cfg : Config E) {g : FileDesc} (hg : GoodFile g) : cNul ∉ rowHead E g := by
  unfold rowHead
  cases g.description with
  | none => exact hg.name
  | some d =>
    refine nul_append (nul_append (nul_append ?_ (by decide)) cfg.texts.yellow) (by decide)
    refine nul_append hg.name ?_
    intro h
    have := List.eq_of_mem_replicate h
    exact absurd this (by decide)

theorem alignedName_eq (g : FileDesc) {d : Str} (h : g.description = some d) : alignedName E g.name = rowHead E g := by
  unfold alignedName rowHead padRight
  rw [h]

theorem crlf_nul : cNul ∉ crlf := by decide

/-- One row of `help`. -/
theorem help_row (cfg : Config E) (hf : f.process = some (.builtin .help)) (i : List UInt8) {u : Ush} (S : Serving E W f argv u)
    (hs : u.state = .processStart) {n : NodeId} (hn : u.procNode = some n) (hidx : u.procIndex = 0) {g : FileDesc}
    (hg : (u.nodes n).files[u.procItem]? = some g) (good : GoodFile g) (hfit : (rowHead E g).length < E.outSize) :
    ∃ v, Run E u i v i (outs (fileRow E g)) ∧ Serving E W f argv v ∧ v.state = .processStart ∧ v.procNode = some n ∧ v.procIndex = 0 ∧
      v.procItem = u.procItem + 1 ∧ v.nodes = u.nodes := by
  have hlt : ¬ (u.nodes n).files.length ≤ u.procItem := by
    have := (List.getElem?_eq_some_iff.mp hg).1; omega
  obtain ⟨t, ht, htl⟩ := store_out S hfit
  have hp : isProc u.state = true := by rw [hs]; rfl
  cases hd : g.description with
  | none =>
    let u1 : Ush := { u with outBuf := rowHead E g ++ cNul :: t, procIndex := 2 }
    obtain ⟨r1, S1⟩ := S.sayOut i hp (u' := u1) (s := rowHead E g) (t := t) (next := .processStart) (by
      rw [processCall_help S.file hf]; unfold helpService; rw [hs]; simp only [hn]
      rw [if_neg hlt]
      simp only [hg, hidx, hd]
      have : g.name = rowHead E g := by unfold rowHead; rw [hd]
      rw [this, ht]; simp only [M.ok_bind, u1, hs, hn]) (rowHead_nul cfg good) rfl ⟨⟨rfl, rfl, rfl, rfl⟩, rfl, rfl, rfl⟩ rfl htl
    let v1 := said u1 .outBuf (rowHead E g) .processStart
    obtain ⟨r2, S2⟩ := S1.sayStr i rfl (u' := { v1 with procIndex := 0, procItem := u.procItem + 1 }) (s := crlf) (next := .processStart) (by
      rw [processCall_help S1.file hf]; unfold helpService
      simp only [said_state, said_procNode, said_nodes, said_procItem, said_procIndex, u1, hn]
      rw [if_neg hlt]
      simp only [hg, hd]
      rw [if_neg (by simp)]; simp only [v1, u1, said_state, said_procNode, said_nodes, hn]) crlf_nul rfl ⟨⟨rfl, rfl, rfl, rfl⟩, rfl, rfl, rfl⟩ rfl
    exact ⟨_, (r1.trans r2).cast (by unfold fileRow; rw [hd]; simp [outs]), S2, rfl, hn, rfl, rfl, rfl⟩
  | some d =>
    let u1 : Ush := { u with outBuf := rowHead E g ++ cNul :: t, procIndex := 1 }
    obtain ⟨r1, S1⟩ := S.sayOut i hp (u' := u1) (s := rowHead E g) (t := t) (next := .processStart) (by
      rw [processCall_help S.file hf]; unfold helpService; rw [hs]; simp only [hn]
      rw [if_neg hlt]
      simp only [hg, hidx, hd]
      rw [alignedName_eq g hd, ht]; simp only [M.ok_bind, u1, hs, hn]) (rowHead_nul cfg good) rfl ⟨⟨rfl, rfl, rfl, rfl⟩, rfl, rfl, rfl⟩ rfl htl
    let v1 := said u1 .outBuf (rowHead E g) .processStart
    obtain ⟨r2, S2⟩ := S1.sayStr i rfl (u' := { v1 with procIndex := 2 }) (s := d) (next := .processStart) (by
      rw [processCall_help S1.file hf]; unfold helpService
      simp only [said_state, said_procNode, said_nodes, said_procItem, said_procIndex, u1, hn]
      rw [if_neg hlt]
      simp only [hg, hd]
      simp only [v1, u1, said_state, said_procNode, said_procItem, said_nodes, hn]) (good.description d hd) rfl ⟨⟨rfl, rfl, rfl, rfl⟩, rfl, rfl, rfl⟩ rfl
    let v2 := said { v1 with procIndex := 2 } (.str d) d .processStart
    obtain ⟨r3, S3⟩ := S2.sayStr i rfl (u' := { v2 with procIndex := 0, procItem := u.procItem + 1 }) (s := E.styleReset ++ crlf) (next := .processStart) (by
      rw [processCall_help S2.file hf]; unfold helpService
      simp only [said_state, said_procNode, said_nodes, said_procItem, said_procIndex, v1, u1, hn]
      rw [if_neg hlt]
      simp only [hg, hd]
      rw [if_pos (by simp)]; simp only [v2, v1, u1, said_state, said_procNode, said_procItem, said_nodes, hn]) (nul_append cfg.texts.styleReset crlf_nul) rfl ⟨⟨rfl, rfl, rfl, rfl⟩, rfl, rfl, rfl⟩ rfl
    exact ⟨_, (r1.trans (r2.trans r3)).cast (by unfold fileRow; rw [hd]; simp [outs]), S3, rfl, hn, rfl, rfl, rfl⟩

/-- The rows of one group. -/
theorem help_group (cfg : Config E) (hf : f.process = some (.builtin .help)) (i : List UInt8) : ∀ (gs : List FileDesc) {u : Ush}, Serving E W f argv u →
    u.state = .processStart → ∀ {n : NodeId}, u.procNode = some n → u.procIndex = 0 → (u.nodes n).files.drop u.procItem = gs →
    (∀ g ∈ gs, GoodFile g ∧ (rowHead E g).length < E.outSize) →
    ∃ v, Run E u i v i (outs (gs.flatMap (fileRow E))) ∧ Serving E W f argv v ∧ v.state = .processStart ∧ v.procNode = (u.nodes n).next ∧
      v.procIndex = 0 ∧ v.procItem = 0 ∧ v.nodes = u.nodes := by
  intro gs
  induction gs with
  | nil =>
    intro u S hs n hn hidx hd _
    have hge : u.procItem ≥ (u.nodes n).files.length := by
      by_contra hc
      have := congrArg List.length hd
      simp at this; omega
    refine ⟨{ u with procIndex := 0, procItem := 0, procNode := (u.nodes n).next }, S.step i (by rw [hs]; rfl) (by
      rw [processCall_help S.file hf]; unfold helpService; rw [hs]; simp only [hn]
      rw [if_pos hge]) (by simp [outs]), S.same ⟨⟨rfl, rfl, rfl, rfl⟩, rfl, rfl, rfl⟩ rfl, hs, rfl, rfl, rfl, rfl⟩
  | cons g gs ih =>
    intro u S hs n hn hidx hd hg
    have hget : (u.nodes n).files[u.procItem]? = some g := by
      have := congrArg (·[0]?) hd
      simpa using this
    obtain ⟨v, r, S1, h1, h2, h3, h4, h5⟩ := help_row cfg hf i S hs hn hidx hget (hg g (by simp)).1 (hg g (by simp)).2
    obtain ⟨x, r', S2, k1, k2, k3, k4, k5⟩ := ih S1 h1 h2 h3 (by rw [h5, h4, ← List.drop_drop, hd]; rfl) (fun g' hg' => hg g' (by simp [hg']))
    exact ⟨x, (r.trans r').cast (by simp [outs]), S2, k1, by rw [k2, h5], k3, k4, by rw [k5, h5]⟩

/-- All groups. -/
theorem help_run (cfg : Config E) (hin : 0 < E.inSize) (hf : f.process = some (.builtin .help)) (i : List UInt8) : ∀ (cs : Groups) {u : Ush},
    Serving E W f argv u → u.state = .processStart → IsChain u.nodes u.procNode (cs.map Group.id) → (∀ c ∈ cs, (u.nodes c.id).files = c.files) →
    u.procIndex = 0 → u.procItem = 0 → (∀ c ∈ cs, ∀ g ∈ c.files, GoodFile g ∧ (rowHead E g).length < E.outSize) →
    Done E W u i (outs (cs.files.flatMap (fileRow E) ++ W.prompt E)) := by
  intro cs
  induction cs with
  | nil =>
    intro u S hs hc _ _ _ _
    have hn : u.procNode = none := hc
    have r := S.step i (by rw [hs]; rfl) (u' := { u with state := .resetPrompt }) (l := []) (by
      rw [processCall_help S.file hf]; unfold helpService; rw [hs]; simp only [hn]) (by simp)
    have S1 : Serving E W f argv { u with state := .resetPrompt } := S.same ⟨⟨rfl, rfl, rfl, rfl⟩, rfl, rfl, rfl⟩ rfl
    exact Done.after r (done_resetPrompt cfg S1.toHolds hin i rfl)
  | cons c cs ih =>
    intro u S hs hc hfl hidx hit hg
    obtain ⟨v, r, S1, h1, h2, h3, h4, h5⟩ := help_group cfg hf i c.files S hs hc.1 hidx (by rw [hit, hfl c (by simp)]; rfl) (hg c (by simp))
    have D := ih S1 h1 (by rw [h5, h2]; exact hc.2) (fun c' hc' => by rw [h5]; exact hfl c' (by simp [hc'])) h3 h4 (fun c' hc' => hg c' (by simp [hc']))
    obtain ⟨x, r', hx⟩ := Done.after r D
    exact ⟨x, r'.cast (by simp [outs, Groups.files]), hx⟩

theorem serves_help (cfg : Config E) (L : List Event) (n : Str) (hf : f.process = some (.builtin .help))
    (hfit : ∀ g ∈ T.world.groups.files, (rowHead E g).length < E.outSize) :
    Serves E T f (.builtin .help) [n] L (outs (helpText E T.world ++ T.world.prompt E)) T.world := by
  intro w v l0 i C hL
  let u1 : Ush := processStart { v.emit (.exec (.builtin .help) [n]) with procNode := v.commands, procIndex := 0, procItem := 0 } f
  refine C.goOn i (v' := u1) rfl rfl ?_
  have S1 : Serving E T.world f [n] u1 := C.start ⟨rfl, rfl, rfl, rfl⟩ rfl rfl rfl rfl
  have R := C.talks.rep.cmds
  refine help_run cfg C.inSize hf i T.world.groups S1 rfl R.chain R.files rfl rfl ?_
  intro c hc g hg
  exact ⟨C.ok.cmdTexts c hc g hg, hfit g (List.mem_flatMap.mpr ⟨c, hc, hg⟩)⟩

end Ush
