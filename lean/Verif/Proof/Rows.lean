import Verif.Proof.Wrap
import Verif.Proof.Ls
import Verif.Proof.Xxd
import Verif.Proof.Reach
import Verif.Props.Limits
/-! # Rows there is no room for: lemmas -/
namespace Ush
open Spec Props

section
variable {E : Env} {W : World} {u v w : Ush} {T : Talk} {f : FileDesc} {cb : Cb} {l0 : List Event} {argv : List Str}

/-- The shell gets, without a key, to a point from which it never waits again. -/
def Dead (E : Env) (u : Ush) (i : List UInt8) : Prop := ∃ v, Steps E u i v i ∧ Never E v i

theorem Dead.after {i j : List UInt8} {l : List Event} (r : Run E u i v j l) (d : Dead E v j) : ∃ w, Steps E u i w j ∧ Never E w j := by
  obtain ⟨w, s, h⟩ := d
  exact ⟨w, r.steps.trans s, h⟩

theorem store_far (S : Serving E W f argv u) {s : Str} (h : ¬ s.length < E.outSize) : storeStr u.outBuf 0 s = .error .oob := by
  unfold storeStr
  rw [if_neg (by rw [S.sized.outLen]; omega)]

/-- A process that faults. -/
theorem Serving.far (S : Serving E W f argv u) (i : List UInt8) (hp : isProc u.state = true) (h : processCall E u = .error .oob) : Dead E u i :=
  ⟨u, Steps.refl _ _ _, never_stuck (stuck S.current (isProc.read hp) (isProc.write hp) (by rw [isProc.inner hp, h])) i⟩

/-! ## help -/

theorem help_row_far (hf : f.process = some (.builtin .help)) (i : List UInt8) (S : Serving E W f argv u)
    (hs : u.state = .processStart) {n : NodeId} (hn : u.procNode = some n) (hidx : u.procIndex = 0) {g : FileDesc}
    (hg : (u.nodes n).files[u.procItem]? = some g) (far : ¬ (rowHead E g).length < E.outSize) : Dead E u i := by
  have hlt : ¬ (u.nodes n).files.length ≤ u.procItem := by
    have := (List.getElem?_eq_some_iff.mp hg).1; omega
  have ht := store_far S far
  refine S.far i (by rw [hs]; rfl) ?_
  rw [processCall_help S.file hf]; unfold helpService; rw [hs]; simp only [hn]
  rw [if_neg hlt]
  cases hd : g.description with
  | none =>
    simp only [hg, hidx, hd]
    have : g.name = rowHead E g := by unfold rowHead; rw [hd]
    rw [this, ht]; rfl
  | some d =>
    simp only [hg, hidx, hd]
    rw [alignedName_eq g hd, ht]; rfl

theorem help_group_far (cfg : Config E) (hf : f.process = some (.builtin .help)) (i : List UInt8) : ∀ (gs : List FileDesc) {u : Ush}, Serving E W f argv u →
    u.state = .processStart → ∀ {n : NodeId}, u.procNode = some n → u.procIndex = 0 → (u.nodes n).files.drop u.procItem = gs →
    (∀ g ∈ gs, GoodFile g) → (¬ ∀ g ∈ gs, (rowHead E g).length < E.outSize) → Dead E u i := by
  intro gs
  induction gs with
  | nil => intro u _ _ n _ _ _ _ far; exact absurd (by simp) far
  | cons g gs ih =>
    intro u S hs n hn hidx hd hg far
    have hget : (u.nodes n).files[u.procItem]? = some g := by
      have := congrArg (·[0]?) hd
      simpa using this
    by_cases h : (rowHead E g).length < E.outSize
    · obtain ⟨v, r, S1, h1, h2, h3, h4, h5⟩ := help_row cfg hf i S hs hn hidx hget (hg g (by simp)) h
      exact Dead.after r (ih S1 h1 h2 h3 (by rw [h5, h4, ← List.drop_drop, hd]; rfl) (fun g' hg' => hg g' (by simp [hg'])) (fun h' => far (by
        intro g' hg'
        rcases List.mem_cons.mp hg' with rfl | hg'
        · exact h
        · exact h' g' hg')))
    · exact help_row_far hf i S hs hn hidx hget h

theorem help_far (cfg : Config E) (hf : f.process = some (.builtin .help)) (i : List UInt8) : ∀ (cs : Groups) {u : Ush},
    Serving E W f argv u → u.state = .processStart → IsChain u.nodes u.procNode (cs.map Group.id) → (∀ c ∈ cs, (u.nodes c.id).files = c.files) →
    u.procIndex = 0 → u.procItem = 0 → (∀ c ∈ cs, ∀ g ∈ c.files, GoodFile g) → (¬ ∀ c ∈ cs, ∀ g ∈ c.files, (rowHead E g).length < E.outSize) → Dead E u i := by
  intro cs
  induction cs with
  | nil => intro u _ _ _ _ _ _ _ far; exact absurd (by simp) far
  | cons c cs ih =>
    intro u S hs hc hfl hidx hit hg far
    by_cases h : ∀ g ∈ c.files, (rowHead E g).length < E.outSize
    · obtain ⟨v, r, S1, h1, h2, h3, h4, h5⟩ := help_group cfg hf i c.files S hs hc.1 hidx (by rw [hit, hfl c (by simp)]; rfl) (fun g hg' => ⟨hg c (by simp) g hg', h g hg'⟩)
      exact Dead.after r (ih S1 h1 (by rw [h5, h2]; exact hc.2) (fun c' hc' => by rw [h5]; exact hfl c' (by simp [hc'])) h3 h4 (fun c' hc' => hg c' (by simp [hc'])) (fun h' => far (by
        intro c' hc'
        rcases List.mem_cons.mp hc' with rfl | hc'
        · exact h
        · exact h' c' hc')))
    · exact help_group_far cfg hf i c.files S hs hc.1 hidx (by rw [hit, hfl c (by simp)]; rfl) (hg c (by simp)) h

theorem Called.dead {i : List UInt8} (C : Called E T w v f cb argv l0) {v' : Ush} (h : callExec E v f cb (offs 0 argv) argv = .ok v') (D : Dead E v' i) : Dead E w i := by
  obtain ⟨x, s, hx⟩ := D
  exact ⟨x, (Steps.inner i C.s3 C.s1 C.s2 (by rw [C.step, h])).trans s, hx⟩

theorem Called.help_far (cfg : Config E) {n : Str} (C : Called E T w v f (.builtin .help) [n] l0) (hf : f.process = some (.builtin .help)) (i : List UInt8)
    (far : ¬ helpFits E T.world) : Dead E w i := by
  let u1 : Ush := processStart { v.emit (.exec (.builtin .help) [n]) with procNode := v.commands, procIndex := 0, procItem := 0 } f
  refine C.dead (v' := u1) rfl ?_
  have S1 : Serving E T.world f [n] u1 := C.start ⟨rfl, rfl, rfl, rfl⟩ rfl rfl rfl rfl
  have R := C.talks.rep.cmds
  refine Ush.help_far cfg hf i T.world.groups S1 rfl R.chain R.files rfl rfl (fun c hc g hg => C.ok.cmdTexts c hc g hg) fun h => far ?_
  intro g hg
  obtain ⟨c, hc, hg⟩ := List.mem_flatMap.mp hg
  exact h c hc g hg

/-! ## ls -/

theorem ls_file_far (hf : f.process = some (.builtin .ls)) (i : List UInt8) {u : Ush} (S : Serving E W f argv u)
    (hs : u.state = .processFinish) {n : NodeId} (hn : u.procNode = some n) (hidx : u.procIndex = 0) {g : FileDesc}
    (hg : (u.nodes n).files[u.procItem]? = some g) (far : ¬ (7 ≤ E.outSize ∧ (rowHead E g).length < E.outSize)) : Dead E u i := by
  have hlt : ¬ (u.nodes n).files.length ≤ u.procItem := by
    have := (List.getElem?_eq_some_iff.mp hg).1; omega
  by_cases h7 : 7 ≤ E.outSize
  · have far : ¬ (rowHead E g).length < E.outSize := fun h => far ⟨h7, h⟩
    obtain ⟨t0, ht0, htl0⟩ := store_out S (s := flags g) (by simp [flags]; omega)
    let u0 : Ush := { u with outBuf := flags g ++ cNul :: t0, procIndex := 1 }
    obtain ⟨r0, S0⟩ := S.sayOut i (by rw [hs]; rfl) (u' := u0) (s := flags g) (t := t0) (next := .processFinish) (by
      rw [processCall_ls S.file hf]; unfold lsService; rw [hs]; simp only [hn]
      rw [if_neg hlt]
      simp only [hg, hidx]
      rw [lsFlags_eq, ht0]; simp only [M.ok_bind, u0, hs, hn]) (flags_nul g) rfl ⟨⟨rfl, rfl, rfl, rfl⟩, rfl, rfl, rfl⟩ rfl htl0
    have ht := store_far S0 far
    simp only [said_outBuf, u0] at ht
    refine Dead.after r0 (S0.far i rfl ?_)
    rw [processCall_ls S0.file hf]; unfold lsService
    simp only [said_state, said_procNode, said_nodes, said_procItem, said_procIndex, u0, hn]
    rw [if_neg hlt]
    cases hd : g.description with
    | none =>
      simp only [hg, hd]
      have : g.name = rowHead E g := by unfold rowHead; rw [hd]
      rw [this]
      simp only [said_outBuf]
      rw [ht]; rfl
    | some d =>
      simp only [hg, hd]
      rw [alignedName_eq g hd]
      simp only [said_outBuf]
      rw [ht]; rfl
  · refine S.far i (by rw [hs]; rfl) ?_
    rw [processCall_ls S.file hf]; unfold lsService; rw [hs]; simp only [hn]
    rw [if_neg hlt]
    simp only [hg, hidx]
    rw [lsFlags_eq, store_far S (by simp [flags]; omega)]; rfl

theorem ls_files_far (cfg : Config E) (hf : f.process = some (.builtin .ls)) (i : List UInt8) :
    ∀ (gs : List FileDesc) {u : Ush}, Serving E W f argv u →
    u.state = .processFinish → ∀ {n : NodeId}, u.procNode = some n → u.procIndex = 0 → (u.nodes n).files.drop u.procItem = gs →
    (∀ g ∈ gs, GoodFile g) → (¬ ∀ g ∈ gs, 7 ≤ E.outSize ∧ (rowHead E g).length < E.outSize) → Dead E u i := by
  intro gs
  induction gs with
  | nil => intro u _ _ n _ _ _ _ far; exact absurd (by simp) far
  | cons g gs ih =>
    intro u S hs n hn hidx hd hg far
    have hget : (u.nodes n).files[u.procItem]? = some g := by
      have := congrArg (·[0]?) hd
      simpa using this
    by_cases h : 7 ≤ E.outSize ∧ (rowHead E g).length < E.outSize
    · obtain ⟨v, r, S1, h1, h2, h3, h4, h5⟩ := ls_file cfg hf i S hs hn hidx hget (hg g (by simp)) h.2 h.1
      exact Dead.after r (ih S1 h1 h2 h3 (by rw [h5, h4, ← List.drop_drop, hd]; rfl) (fun g' hg' => hg g' (by simp [hg'])) (fun h' => far (by
        intro g' hg'
        rcases List.mem_cons.mp hg' with rfl | hg'
        · exact h
        · exact h' g' hg')))
    · exact ls_file_far hf i S hs hn hidx hget h

theorem ls_far (cfg : Config E) (hf : f.process = some (.builtin .ls)) (i : List UInt8)
    {u : Ush} (S : Serving E W f argv u) (hs : u.state = .processStart) {m : Mount} (hm : m ∈ W.dirs) (hn : u.procNode = some m.id)
    (far : ¬ lsFits E m) : Dead E u i := by
  obtain ⟨v, r, S2, h1, h2, h3, h4⟩ := ls_head cfg hf i S hs hm hn
  exact Dead.after r (ls_files_far cfg hf i m.files S2 h1 h2 h3 h4 (fun g hg => S.ok.treeTexts m hm g hg) far)

theorem Called.ls_far (cfg : Config E) {n : Str} (C : Called E T w v f (.builtin .ls) [n] l0) (hf : f.process = some (.builtin .ls)) (i : List UInt8)
    {m : Mount} (hm : T.world.cwd = some m) (far : ¬ lsFits E m) : Dead E w i := by
  obtain ⟨m', k1, -, k3, -, -, k6⟩ := C.holds.cwd
  rw [hm] at k1
  cases k1
  let u1 : Ush := processStart { v.emit (.exec (.builtin .ls) [n]) with procNode := v.current } f
  refine C.dead (v' := u1) rfl ?_
  have S1 : Serving E T.world f [n] u1 := C.start ⟨rfl, rfl, rfl, rfl⟩ rfl rfl rfl rfl
  exact Ush.ls_far cfg hf i S1 rfl k6 k3 far

theorem Called.ls_dir_far (cfg : Config E) {n a : Str} (C : Called E T w v f (.builtin .ls) [n, a] l0) (hl : T.world.Room E a) (hf : f.process = some (.builtin .ls))
    (i : List UInt8) {m : Mount} (hm : T.world.dir? a = some m) (far : ¬ lsFits E m) : Dead E w i := by
  have e := lsCallback_eq C hl rfl
  rw [hm] at e
  let u1 : Ush := processStart { v.emit (.exec (.builtin .ls) [n, a]) with procNode := some m.id } f
  refine C.dead (v' := u1) e ?_
  have S1 : Serving E T.world f [n, a] u1 := C.start ⟨rfl, rfl, rfl, rfl⟩ rfl rfl rfl rfl
  exact Ush.ls_far cfg hf i S1 rfl (mem_dirs_of_tree (findText_mem hm)) rfl far

/-! ## xxd -/

theorem xxdHexLoop_far {d : Str} (hd : u.procData = some d) (hsz : u.procDataSize = d.length) : ∀ (n off : Nat) (a t : Str), cNul ∉ a →
    ¬ a.length + 3 * n < (a ++ cNul :: t).length → xxdHexLoop u n off (a ++ cNul :: t) = .error .oob := by
  intro n
  induction n with
  | zero => intro off a t _ h; simp at h
  | succ n ih =>
    intro off a t ha far
    have one : ∀ s : Str, s.length = 3 → cNul ∉ s → (appendStr (a ++ cNul :: t) s >>= xxdHexLoop u n (off + 1)) = .error .oob := by
      intro s hs hn
      by_cases h : (a ++ s).length < (a ++ cNul :: t).length
      · obtain ⟨t1, e1, l1⟩ := appendStr_eq (s := s) (t := t) ha h
        rw [e1, M.ok_bind]
        exact ih _ _ _ (nul_append ha hn) (by rw [l1]; simp at far ⊢; omega)
      · unfold appendStr
        rw [strlenAt_zero ha, M.ok_bind]
        unfold storeStr
        rw [if_neg (by simpa using h)]
        rfl
    rw [xxdHexLoop]
    cases hb : d.drop off with
    | nil =>
      have hge : ¬ off < u.procDataSize := by rw [hsz]; have := drop_nil_le hb; omega
      rw [if_neg hge]
      exact one _ rfl (by decide)
    | cons b bs =>
      obtain ⟨g1, g2⟩ := procDataAt_eq hd hb
      rw [if_pos (by rw [hsz]; exact g2), g1, M.ok_bind]
      exact one _ (by rw [hex2_eq]; simp [hexFixed_length]) (by rw [hex2_eq]; exact nul_append (hexFixed_nul _ _) (by decide))

/-- With 0 columns. -/
theorem Dumping.never (hE : E.xxdColumns = 0) (D : Dumping u) (i : List UInt8) : Never E u i := by
  have key : ∀ (n : Nat) {u v : Ush} {r : List UInt8}, Dumping u → chain E u i n = .ok (v, r) → Dumping v ∧ r = i := by
    intro n
    induction n with
    | zero => intro u v r D h; cases h; exact ⟨D, rfl⟩
    | succ n ih =>
      intro u v r D h
      rw [chain_succ] at h
      obtain ⟨⟨w, q⟩, h1, h⟩ := M.bind_eq_ok.mp h
      unfold drive1 at h1
      obtain ⟨⟨w', b⟩, hw, h1⟩ := M.bind_eq_ok.mp h1
      have hr : u.state ≠ .readChar := by rcases D.state with hs | ⟨hs, -⟩ <;> rw [hs] <;> decide
      rw [if_neg (fun h => hr h.1)] at h1
      cases h1
      exact ih (D.next hE _ (show (service E _ u >>= fun r => pure r.1) = .ok w by rw [hw]; rfl)) h
  intro n v r h
  obtain ⟨D', e⟩ := key n D h
  exact ⟨by rcases D'.state with hs | ⟨hs, -⟩ <;> rw [hs] <;> decide, e⟩

theorem Called.xxd_far {n a : Str} (C : Called E T w v f (.builtin .xxd) [n, a] l0) (hl : T.world.Near E a) (hf : f.process = some (.builtin .xxd))
    (i : List UInt8) {g : FileDesc} {id : Nat} {d : Str} (h : T.world.file? a = some g) (hg : g.getData = some id)
    (hd : Gets E (v.log ++ [.exec (.builtin .xxd) [n, a]]) id d) (far : ¬ xxdFits E d) : Dead E w i := by
  have e := xxdCallback_eq C hl rfl
  rw [h] at e
  simp only [hg] at e
  unfold callGet at e
  rw [hd _ rfl] at e
  let u1 : Ush := processStart { (v.emit (.exec (.builtin .xxd) [n, a])).emit (.getData id) with procData := some d, procDataSize := d.length } f
  refine C.dead (v' := u1) e ?_
  have S1 : Serving E T.world f [n, a] u1 := C.start ⟨rfl, rfl, rfl, rfl⟩ rfl rfl rfl rfl
  let u2 : Ush := { u1 with procIndex := 0, procItem := 0, state := .processService }
  have S2 : Serving E T.world f [n, a] u2 := S1.same ⟨⟨rfl, rfl, rfl, rfl⟩, rfl, rfl, rfl⟩ rfl
  have r1 := S1.step i rfl (u' := u2) (l := []) (by rw [processCall_xxd S1.file hf]; rfl) (by simp [u2])
  refine Dead.after r1 ?_
  by_cases h0 : E.xxdColumns = 0 ∧ d ≠ []
  · refine ⟨u2, Steps.refl _ _ _, Dumping.never h0.1 ⟨S2.current, ⟨f, S2.file, hf⟩, ?_, .inl rfl⟩ i⟩
    exact List.length_pos_iff.mpr h0.2
  have hoff : u2.procItem < 16 ^ 8 := (by decide : (0 : Nat) < 16 ^ 8)
  by_cases h1 : 10 < E.outSize
  · have h2 : ¬ 3 * E.xxdColumns + 1 < E.outSize := by
      intro h2
      refine far ⟨h1, h2, ?_⟩
      by_cases hc : 0 < E.xxdColumns
      · exact .inl hc
      · exact .inr (Classical.byContradiction fun hd => h0 ⟨by omega, hd⟩)
    obtain ⟨t0, ht0, hl0⟩ := store_out S2 (s := hexFixed 8 u2.procItem ++ b!": ") (by simp [hexFixed_length]; exact h1)
    let u0 : Ush := { u2 with outBuf := hexFixed 8 u2.procItem ++ b!": " ++ cNul :: t0, procIndex := 1 }
    obtain ⟨r0, S0⟩ := S2.sayOut i rfl (u' := u0) (s := hexFixed 8 u2.procItem ++ b!": ") (t := t0) (next := .processService) (by
      rw [processCall_xxd S2.file hf]; exact xxdService_0 rfl rfl (by rw [hex8_eq hoff]; exact ht0)) (nul_append (hexFixed_nul _ _) (by decide)) rfl
      ⟨⟨rfl, rfl, rfl, rfl⟩, rfl, rfl, rfl⟩ rfl hl0
    refine Dead.after r0 (S0.far i rfl ?_)
    generalize hv0 : said u0 .outBuf (hexFixed 8 u2.procItem ++ b!": ") .processService = v0 at S0
    have hlen0 : v0.outBuf.length = E.outSize := S0.sized.outLen
    obtain ⟨t1, ht1, hl1⟩ := wr_zero (b := v0.outBuf) (by rw [hlen0]; omega)
    have k1 : v0.state = .processService := by rw [← hv0]; rfl
    have k2 : v0.procIndex = 1 := by rw [← hv0]; rfl
    have k3 : v0.procData = some d := by rw [← hv0]; rfl
    have k4 : v0.procDataSize = d.length := by rw [← hv0]; rfl
    rw [processCall_xxd S0.file hf]
    unfold xxdService
    rw [k1]
    simp only
    rw [k2]
    simp only
    rw [ht1]
    simp only [M.ok_bind]
    by_cases h3 : 3 * E.xxdColumns < E.outSize
    · obtain ⟨t2, ht2, hl2⟩ := xxdHexLoop_eq (u := v0) (d := d) k3 k4 E.xxdColumns v0.procItem [] t1 (by simp) (by
        rw [List.nil_append, hl1, hlen0]; simpa using h3)
      rw [List.nil_append] at hl2 ht2
      rw [List.nil_append] at hl2 ht2
      rw [ht2]
      simp only [M.ok_bind]
      unfold appendStr
      rw [strlenAt_zero (hexCols_nul _ _), M.ok_bind]
      unfold storeStr
      rw [if_neg (by rw [hl2, hl1, hlen0, hexCols_length]; simp; omega)]
      rfl
    · have := xxdHexLoop_far k3 k4 E.xxdColumns v0.procItem [] t1 (by simp) (by rw [List.nil_append, hl1, hlen0]; simpa using h3)
      rw [List.nil_append] at this
      rw [this]
      rfl
  · refine S2.far i rfl ?_
    rw [processCall_xxd S2.file hf]
    unfold xxdService
    show (storeStr u2.outBuf 0 (hex8 u2.procItem ++ b!": ") >>= _) = _
    rw [hex8_eq hoff, store_far S2 (by simp [hexFixed_length]; omega)]
    rfl

end

end Ush
