import Verif.Proof.Process
/-!
# `ls`
-/
namespace Ush
open Spec

variable {E : Env} {W : World} {T : Talk} {u v w : Ush} {f : FileDesc} {argv : List Str}

theorem lsDots_eq (n : Str) : lsDots E n = dirRow E n := rfl

theorem dirRow_nul (cfg : Config E) {n : Str} (h : cNul ∉ n) : cNul ∉ dirRow E n :=
  nul_append (nul_append (nul_append (nul_append (by decide) cfg.texts.green) h) cfg.texts.styleReset) crlf_nul

theorem lsFlags_eq (g : FileDesc) : lsFlags g = flags g := by
  unfold lsFlags flags flag
  cases g.getData <;> cases g.setData <;> cases g.exec <;> cases g.help <;> rfl

theorem flags_nul (g : FileDesc) : cNul ∉ flags g := by
  unfold flags flag
  generalize g.getData.isSome = a
  generalize g.setData.isSome = b
  generalize g.exec.isSome = c
  generalize g.help.isSome = d
  revert a b c d
  decide

/-- One sub-directory. -/
theorem ls_dir (cfg : Config E) (hf : f.process = some (.builtin .ls)) (i : List UInt8) {u : Ush} (S : Serving E W f argv u)
    (hs : u.state = .processService) {c : NodeId} (hc : u.procChild = some c) (hidx : u.procIndex = 0) {p : Str} (hp : (u.nodes c).path = some p)
    (hn : cNul ∉ pathLast p) :
    ∃ v, Run E u i v i (outs (dirRow E (pathLast p ++ b!"/"))) ∧ Serving E W f argv v ∧ v.state = .processService ∧
      v.procChild = (u.nodes c).next ∧ v.procIndex = 0 ∧ v.procNode = u.procNode ∧ v.nodes = u.nodes := by
  obtain ⟨r1, S1⟩ := S.sayStr i (by rw [hs]; rfl) (u' := { u with procIndex := 1 }) (s := b!"d---- " ++ E.colorGreen) (next := .processService) (by
    rw [processCall_ls S.file hf]; unfold lsService; rw [hs]; simp only [hc, hidx]) (nul_append (by decide) cfg.texts.green) rfl
    ⟨⟨rfl, rfl, rfl, rfl⟩, rfl, rfl, rfl⟩ rfl
  let v1 := said { u with procIndex := 1 } (.str (b!"d---- " ++ E.colorGreen)) (b!"d---- " ++ E.colorGreen) .processService
  obtain ⟨r2, S2⟩ := S1.sayStr i rfl (u' := { v1 with procIndex := 2 }) (s := pathLast p) (next := .processService) (by
    rw [processCall_ls S1.file hf]; unfold lsService
    simp only [said_state, said_procChild, said_procIndex, said_nodes, hc, hp, v1]) hn rfl ⟨⟨rfl, rfl, rfl, rfl⟩, rfl, rfl, rfl⟩ rfl
  let v2 := said { v1 with procIndex := 2 } (.str (pathLast p)) (pathLast p) .processService
  obtain ⟨r3, S3⟩ := S2.sayStr i rfl (u' := { v2 with procIndex := 3 }) (s := b!"/" ++ E.styleReset ++ crlf) (next := .processService) (by
    rw [processCall_ls S2.file hf]; unfold lsService
    simp only [said_state, said_procChild, said_procIndex, said_nodes, hc, v1, v2]) (nul_append (nul_append (by decide) cfg.texts.styleReset) crlf_nul) rfl
    ⟨⟨rfl, rfl, rfl, rfl⟩, rfl, rfl, rfl⟩ rfl
  let v3 := said { v2 with procIndex := 3 } (.str (b!"/" ++ E.styleReset ++ crlf)) (b!"/" ++ E.styleReset ++ crlf) .processService
  have r4 := S3.step i rfl (u' := { v3 with procIndex := 0, procChild := (u.nodes c).next }) (l := []) (by
    rw [processCall_ls S3.file hf]; unfold lsService
    simp only [said_state, said_procChild, said_procIndex, said_nodes, hc, v1, v2, v3]) (by simp [v3])
  exact ⟨_, (r1.trans (r2.trans (r3.trans r4))).cast (by simp [outs, dirRow]), S3.same ⟨⟨rfl, rfl, rfl, rfl⟩, rfl, rfl, rfl⟩ rfl, rfl, rfl, rfl, rfl, rfl⟩

/-- All sub-directories. -/
theorem ls_dirs (cfg : Config E) (hf : f.process = some (.builtin .ls)) (i : List UInt8) : ∀ (ks : List Mount) {u : Ush}, Serving E W f argv u →
    u.state = .processService → IsChain u.nodes u.procChild (ks.map Mount.id) → u.procIndex = 0 →
    (∀ k ∈ ks, (u.nodes k.id).path = some (render k.path) ∧ k.path ≠ [] ∧ ∀ c ∈ k.path, GoodComp c) →
    ∃ v, Run E u i v i (outs (ks.flatMap (fun k => dirRow E ((k.path.getLast?.getD []) ++ b!"/")))) ∧ Serving E W f argv v ∧
      v.state = .processFinish ∧ v.procIndex = 0 ∧ v.procItem = 0 ∧ v.procNode = u.procNode ∧ v.nodes = u.nodes := by
  intro ks
  induction ks with
  | nil =>
    intro u S hs hc hidx _
    have hn : u.procChild = none := hc
    refine ⟨{ u with procIndex := 0, procItem := 0, state := .processFinish }, S.step i (by rw [hs]; rfl) (by
      rw [processCall_ls S.file hf]; unfold lsService; rw [hs]; simp only [hn]) (by simp [outs]),
      S.same ⟨⟨rfl, rfl, rfl, rfl⟩, rfl, rfl, rfl⟩ rfl, rfl, rfl, rfl, rfl, rfl⟩
  | cons k ks ih =>
    intro u S hs hc hidx hk
    obtain ⟨h1, h2, h3⟩ := hk k (by simp)
    have hl : pathLast (render k.path) = k.path.getLast?.getD [] := by
      obtain ⟨q, c, hq⟩ : ∃ q c, k.path = q ++ [c] := ⟨k.path.dropLast, k.path.getLast h2, (List.dropLast_append_getLast h2).symm⟩
      rw [hq, pathLast_concat q c (h3 c (by rw [hq]; simp))]
      simp
    have hn : cNul ∉ pathLast (render k.path) := by
      rw [hl]
      cases hg : k.path.getLast? with
      | none => simp
      | some c => exact (h3 c (List.mem_of_getLast? hg)).2.2
    obtain ⟨v, r, S1, k1, k2, k3, k4, k5⟩ := ls_dir cfg hf i S hs hc.1 hidx h1 hn
    obtain ⟨x, r', S2, j1, j2, j3, j4, j5⟩ := ih S1 k1 (by rw [k5, k2]; exact hc.2) k3 (fun k' hk' => by rw [k5]; exact hk k' (by simp [hk']))
    exact ⟨x, (r.trans r').cast (by rw [hl]; simp [outs]), S2, j1, j2, j3, by rw [j4, k4], by rw [j5, k5]⟩

/-- One file. -/
theorem ls_file (cfg : Config E) (hf : f.process = some (.builtin .ls)) (i : List UInt8) {u : Ush} (S : Serving E W f argv u)
    (hs : u.state = .processFinish) {n : NodeId} (hn : u.procNode = some n) (hidx : u.procIndex = 0) {g : FileDesc}
    (hg : (u.nodes n).files[u.procItem]? = some g) (good : GoodFile g) (hfit : (rowHead E g).length < E.outSize) (h7 : 7 ≤ E.outSize) :
    ∃ v, Run E u i v i (outs (flags g ++ fileRow E g)) ∧ Serving E W f argv v ∧ v.state = .processFinish ∧ v.procNode = some n ∧ v.procIndex = 0 ∧
      v.procItem = u.procItem + 1 ∧ v.nodes = u.nodes := by
  have hlt : ¬ (u.nodes n).files.length ≤ u.procItem := by
    have := (List.getElem?_eq_some_iff.mp hg).1; omega
  obtain ⟨t0, ht0, htl0⟩ := store_out S (s := flags g) (by simp [flags]; omega)
  let u0 : Ush := { u with outBuf := flags g ++ cNul :: t0, procIndex := 1 }
  obtain ⟨r0, S0⟩ := S.sayOut i (by rw [hs]; rfl) (u' := u0) (s := flags g) (t := t0) (next := .processFinish) (by
    rw [processCall_ls S.file hf]; unfold lsService; rw [hs]; simp only [hn]
    rw [if_neg hlt]
    simp only [hg, hidx]
    rw [lsFlags_eq, ht0]; simp only [M.ok_bind, u0, hs, hn]) (flags_nul g) rfl ⟨⟨rfl, rfl, rfl, rfl⟩, rfl, rfl, rfl⟩ rfl htl0
  let v0 := said u0 .outBuf (flags g) .processFinish
  obtain ⟨t, ht, htl⟩ := store_out S0 hfit
  simp only [said_outBuf, u0] at ht
  cases hd : g.description with
  | none =>
    let u1 : Ush := { v0 with outBuf := rowHead E g ++ cNul :: t, procIndex := 3 }
    obtain ⟨r1, S1⟩ := S0.sayOut i rfl (u' := u1) (s := rowHead E g) (t := t) (next := .processFinish) (by
      rw [processCall_ls S0.file hf]; unfold lsService
      simp only [said_state, said_procNode, said_nodes, said_procItem, said_procIndex, u0, hn]
      rw [if_neg hlt]
      simp only [hg, hd]
      have : g.name = rowHead E g := by unfold rowHead; rw [hd]
      rw [this]
      simp only [said_outBuf]
      rw [ht]
      simp only [M.ok_bind, u1, v0, u0, said_state, said_procNode, said_nodes, said_procItem, hn]) (rowHead_nul cfg good) rfl
      ⟨⟨rfl, rfl, rfl, rfl⟩, rfl, rfl, rfl⟩ rfl htl
    let v1 := said u1 .outBuf (rowHead E g) .processFinish
    obtain ⟨r2, S2⟩ := S1.sayStr i rfl (u' := { v1 with procIndex := 0, procItem := u.procItem + 1 }) (s := crlf) (next := .processFinish) (by
      rw [processCall_ls S1.file hf]; unfold lsService
      simp only [said_state, said_procNode, said_nodes, said_procItem, said_procIndex, u1, v0, u0, hn]
      rw [if_neg hlt]
      simp only [hg, hd]
      rw [if_neg (by simp)]; simp only [v1, u1, v0, u0, said_state, said_procNode, said_procItem, said_nodes, said_outBuf, hn]) crlf_nul rfl ⟨⟨rfl, rfl, rfl, rfl⟩, rfl, rfl, rfl⟩ rfl
    exact ⟨_, (r0.trans (r1.trans r2)).cast (by unfold fileRow; rw [hd]; simp [outs]), S2, rfl, hn, rfl, rfl, rfl⟩
  | some d =>
    let u1 : Ush := { v0 with outBuf := rowHead E g ++ cNul :: t, procIndex := 2 }
    obtain ⟨r1, S1⟩ := S0.sayOut i rfl (u' := u1) (s := rowHead E g) (t := t) (next := .processFinish) (by
      rw [processCall_ls S0.file hf]; unfold lsService
      simp only [said_state, said_procNode, said_nodes, said_procItem, said_procIndex, u0, hn]
      rw [if_neg hlt]
      simp only [hg, hd]
      rw [alignedName_eq g hd]
      simp only [said_outBuf]
      rw [ht]
      simp only [M.ok_bind, u1, v0, u0, said_state, said_procNode, said_nodes, said_procItem, hn]) (rowHead_nul cfg good) rfl
      ⟨⟨rfl, rfl, rfl, rfl⟩, rfl, rfl, rfl⟩ rfl htl
    let v1 := said u1 .outBuf (rowHead E g) .processFinish
    obtain ⟨r2, S2⟩ := S1.sayStr i rfl (u' := { v1 with procIndex := 3 }) (s := d) (next := .processFinish) (by
      rw [processCall_ls S1.file hf]; unfold lsService
      simp only [said_state, said_procNode, said_nodes, said_procItem, said_procIndex, u1, v0, u0, hn]
      rw [if_neg hlt]
      simp only [hg, hd]
      simp only [v1, u1, v0, u0, said_state, said_procNode, said_procItem, said_nodes, said_outBuf, hn]) (good.description d hd) rfl
      ⟨⟨rfl, rfl, rfl, rfl⟩, rfl, rfl, rfl⟩ rfl
    let v2 := said { v1 with procIndex := 3 } (.str d) d .processFinish
    obtain ⟨r3, S3⟩ := S2.sayStr i rfl (u' := { v2 with procIndex := 0, procItem := u.procItem + 1 }) (s := E.styleReset ++ crlf) (next := .processFinish) (by
      rw [processCall_ls S2.file hf]; unfold lsService
      simp only [said_state, said_procNode, said_nodes, said_procItem, said_procIndex, v1, u1, v0, u0, hn]
      rw [if_neg hlt]
      simp only [hg, hd]
      rw [if_pos (by simp)]; simp only [v2, v1, u1, v0, u0, said_state, said_procNode, said_procItem, said_nodes, said_outBuf, hn])
      (nul_append cfg.texts.styleReset crlf_nul) rfl ⟨⟨rfl, rfl, rfl, rfl⟩, rfl, rfl, rfl⟩ rfl
    exact ⟨_, (r0.trans (r1.trans (r2.trans r3))).cast (by unfold fileRow; rw [hd]; simp [outs]), S3, rfl, hn, rfl, rfl, rfl⟩

/-- All files. -/
theorem ls_files (cfg : Config E) (hin : 0 < E.inSize) (hf : f.process = some (.builtin .ls)) (i : List UInt8) :
    ∀ (gs : List FileDesc) {u : Ush}, Serving E W f argv u →
    u.state = .processFinish → ∀ {n : NodeId}, u.procNode = some n → u.procIndex = 0 → (u.nodes n).files.drop u.procItem = gs →
    (∀ g ∈ gs, GoodFile g ∧ 7 ≤ E.outSize ∧ (rowHead E g).length < E.outSize) →
    Done E W u i (outs (gs.flatMap (fun g => flags g ++ fileRow E g) ++ W.prompt E)) := by
  intro gs
  induction gs with
  | nil =>
    intro u S hs n hn hidx hd _
    have hge : u.procItem ≥ (u.nodes n).files.length := by
      by_contra hc
      have := congrArg List.length hd
      simp at this; omega
    have r := S.step i (by rw [hs]; rfl) (u' := { u with state := .resetPrompt }) (l := []) (by
      rw [processCall_ls S.file hf]; unfold lsService; rw [hs]; simp only [hn]
      rw [if_pos hge]) (by simp)
    have S1 : Serving E W f argv { u with state := .resetPrompt } := S.same ⟨⟨rfl, rfl, rfl, rfl⟩, rfl, rfl, rfl⟩ rfl
    exact Done.after r (done_resetPrompt cfg S1.toHolds hin i rfl)
  | cons g gs ih =>
    intro u S hs n hn hidx hd hg
    have hget : (u.nodes n).files[u.procItem]? = some g := by
      have := congrArg (·[0]?) hd
      simpa using this
    obtain ⟨v, r, S1, h1, h2, h3, h4, h5⟩ := ls_file cfg hf i S hs hn hidx hget (hg g (by simp)).1 (hg g (by simp)).2.2 (hg g (by simp)).2.1
    have D := ih S1 h1 h2 h3 (by rw [h5, h4, ← List.drop_drop, hd]; rfl) (fun g' hg' => hg g' (by simp [hg']))
    obtain ⟨x, r', hx⟩ := Done.after r D
    exact ⟨x, r'.cast (by simp [outs]), hx⟩

/-- The process up to the files. -/
theorem ls_head (cfg : Config E) (hf : f.process = some (.builtin .ls)) (i : List UInt8)
    {u : Ush} (S : Serving E W f argv u) (hs : u.state = .processStart) {m : Mount} (hm : m ∈ W.dirs) (hn : u.procNode = some m.id) :
    ∃ v, Run E u i v i (outs (dirRow E b!"." ++ (if m.path = [] then [] else dirRow E b!"..") ++
        (W.tree.under m).flatMap (fun k => dirRow E ((k.path.getLast?.getD []) ++ b!"/")))) ∧ Serving E W f argv v ∧ v.state = .processFinish ∧ v.procNode = some m.id ∧ v.procIndex = 0 ∧
      (v.nodes m.id).files.drop v.procItem = m.files := by
  have R := S.rep.tree
  have D := S.rep.dir hm
  let text := dirRow E b!"." ++ (if m.path = [] then [] else dirRow E b!"..")
  have htext : (if (u.nodes m.id).parent ≠ none then lsDots E b!"." ++ lsDots E b!".." else lsDots E b!".") = text := by
    have hd := D.parent
    by_cases h : m.path = []
    · rw [if_neg (by simpa using hd.mpr h)]; simp [text, h, lsDots_eq]
    · rw [if_pos (fun e => h (hd.mp e))]
      simp only [text, lsDots_eq]
      rw [if_neg h]
  have hnul : cNul ∉ text := by
    refine nul_append (dirRow_nul cfg (by decide)) ?_
    split
    · simp
    · exact dirRow_nul cfg (by decide)
  let u1 : Ush := { u with procChild := (u.nodes m.id).children, procIndex := 0 }
  obtain ⟨r1, S1⟩ := S.sayStr i (by rw [hs]; rfl) (u' := u1) (s := text) (next := .processService) (by
    rw [processCall_ls S.file hf]; unfold lsService; rw [hs]; simp only [hn]
    rw [htext, writePointer_str _ _ _ hnul, writePointer_str _ _ _ hnul]
    simp only [M.ok_bind, writePointerBin, u1, hn]
    rfl) hnul rfl ⟨⟨rfl, rfl, rfl, rfl⟩, rfl, rfl, rfl⟩ rfl
  obtain ⟨v2, r2, S2, h1, h2, h3, h4, h5⟩ := ls_dirs cfg hf i (W.tree.under m) S1 rfl (S.rep.under hm) rfl (by
    intro k hk
    have hk' := under_mem hk
    refine ⟨R.path k hk'.1, ?_, R.good k hk'.1⟩
    have := hk'.2
    simp [isKid] at this
    exact this.1)
  have h4' : v2.procNode = some m.id := by rw [h4]; exact hn
  exact ⟨v2, (r1.trans r2).cast (by simp only [outs, text, List.map_append, List.append_assoc]), S2, h1, h4', h2, by rw [h5, h3]; show (u.nodes m.id).files.drop 0 = _; rw [D.files]; rfl⟩

/-- The whole process. -/
theorem ls_run (cfg : Config E) (hin : 0 < E.inSize) (hf : f.process = some (.builtin .ls)) (i : List UInt8)
    {u : Ush} (S : Serving E W f argv u) (hs : u.state = .processStart) {m : Mount} (hm : m ∈ W.dirs) (hn : u.procNode = some m.id)
    (hfit : ∀ g ∈ m.files, 7 ≤ E.outSize ∧ (rowHead E g).length < E.outSize) : Done E W u i (outs (lsText E W.tree m ++ W.prompt E)) := by
  obtain ⟨v, r, S2, h1, h2, h3, h4⟩ := ls_head cfg hf i S hs hm hn
  have D' := ls_files cfg hin hf i m.files S2 h1 h2 h3 h4 (fun g hg => ⟨S.ok.treeTexts m hm g hg, hfit g hg⟩)
  obtain ⟨x, r, hx⟩ := Done.after r D'
  exact ⟨x, r.cast (by simp only [outs, lsText, List.map_append, List.append_assoc]), hx⟩

theorem serves_ls_bad (cfg : Config E) (L : List Event) (h : argv.length ≠ 1 ∧ argv.length ≠ 2) :
    Serves E T f (.builtin .ls) argv L (outs (statusString E.tr .cmdWrongArguments ++ crlf ++ T.world.prompt E)) T.world := by
  intro w v l0 i C _
  refine C.err cfg _ i ?_
  unfold callExec lsCallback
  simp only
  rw [C.argsLen]
  split
  · omega
  · omega
  · rfl

theorem serves_ls (cfg : Config E) (L : List Event) (n : Str) (hf : f.process = some (.builtin .ls)) {m : Mount}
    (hm : T.world.cwd = some m) (hfit : ∀ g ∈ m.files, 7 ≤ E.outSize ∧ (rowHead E g).length < E.outSize) :
    Serves E T f (.builtin .ls) [n] L (outs (lsText E T.world.tree m ++ T.world.prompt E)) T.world := by
  intro w v l0 i C hL
  obtain ⟨m', k1, -, k3, -, -, k6⟩ := C.holds.cwd
  rw [hm] at k1
  cases k1
  let u1 : Ush := processStart { v.emit (.exec (.builtin .ls) [n]) with procNode := v.current } f
  refine C.goOn i (v' := u1) rfl rfl ?_
  have S1 : Serving E T.world f [n] u1 := C.start ⟨rfl, rfl, rfl, rfl⟩ rfl rfl rfl rfl
  exact ls_run cfg C.inSize hf i S1 rfl k6 k3 hfit

theorem lsCallback_eq {cb : Cb} {l0 : List Event} {n a : Str} (C : Called E T w v f cb [n, a] l0) (hl : T.world.Room E a) {u : Ush}
    (hu : u = v.emit (.exec cb [n, a])) : lsCallback E u f (offs 0 [n, a]) = (match T.world.dir? a with
      | none => printStatus E { u with procNode := none } .nodeNotFound
      | some m => .ok (processStart { u with procNode := some m.id } f)) := by
  have H : Holds E T.world u := hu ▸ C.holds
  have A : Args u [n, a] := hu ▸ C.argsE
  have hn := C.args.nul a (by simp)
  obtain ⟨o, g1, g2, -⟩ := A.at (i := 1) (w := a) rfl
  have h2 : (offs 0 [n, a]).length = 2 := rfl
  unfold lsCallback
  rw [h2]
  simp only
  rw [g1]
  simp only [M.ok_bind]
  rw [g2]
  simp only [M.ok_bind]
  rw [(H.abs hn hl).1]
  simp only [M.ok_bind]
  rw [H.dir hn hl]
  simp only [M.ok_bind]
  cases T.world.dir? a <;> rfl

theorem serves_ls_missing (cfg : Config E) (L : List Event) (n a : Str) (hl : T.world.Room E a) (h : T.world.dir? a = none) :
    Serves E T f (.builtin .ls) [n, a] L (outs (statusString E.tr .nodeNotFound ++ crlf ++ T.world.prompt E)) T.world := by
  intro w v l0 i C _
  have := lsCallback_eq C hl rfl
  rw [h] at this
  exact C.status cfg _ i (v' := { v.emit (.exec (.builtin .ls) [n, a]) with procNode := none }) ⟨rfl, rfl, rfl, rfl⟩ ⟨C.sized.inLen, C.sized.outLen⟩ rfl this

theorem serves_ls_dir (cfg : Config E) (L : List Event) (n a : Str) (hl : T.world.Room E a) (hf : f.process = some (.builtin .ls)) {m : Mount}
    (hm : T.world.dir? a = some m) (hfit : ∀ g ∈ m.files, 7 ≤ E.outSize ∧ (rowHead E g).length < E.outSize) :
    Serves E T f (.builtin .ls) [n, a] L (outs (lsText E T.world.tree m ++ T.world.prompt E)) T.world := by
  intro w v l0 i C hL
  have e := lsCallback_eq C hl rfl
  rw [hm] at e
  let u1 : Ush := processStart { v.emit (.exec (.builtin .ls) [n, a]) with procNode := some m.id } f
  refine C.goOn i (v' := u1) rfl e ?_
  have S1 : Serving E T.world f [n, a] u1 := C.start ⟨rfl, rfl, rfl, rfl⟩ rfl rfl rfl rfl
  exact ls_run cfg C.inSize hf i S1 rfl (mem_dirs_of_tree (findText_mem hm)) rfl hfit

end Ush
