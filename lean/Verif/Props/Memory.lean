import Verif.Spec.Memory
import Verif.Props.Deinit
import Verif.Props.Apps
/-!
# C78: memory given to `ush_init`

`ush_init` does not clear the shell object, and `ush_node_mount` does not clear the node object.  The other theorems start with zeroed objects; here is what is needed of them.
-/
namespace Ush.Props
open Spec

theorem init_eq {E : Env} (hc : CfgOk E) (u : Ush) : ∃ v, step E u .init = .ok v ∧ v.root = none ∧ v.log = u.log ∧ (∀ i, (v.nodes i).children = (u.nodes i).children) ∧
    (E.commandsOn = true → v.commands = some 0 ∧ v.nodes = setNode u.nodes 0 { u.nodes 0 with files := builtinTable E, path := none, next := u.commands }) := by
  show ∃ v, ushInit E u = .ok v ∧ _
  unfold ushInit
  have a1 : decide (E.inSize > 0) = true := by simpa using hc.inSize
  have a2 : decide (E.outSize ≥ 4) = true := by simpa using hc.outSize
  rw [a1, a2]
  cases hon : E.commandsOn with
  | false => exact ⟨_, rfl, rfl, rfl, fun _ => rfl, by simp⟩
  | true =>
    have a3 : decide ((builtinTable E).length > 0) = true := by simpa using List.length_pos_iff.mpr (hc.commands hon)
    unfold commandsAdd
    simp only [a3, if_true]
    refine ⟨_, rfl, rfl, rfl, fun i => ?_, fun _ => ⟨rfl, rfl⟩⟩
    simp only [writePointerBin, setNode]
    split
    · next h => rw [h]
    · rfl

section
variable (E : Env) (hc : CfgOk E)
include hc

theorem boot_any (x : Ush) (hx : Unused E x) (os : List FsOp) (hv : (initWorld E).ValidRun E os) :
    ∃ u, run E x (steps os) = .ok u ∧ Booted E (after E os) u ∧ u.log = x.log ++ ((initWorld E).run os).2.map .ret := by
  obtain ⟨u0, e0, H0, l0, b1, b2, p1, p2, p3, p4, p5⟩ := ushInit_free hc hx.commands hx.children
  obtain ⟨u, e, H, l⟩ := fsRun_sim os u0 (initWorld E) H0 hv
  have F := fsApis_frame os e
  refine ⟨u, ?_, ⟨H, ⟨?_, ?_⟩, ?_⟩, by rw [l, l0]⟩
  · have : steps os = .init :: (os.map FsOp.api).map Op.api := by simp [steps]
    rw [this, run, step, e0]
    simp only [M.ok_bind]
    rw [run_apis]; exact e
  · rw [F]; show u0.inBuf.length = _; rw [b1]; exact hx.inLen
  · rw [F]; show u0.outBuf.length = _; rw [b2]; exact hx.outLen
  · rw [F]; exact ⟨p1, p2, p3, p4, p5⟩

/-- C38: the shell starts as with zeroed objects. -/
theorem C78_startup (cfg : Config E) (x : Ush) (hx : Unused E x) (os : List FsOp) (hv : (initWorld E).ValidRun E os) (ok : (after E os).Ok E) (inp : List UInt8) :
    ∃ u v, run E x (steps os) = .ok u ∧ Steps E u inp v inp ∧ Waiting E (after E os) v {} ∧
      v.log = x.log ++ (((initWorld E).run os).2.map .ret ++ outs (welcome ++ (after E os).prompt E)) := by
  obtain ⟨u, e, B, l⟩ := boot_any E hc x hx os hv
  obtain ⟨v, r, H⟩ := B.done cfg ok hc.inSize inp
  exact ⟨u, v, e, r.steps, H, by rw [r.log, l, List.append_assoc]; rfl⟩

/-- C23: the histories that respect the rules are safe. -/
theorem C78_safe (L : Nat) (room : Roomy E) (beh : Behaves E L) (x : Ush) (hx : Unused E x) (os : List FsOp) (hv : (initWorld E).ValidRun E os)
    (ok : (after E os).Ok E) (fits : (after E os).Fits E L) :
    ∃ u, run E x (steps os) = .ok u ∧ ∀ ms, Legal E L u ms → ∃ v, run E u (ms.flatMap Move.ops) = .ok v := by
  obtain ⟨u, e, B, -⟩ := boot_any E hc x hx os hv
  refine ⟨u, e, fun ms hl => ?_⟩
  obtain ⟨v, -, -, h, -⟩ := legal_inv room beh ms (B.inv ok fits) hl
  exact ⟨v, h⟩

omit hc in
/-- `ush_deinit` leaves objects that can be used again. -/
theorem C78_deinit (W : World) (u : Ush) (H : WInv E u W) (z : Sized E u) : ∃ v, step E u .deinit = .ok v ∧ Unused E v := by
  obtain ⟨v, e, h1, h2, h3, h4⟩ := C39_deinit E W u H
  have hb : v.inBuf = u.inBuf ∧ v.outBuf = u.outBuf ∧ v.commands = none := by rw [h3]; exact ⟨rfl, rfl, rfl⟩
  refine ⟨v, e, hb.2.2, fun i => ?_, by rw [hb.1]; exact z.inLen, by rw [hb.2.1]; exact z.outLen⟩
  by_cases hi : ∃ m ∈ W.tree, m.id = i
  · obtain ⟨m, hm, rfl⟩ := hi; rw [h1 m hm]
  · by_cases hz : i = 0
    · rw [hz, h4]
    · have hn : ∀ m ∈ W.tree, m.id ≠ i := fun m hm h => hi ⟨m, hm, h⟩
      rw [h2 i hz hn]
      exact H.tree.free i hn

/-- Any number of times `ush_init`, a history that respects the rules of C23, and `ush_deinit`, with the same objects: nothing goes wrong. -/
theorem C78_lives (L : Nat) (room : Roomy E) (beh : Behaves E L) : ∀ (xs : List OneLife) (x : Ush), Unused E x → LegalLives E L x xs →
    ∃ v, run E x (xs.flatMap OneLife.ops) = .ok v ∧ Unused E v := by
  intro xs
  induction xs with
  | nil => intro x hx _; exact ⟨x, rfl, hx⟩
  | cons y ys ih =>
    intro x hx hl
    obtain ⟨h1, h2, h3, h4, h5⟩ := hl
    obtain ⟨u, e, B, -⟩ := boot_any E hc x hx y.hist h1
    obtain ⟨w, W, j, ew, I⟩ := legal_inv room beh y.moves (B.inv h2 h3) (h4 u e)
    obtain ⟨v, ev, hv⟩ := C78_deinit E W w I.rep I.sized
    have er : run E x y.ops = .ok v := by
      unfold OneLife.ops
      rw [run_append, run_append, e]
      show ((run E u _) >>= fun a => run E a [.deinit]) = _
      rw [ew]
      show (step E w .deinit >>= fun a => run E a []) = _
      rw [ev]; rfl
    obtain ⟨z, ez, hz⟩ := ih v hv (h5 v er)
    refine ⟨z, ?_, hz⟩
    rw [List.flatMap_cons, run_append, er]
    exact ez

/-- C73: with any keys and any application the terminal is the one of zeroed objects. -/
theorem C78_life (cfg : Config E) (A : App) (hA : A.Describes E) (hg : ∀ id l, (A.get id l).length ≤ 16 ^ 8) (x : Ush) (hx : Unused E x) (hl : x.log = []) (os : List FsOp)
    (hv : (initWorld E).ValidRun E os) (hW : (after E os).Sound E) (cs : List UInt8) (ha : (Term.start E os).AppAll E A cs) (f : Nat → Slot) (hf : Fair f) :
    ∃ u, run E x (steps os) = .ok u ∧
      ((Term.start E os).NearAppAll E A cs → ∃ v K, Shell E ((Term.start E os).keys E A cs) v ∧ ∀ n ≥ K, driveN E f u cs n = .ok (v, [])) ∧
      (¬ (Term.start E os).NearAppAll E A cs → ∃ K, ∀ n ≥ K, ∀ v r, driveN E f u cs n = .ok (v, r) → v.state ≠ .readChar) := by
  obtain ⟨u, v, e, s, H, l⟩ := C78_startup E hc cfg x hx os hv hW.ok cs
  rw [hl, List.nil_append] at l
  obtain ⟨k1, k2⟩ := civil_keys cfg hA hg cs (Term.start E os) v ⟨H, l⟩ hW ha
  refine ⟨u, e, fun h => ?_, fun h => ?_⟩
  · obtain ⟨w, s', H', -⟩ := k1 h
    obtain ⟨N, hN⟩ := C20_fair E u w cs (s.trans s') ⟨H'.waiting.shows.state, rfl⟩ H'.waiting.current f hf
    exact ⟨w, N, H', hN⟩
  · obtain ⟨w, r, s', h'⟩ := k2 h
    obtain ⟨N, hN⟩ := fair_never f hf (s.trans s') h'
    exact ⟨N, fun n hn v r e => (hN n hn v r e).1⟩

/-- C73 in short: the shell survives the keys exactly if there is room for them. -/
theorem C78_keeps (cfg : Config E) (A : App) (hA : A.Describes E) (hg : ∀ id l, (A.get id l).length ≤ 16 ^ 8) (P : World → Prop) (K : A.Keeps E P) (x : Ush) (hx : Unused E x) (hl : x.log = [])
    (os : List FsOp) (hv : (initWorld E).ValidRun E os) (hP : P (after E os)) (cs : List UInt8) (f : Nat → Slot) (hf : Fair f) :
    ∃ u, run E x (steps os) = .ok u ∧
      ((∀ K, ∃ n ≥ K, ∃ v r, driveN E f u cs n = .ok (v, r) ∧ v.state = .readChar) ↔ (Term.start E os).NearAppAll E A cs) := by
  obtain ⟨u, e, k1, k2⟩ := C78_life E hc cfg A hA hg x hx hl os hv (K.sound _ hP) cs (keeps_all K cs _ hP) f hf
  refine ⟨u, e, fun h => ?_, fun h K => ?_⟩
  · refine Classical.byContradiction fun hn => ?_
    obtain ⟨K, hK⟩ := k2 hn
    obtain ⟨n, hn, v, r, e, hs⟩ := h K
    exact hK n hn v r e hs
  · obtain ⟨v, N, H, hN⟩ := k1 h
    exact ⟨max K N, Nat.le_max_left _ _, v, [], hN _ (Nat.le_max_right _ _), H.waiting.shows.state⟩

/-! ## What is needed -/

/-- The pointer to the children of a node object that is mounted: with any other value than NULL a directory without sub-directories cannot be unmounted. -/
theorem C78_children (x : Ush) (i : NodeId) (fs : List FileDesc) :
    ∃ v, run E x [.init, .api (.mount b!"/" i fs), .api (.unmount b!"/")] = .ok v ∧
      v.log = x.log ++ [.ret .ok, .ret (if (x.nodes i).children = none then .ok else .nodeWithChilds)] := by
  obtain ⟨v, e, hr, hl, hch, -⟩ := init_eq hc x
  have hp : E.pathMax ≠ 0 := by have := hc.pathMax; omega
  have hv : vla E.pathMax = .ok () := by simp [vla, hp]
  have l0 : pathLevelsCount b!"/" = 0 := by decide
  have pu : pathUpper b!"/" = [] := by decide
  rw [run, e]
  simp only [M.ok_bind]
  simp only [run, step, runApi, nodeMount, nodeUnmount, getByPath, getParentByPath, hv, l0, pu, hr, M.ok_bind, if_true]
  by_cases h : (x.nodes i).children = none <;> simp [h, hch, hl, setNode, pure, Except.pure, bind, Except.bind, Ush.emit]

end

theorem spin {nodes : NodeId → Node} {name : Str} {S : NodeId → Prop} (h : ∀ i, S i → ∃ j, (nodes i).next = some j ∧ S j) (hf : ∀ i, S i → ∀ f ∈ (nodes i).files, f.name ≠ name) :
    ∀ (n : Nat) (i : NodeId), S i → findCommand nodes name n (some i) = .error .diverge := by
  intro n
  induction n with
  | zero => intro i _; rfl
  | succ n ih =>
    intro i hi
    obtain ⟨j, e, hj⟩ := h i hi
    unfold findCommand
    have : (nodes i).files.find? (fun f => f.name = name) = none := List.find?_eq_none.mpr fun f hm => by simpa using hf i hi f hm
    rw [this, e]
    exact ih j hj

theorem chain_pre {nodes : NodeId → Node} {k : NodeId} {post : List NodeId} : ∀ (pre : List NodeId) (s : Option NodeId), IsChain nodes s (pre ++ k :: post) →
    (∃ j, s = some j ∧ j ∈ pre ++ [k]) ∧ ∀ i ∈ pre, ∃ j, (nodes i).next = some j ∧ j ∈ pre ++ [k] := by
  intro pre
  induction pre with
  | nil => intro s h; exact ⟨⟨k, h.1, by simp⟩, by simp⟩
  | cons a pre ih =>
    intro s h
    obtain ⟨⟨j, g1, g2⟩, g3⟩ := ih _ h.2
    refine ⟨⟨a, h.1, by simp⟩, fun i hi => ?_⟩
    rcases List.mem_cons.mp hi with rfl | hi
    · exact ⟨j, g1, by simp at g2 ⊢; exact .inr g2⟩
    · obtain ⟨j, e, hj⟩ := g3 i hi
      exact ⟨j, e, by simp at hj ⊢; exact .inr hj⟩

theorem absent {nodes : NodeId → Node} {name : Str} : ∀ (ids : List NodeId) (n : Nat) (s : Option NodeId), IsChain nodes s ids → ids.length ≤ n →
    (∀ i ∈ ids, ∀ f ∈ (nodes i).files, f.name ≠ name) → findCommand nodes name n s = .ok none := by
  intro ids
  induction ids with
  | nil => intro n s h _ _; rw [show s = none from h]; cases n <;> rfl
  | cons i ids ih =>
    intro n s h hl hf
    obtain ⟨m, rfl⟩ : ∃ m, n = m + 1 := ⟨n - 1, by simp at hl; omega⟩
    rw [h.1]
    unfold findCommand
    have : (nodes i).files.find? (fun f => f.name = name) = none := List.find?_eq_none.mpr fun f hm => by simpa using hf i (by simp) f hm
    rw [this]
    exact ih m _ h.2 (by simpa using hl) fun j hj => hf j (by simp [hj])

/-- The pointer to the commands: if the built-in commands are still in the list (`ush_init` a second time, without `ush_deinit`), the list has no end: a name that is not in it is
searched for ever.  Otherwise the built-in commands come in front of the list. -/
theorem C78_twice (E : Env) (hc : CfgOk E) (on : E.commandsOn = true) (u : Ush) (ids : List NodeId) (ch : IsChain u.nodes u.commands ids) (nd : ids.Nodup) (len : 0 ∉ ids → ids.length < E.nodeCount) (name : Str)
    (h1 : ∀ i ∈ ids, ∀ f ∈ (u.nodes i).files, f.name ≠ name) (h2 : ∀ f ∈ builtinTable E, f.name ≠ name) :
    ∃ v, step E u .init = .ok v ∧ findCommand v.nodes name E.nodeCount v.commands = if 0 ∈ ids then .error .diverge else .ok none := by
  obtain ⟨v, e, -, -, -, hcm⟩ := init_eq hc u
  obtain ⟨h3, h4⟩ := hcm on
  refine ⟨v, e, ?_⟩
  rw [h3]
  have z : (v.nodes 0).next = u.commands ∧ (v.nodes 0).files = builtinTable E := by rw [h4]; simp [setNode]
  have o : ∀ i, i ≠ 0 → v.nodes i = u.nodes i := by intro i hi; rw [h4]; simp [setNode, hi]
  split
  · next h0 =>
    obtain ⟨pre, post, rfl⟩ := List.append_of_mem h0
    have hpre : ∀ i ∈ pre, i ≠ 0 := by
      intro i hi e
      subst e
      exact (List.nodup_append.mp nd).2.2 0 hi 0 (by simp) rfl
    obtain ⟨g1, g2⟩ := chain_pre pre _ ch
    refine spin (S := fun i => i ∈ pre ++ [0]) ?_ ?_ _ 0 (by simp)
    · intro i hi
      rcases List.mem_append.mp hi with hi | hi
      · rw [o i (hpre i hi)]; exact g2 i hi
      · rw [List.mem_singleton.mp hi, z.1]; exact g1
    · intro i hi
      rcases List.mem_append.mp hi with hi | hi
      · rw [o i (hpre i hi)]; exact h1 i (by simp [hi])
      · rw [List.mem_singleton.mp hi, z.2]; exact h2
  · next h0 =>
    have hne : ∀ i ∈ ids, i ≠ 0 := fun i hi e => h0 (e ▸ hi)
    have c2 : IsChain v.nodes u.commands ids := ch.congr fun i hi => by rw [o i (hne i hi)]
    obtain ⟨n, hn⟩ : ∃ n, E.nodeCount = n + 1 := ⟨E.nodeCount - 1, by have := len h0; omega⟩
    rw [hn]
    unfold findCommand
    have : (v.nodes 0).files.find? (fun f => f.name = name) = none := List.find?_eq_none.mpr fun f hm => by rw [z.2] at hm; simpa using h2 f hm
    rw [this, z.1]
    exact absent ids n _ c2 (by have := len h0; omega) fun i hi => by rw [o i (hne i hi)]; exact h1 i hi

/-- So it is in every state of the shell in which the built-in commands are there: after another `ush_init` the function `ush_file_find_by_name`, which is called for every line, never returns for an unknown name. -/
theorem C78_again (E : Env) (hc : CfgOk E) (on : E.commandsOn = true) (W : World) (u : Ush) (H : WInv E u W) (h0 : ∃ g ∈ W.groups, g.id = 0) (name : Str)
    (h1 : ∀ g ∈ W.groups, ∀ f ∈ g.files, f.name ≠ name) (h2 : ∀ f ∈ builtinTable E, f.name ≠ name) :
    ∃ v, step E u .init = .ok v ∧ fileFindByName E v name = .error .diverge := by
  have hm : 0 ∈ W.groups.map Group.id := by obtain ⟨g, hg, e⟩ := h0; exact List.mem_map.mpr ⟨g, hg, e⟩
  obtain ⟨v, e, h⟩ := C78_twice E hc on u _ H.cmds.chain H.cmds.nodupId (fun h => absurd hm h) name
    (fun i hi f hf => by
      obtain ⟨g, hg, rfl⟩ := List.mem_map.mp hi
      rw [H.cmds.files g hg] at hf
      exact h1 g hg f hf) h2
  rw [if_pos hm] at h
  have hp : E.pathMax ≠ 0 := by have := hc.pathMax; omega
  exact ⟨v, e, by unfold fileFindByName; rw [h]; simp [vla, hp, bind, Except.bind]⟩

/-! ## Examples -/

/-- Objects with anything in them; the list of commands starts at `c`, the children of the nodes at `k`. -/
def dirty (inBuf outBuf : List UInt8) (c k : Option NodeId) : Ush :=
  { state := .acCandPrint, writeNext := .readChar, promptNext := .writeChar, writeBuf := .inBuf 999, writeSize := 77, writePos := 78, ansiEsc := 2, inPos := 1000, outPos := 1000,
    argsCount := 99, escapeFlag := true, commands := c, root := some 7, current := some 3, procNode := some 5, procChild := some 6, procFile := some { name := b!"ghost", getData := some 9 },
    procIndex := 12, procItem := 13, procData := some b!"ghost", procDataSize := 14, procStage := 15, acPrevState := .processService, acInput := 50, acCand := some b!"x", acName := some b!"y",
    acCount := 9, acPrevCount := 8, acSuffixLen := 7, inBuf := inBuf, outBuf := outBuf,
    nodes := fun i => { files := [{ name := b!"ghost", exec := some (.user i) }], path := some b!"ghost", parent := some (i + 1), children := k, next := some i } }

theorem dirty_unused {E : Env} {inBuf outBuf : List UInt8} (h1 : inBuf.length = E.inSize) (h2 : outBuf.length = E.outSize) : Unused E (dirty inBuf outBuf none none) :=
  ⟨rfl, fun _ => rfl, h1, h2⟩

/-- The device of C73 in such memory. -/
theorem C78_plug (inBuf outBuf : List UInt8) (h1 : inBuf.length = 32) (h2 : outBuf.length = 64) (cs : List UInt8) (f : Nat → Slot) (hf : Fair f) :
    ∃ u, run plugE (dirty inBuf outBuf none none) (steps plugHist) = .ok u ∧
      ((∀ K, ∃ n ≥ K, ∃ v r, driveN plugE f u cs n = .ok (v, r) ∧ v.state = .readChar) ↔ (Term.start plugE plugHist).NearAppAll plugE plugApp cs) :=
  C78_keeps plugE ⟨by decide, by decide, by decide, by decide, by decide⟩ plugConfig plugApp plugDescribes (fun _ _ => Nat.le_of_ble_eq_true rfl) _ plugKeeps _ (dirty_unused h1 h2) rfl plugHist
    (by decide) (by decide) cs f hf

/-- The sample shell in such memory, and three lives of it. -/
example : ∃ u v, run sE2 (dirty (List.replicate 32 1) (List.replicate 64 2) none none) (steps sHist) = .ok u ∧ Steps sE2 u b!"ls" v b!"ls" ∧ Waiting sE2 sW v {} := by
  obtain ⟨u, v, e, s, H, -⟩ := C78_startup sE2 sE2_ok.1 ⟨by decide, ⟨by decide, by decide, by decide, by decide, by decide, statusString_nul _ (by decide)⟩⟩ _
    (dirty_unused (inBuf := List.replicate 32 1) (outBuf := List.replicate 64 2) rfl rfl) sHist sE2_ok.2.2.1 sE2_ok.2.2.2.1 b!"ls"
  exact ⟨u, v, e, s, H⟩

theorem sLives : ∀ (n : Nat) (x : Ush), Unused sE2 x → LegalLives sE2 32 x (List.replicate n ⟨sHist, [.service ⟨none, true⟩]⟩) := by
  intro n
  induction n with
  | zero => intro x _; trivial
  | succ n ih =>
    intro x hx
    obtain ⟨u, e, B, -⟩ := boot_any sE2 sE2_ok.1 x hx sHist sE2_ok.2.2.1
    have hl : Legal sE2 32 u [.service ⟨none, true⟩] := ⟨fun _ => ⟨nofun, fun h => by rcases h with h | h <;> cases h⟩, fun _ _ => trivial⟩
    refine ⟨sE2_ok.2.2.1, sE2_ok.2.2.2.1, sE2_ok.2.2.2.2, fun v hv => ?_, fun v hv => ih v ?_⟩
    · rw [e] at hv; cases hv; exact hl
    · obtain ⟨w, W, j, ew, I⟩ := legal_inv sE2_ok.2.1 (sE2_behaves 32) _ (B.inv sE2_ok.2.2.2.1 sE2_ok.2.2.2.2) hl
      obtain ⟨z, ez, hz⟩ := C78_deinit sE2 W w I.rep I.sized
      unfold OneLife.ops at hv
      rw [run_append, run_append, e] at hv
      have hv : (run sE2 u ([Move.service ⟨none, true⟩].flatMap Move.ops) >>= fun a => run sE2 a [.deinit]) = .ok v := hv
      rw [ew] at hv
      have hv : (step sE2 w .deinit >>= fun a => run sE2 a []) = .ok v := hv
      rw [ez] at hv
      cases hv
      exact hz

example (n : Nat) : ∃ v, run sE2 (dirty (List.replicate 32 1) (List.replicate 64 2) none none) ((List.replicate n (⟨sHist, [.service ⟨none, true⟩]⟩ : OneLife)).flatMap OneLife.ops) = .ok v ∧ Unused sE2 v :=
  C78_lives sE2 sE2_ok.1 32 sE2_ok.2.1 (sE2_behaves 32) _ _ (dirty_unused rfl rfl) (sLives n _ (dirty_unused rfl rfl))

/-- Both values of `C78_children` occur. -/
example : (∃ v, run sE2 (dirty [] [] none none) [.init, .api (.mount b!"/" 4 []), .api (.unmount b!"/")] = .ok v ∧ v.log = [.ret .ok, .ret .ok]) ∧
    ∃ v, run sE2 (dirty [] [] none (some 9)) [.init, .api (.mount b!"/" 4 []), .api (.unmount b!"/")] = .ok v ∧ v.log = [.ret .ok, .ret .nodeWithChilds] :=
  ⟨C78_children sE2 sE2_ok.1 (dirty [] [] none none) 4 [], C78_children sE2 sE2_ok.1 (dirty [] [] none (some 9)) 4 []⟩

/-- Both values of `C78_twice` occur: the sample shell after its history, and after it is zeroed. -/
example : ∃ u v, run sE2 (blank (List.replicate 32 0) (List.replicate 64 0)) (steps sHist) = .ok u ∧ step sE2 u .init = .ok v ∧
    fileFindByName sE2 v b!"zz" = .error .diverge := by
  obtain ⟨u, e, B, -⟩ := boot sE2_ok.1 (List.replicate 32 0) (List.replicate 64 0) rfl rfl sHist sE2_ok.2.2.1
  obtain ⟨v, hv, h⟩ := C78_again sE2 sE2_ok.1 rfl sW u B.rep (by decide) b!"zz" (by decide) (by decide)
  exact ⟨u, v, e, hv, h⟩

example : ∃ v, step sE2 (dirty [] [] none none) .init = .ok v ∧ findCommand v.nodes b!"zz" sE2.nodeCount v.commands = .ok none :=
  C78_twice sE2 sE2_ok.1 rfl (dirty [] [] none none) [] rfl (by decide) (by decide) b!"zz" (by simp) (by decide)

end Ush.Props
