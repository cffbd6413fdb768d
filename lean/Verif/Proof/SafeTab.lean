import Verif.Proof.SafeProc
/-!
# The invariant: TAB completion
-/
namespace Ush
open Spec

variable {E : Env} {L : Nat} {W : World} {u v : Ush} {k : Nat} {x : Str}

theorem WordAt.line {b : List UInt8} {input p e : Nat} (T : WordAt b input p e x) (hz : b.length = E.inSize) : LineAt E b p e := by
  obtain ⟨pre, rest, h1, h2, -⟩ := T.buf
  have hp := T.pos
  refine ⟨?_, ?_, T.esc⟩
  · rw [h1] at hz; simp at hz; omega
  · rw [h1, hp, h2, ← List.append_assoc, ← List.length_append, List.getElem?_append_right (Nat.le_refl _)]
    simp

theorem WordAt.tabbing (T : TabWord u x) (H : Holds E W u) : ∃ pre es, Tabbing E W pre x es u := by
  obtain ⟨pre, rest, h1, h2, h3⟩ := T.buf
  have he := T.esc
  have : ∃ es : EscSt, u.ansiEsc = es.toNat := by
    have : u.ansiEsc = 0 ∨ u.ansiEsc = 1 ∨ u.ansiEsc = 2 := by omega
    rcases this with h | h | h
    · exact ⟨.none, h⟩
    · exact ⟨.esc, h⟩
    · exact ⟨.bracket, h⟩
  obtain ⟨es, hes⟩ := this
  exact ⟨pre, es, { toHolds := H, buf := ⟨rest, h1⟩, input := h2, nul := T.nul, nulPre := h3, pos := by rw [T.pos, h2], esc := hes }⟩

theorem Tabbing.text {pre : Str} {es : EscSt} (T : Tabbing E W pre x es u) : cstrAt u.inBuf u.acInput = .ok x := by
  obtain ⟨rest, hb⟩ := T.buf
  rw [T.input, hb]
  exact cstrAt_append pre x rest T.nul

theorem Tabbing.wordAt {pre : Str} {es : EscSt} (T : Tabbing E W pre x es u) : TabWord u x := by
  obtain ⟨rest, hb⟩ := T.buf
  refine ⟨⟨pre, rest, hb, T.input, T.nulPre⟩, T.nul, by rw [T.pos, T.input], ?_⟩
  rw [T.esc]; cases es <;> decide

theorem tabNames_nul (H : Holds E W u) : ∀ c ∈ W.tabNames, cNul ∉ c := by
  intro c hc
  unfold World.tabNames at hc
  rcases List.mem_append.mp hc with hc | hc
  · exact H.names_nul c (List.mem_append_left _ hc)
  · obtain ⟨m, hm, rfl⟩ := List.mem_map.mp hc
    exact dirName_nul _ (H.rep.tree.good m hm)

theorem lastArgOff_one (w : Str) (hw : cSpace ∉ w) (h0 : w ≠ []) : lastArgOff (cSpace :: w) = 0 := by
  have hno : ∀ i, 0 < i → (cSpace :: w)[i]? ≠ some cSpace := by
    intro i hi h
    obtain ⟨j, rfl⟩ : ∃ j, i = j + 1 := ⟨i - 1, by omega⟩
    rw [List.getElem?_cons_succ] at h
    exact hw (List.mem_of_getElem? h)
  have hl : 0 < w.length := List.length_pos_iff.mpr h0
  unfold lastArgOff
  rw [if_neg (by simp), if_neg (hno _ (by simp; omega)), lastArgLoop_none _ _ (fun i h1 _ => hno i (by omega))]

theorem goes_acPrepare (I : Inv E L W k u) (hs : u.state = .acPrepare) : Goes E L W k (innerStep E u) := by
  obtain ⟨hL, h1, h2, h3, h4⟩ := I.at hs (by decide)
  have hz := I.sized.inLen
  have hpos := hL.pos
  have hb : u.inBuf = u.inBuf.take u.inPos ++ cNul :: u.inBuf.drop (u.inPos + 1) := by
    have hlt : u.inPos < u.inBuf.length := by omega
    have hn : u.inBuf[u.inPos] = cNul := by
      have := hL.nul
      rw [List.getElem?_eq_getElem hlt] at this
      exact Option.some.inj this
    rw [← hn, ← List.drop_eq_getElem_cons hlt, List.take_append_drop]
  have hlen : (u.inBuf.take u.inPos).length = u.inPos := by rw [List.length_take]; omega
  have hcs : cstrAt u.inBuf 0 = .ok (u.inBuf.take u.inPos) := by
    have := cstrAt_zero (u.inBuf.take u.inPos) (u.inBuf.drop (u.inPos + 1)) h1
    rwa [← hb] at this
  have e : innerStep E u = .ok { u with acInput := lastArgOff (u.inBuf.take u.inPos), state := .acCandStart } := by
    unfold innerStep acStatePrepare
    simp only [hs, hcs, M.ok_bind]
    rfl
  rw [e]
  generalize u.inBuf.take u.inPos = line at *
  have key : ∀ pre x : Str, line = pre ++ x → lastArgOff line = pre.length → NamesFit L W pre.length x →
      Goes E L W k (.ok { u with acInput := lastArgOff line, state := .acCandStart }) := by
    intro pre x hx ho hf
    refine Goes.set (k := k) (s := .acCandStart) (j := scanCost W + 2 + finCost E W u.inPos) (I.toBase.keep ⟨rfl, rfl, rfl, rfl⟩ rfl rfl rfl rfl) rfl ?_ (by omega) rfl
    refine ⟨x, ⟨⟨pre, u.inBuf.drop (u.inPos + 1), ?_, ho, ?_⟩, ?_, ?_, hL.esc⟩, ?_, Nat.le_refl _⟩
    · show u.inBuf = _
      rw [← List.append_assoc, ← hx]; exact hb
    · intro h; exact h1 (by rw [hx]; simp [h])
    · intro h; exact h1 (by rw [hx]; simp [h])
    · show u.inPos = lastArgOff line + x.length
      rw [ho, ← hlen, hx]; simp
    · show NamesFit L W (lastArgOff line) x
      rw [ho]; exact hf
  by_cases hsp : ∃ w, line = cSpace :: w ∧ w ≠ [] ∧ cSpace ∉ w
  · obtain ⟨w, hw, w0, w1⟩ := hsp
    exact key [] line rfl (by rw [hw, lastArgOff_one w w1 w0]; rfl) h3
  · obtain ⟨q1, q2⟩ := lineHead_split line
    exact key _ _ q1 (q2 hsp) h2

theorem scanAt_start (H : Holds E W u) (h0 : u.procStage = 0) (h1 : u.procNode = u.commands) (h2 : u.procIndex = 0) (h3 : u.procItem = 0) (h4 : u.acCount = 0) :
    ScanAt W u (scanCost W) := by
  refine ⟨by omega, by omega, .inl ⟨h0, W.groups, List.suffix_refl _, by rw [h1]; exact H.rep.cmds.chain, ?_⟩⟩
  rw [h2, h3, left_zero]
  unfold scanCost
  omega

theorem goes_acCandStart (I : Inv E L W k u) (hs : u.state = .acCandStart) : Goes E L W k (innerStep E u) := by
  obtain ⟨x, h1, h2, h3⟩ := I.at hs (by decide)
  have e : innerStep E u = .ok (acCandidatesStart u) := by
    unfold innerStep; simp only [hs]
  rw [e]
  have B : Base E L W (acCandidatesStart u) := I.toBase.keep ⟨rfl, rfl, rfl, rfl⟩ rfl rfl rfl rfl
  refine Goes.set (s := .acCandCount) (j := scanCost W + 1 + finCost E W u.inPos) B rfl ?_ (by omega) rfl
  exact ⟨x, scanCost W, h1, h2, fun h => absurd h (Nat.lt_irrefl 0), scanAt_start B.toHolds rfl rfl rfl rfl rfl, Nat.le_refl _⟩

/-! ## Scanning -/

/-- One step of a scan. -/
def Scanned (W : World) (x : Str) (u v : Ush) : Prop :=
  (∃ pn pi pt ps ac cd an, v = { u with procNode := pn, procIndex := pi, procItem := pt, procStage := ps, acCount := ac, acCand := cd, acName := an }) ∧
  ((v.acCount = u.acCount ∧ v.acCand = u.acCand) ∨ ∃ c, v.acCand = some c ∧ x <+: c ∧ c ∈ W.tabNames)

theorem Scanned.word (S : Scanned W x u v) (T : TabWord u x) : TabWord v x := by
  obtain ⟨⟨a, b, c, d, e, f, g, rfl⟩, -⟩ := S; exact T

theorem Scanned.base (S : Scanned W x u v) (B : Base E L W u) : Base E L W v := by
  obtain ⟨⟨a, b, c, d, e, f, g, rfl⟩, -⟩ := S; exact B.keep ⟨rfl, rfl, rfl, rfl⟩ rfl rfl rfl rfl

theorem Scanned.state (S : Scanned W x u v) : v.state = u.state := by
  obtain ⟨⟨a, b, c, d, e, f, g, rfl⟩, -⟩ := S; rfl

theorem Scanned.same (S : Scanned W x u v) : v.acInput = u.acInput ∧ v.inPos = u.inPos ∧ v.acPrevCount = u.acPrevCount ∧ v.acSuffixLen = u.acSuffixLen := by
  obtain ⟨⟨a, b, c, d, e, f, g, rfl⟩, -⟩ := S; exact ⟨rfl, rfl, rfl, rfl⟩

theorem Scanned.cand (S : Scanned W x u v) (h : CandOk W u x) : CandOk W v x := by
  intro h0
  rcases S.2 with ⟨h1, h2⟩ | ⟨c, h1, h2, h3⟩
  · rw [h2]; exact h (by omega)
  · exact ⟨c, h1, h2, h3⟩

/-- What a step of a scan does: it goes on, perhaps printing a text, or the scan is over. -/
def Scans (E : Env) (W : World) (x : Str) (u : Ush) (c : Nat) : Prop :=
  (∃ v d, acCandidatesProcess E u = .ok v ∧ Scanned W x u v ∧ ScanAt W v d ∧ d < c) ∨
  (∃ v d t, acCandidatesProcess E u = (if u.state = .acCandPrint then writePointer v (.str t) u.state else .ok v) ∧ Scanned W x u v ∧
    ScanAt W v d ∧ d < c) ∨
  (acCandidatesProcess E u = .ok { u with acPrevState := u.state, state := .acCandFinish } ∧ 0 < c)

theorem prefix_of_not {n x : Str} (h : ¬ startsWith n x = false) : x <+: n := by
  unfold startsWith at h
  simpa using h

/-- A file is looked at. `at'` says that the place is fine for a scan that needs `d` more steps. -/
theorem scan_at_file {n : NodeId} {f : FileDesc} {c : Nat} (T : TabWord u x) (H : Holds E W u) (hn : u.procNode = some n)
    (hst : u.procStage = 0 ∨ u.procStage = 1) (hf : (u.nodes n).files[u.procItem]? = some f) (hmem : f.name ∈ W.tabNames) (hidx : u.procIndex ≤ 2)
    (nexts : ∀ v : Ush, v.acCount ≤ u.acCount + 1 → v.nodes = u.nodes → v.current = u.current → v.procNode = u.procNode → v.procStage = u.procStage →
      (v.procItem = u.procItem + 1 ∧ v.procIndex = 0 ∨ v.procItem = u.procItem ∧ v.procIndex = u.procIndex + 1 ∧ u.procIndex < 2) → ∃ d, ScanAt W v d ∧ d < c) :
    Scans E W x u c := by
  obtain ⟨pre, es, Tb⟩ := T.tabbing H
  have hx := Tb.text
  have e := acProcess_file (E := E) hn hst hx hf
  by_cases hm : startsWith f.name x = false
  · rw [if_pos hm] at e
    obtain ⟨d, h1, h2⟩ := nexts { u with procItem := u.procItem + 1, procIndex := 0 } (Nat.le_succ _) rfl rfl rfl rfl (.inl ⟨rfl, rfl⟩)
    exact .inl ⟨_, d, e, ⟨⟨_, _, _, _, _, _, _, rfl⟩, .inl ⟨rfl, rfl⟩⟩, h1, h2⟩
  · rw [if_neg hm] at e
    have hpre := prefix_of_not hm
    have hcase : u.procIndex = 0 ∨ u.procIndex = 1 ∨ u.procIndex = 2 := by omega
    rcases hcase with hc | hc | hc
    · rw [acFileIndex_0 hst hc (tabNames_nul H _ hmem)] at e
      obtain ⟨d, h1, h2⟩ := nexts { u with procIndex := 1, acCount := u.acCount + 1, acCand := some f.name } (Nat.le_refl _) rfl rfl rfl rfl
        (.inr ⟨rfl, by show 1 = u.procIndex + 1; omega, by omega⟩)
      exact .inr (.inl ⟨_, d, _, e, ⟨⟨_, _, _, _, _, _, _, rfl⟩, .inr ⟨f.name, rfl, hpre, hmem⟩⟩, h1, h2⟩)
    · rw [acFileIndex_1 hc] at e
      obtain ⟨d, h1, h2⟩ := nexts { u with procIndex := 2 } (Nat.le_succ _) rfl rfl rfl rfl (.inr ⟨rfl, by show 2 = u.procIndex + 1; omega, by omega⟩)
      exact .inr (.inl ⟨_, d, _, e, ⟨⟨_, _, _, _, _, _, _, rfl⟩, .inl ⟨rfl, rfl⟩⟩, h1, h2⟩)
    · rw [acFileIndex_2 hst hc] at e
      obtain ⟨d, h1, h2⟩ := nexts { u with procItem := u.procItem + 1, procIndex := 0 } (Nat.le_succ _) rfl rfl rfl rfl (.inl ⟨rfl, rfl⟩)
      exact .inl ⟨_, d, e, ⟨⟨_, _, _, _, _, _, _, rfl⟩, .inl ⟨rfl, rfl⟩⟩, h1, h2⟩

theorem left_le (gs : Groups) (i : Nat) : left gs 0 i ≤ cost gs := by
  cases gs with
  | nil => exact Nat.le_refl _
  | cons g gs =>
    rw [left_cons, show cost (g :: gs) = 3 * g.files.length + 1 + cost gs from rfl]; omega

/-- The directory whose sub-directories are looked at. -/
theorem acDir_any (T : TabWord u x) (B : Base E L W u) (hp : u.inPos < L) :
    ∃ n ∈ W.dirs, ∃ abs, getAbsolutePath E u x = .ok abs ∧
      ((x = [] ∧ u.current = some n.id) ∨ (x ≠ [] ∧ getParentByPath E u abs = .ok (some n.id)) ∨
        (x ≠ [] ∧ getParentByPath E u abs = .ok none ∧ u.current = some n.id)) := by
  have H := B.toHolds
  obtain ⟨m, h0, h1, h2, h3, h4, h5⟩ := H.cwd
  have hl : x.length < L := by
    have := T.pos
    omega
  obtain ⟨e1, e2, e3⟩ := H.abs T.nul (B.room hl)
  by_cases hx : x = []
  · exact ⟨m, h5, _, e1, Or.inl ⟨hx, h2⟩⟩
  by_cases hu : pathUpper (resolveText W.path x) = []
  · refine ⟨m, h5, _, e1, Or.inr (Or.inr ⟨hx, ?_, h2⟩)⟩
    unfold getParentByPath
    rw [if_pos hu]
  have hg : getParentByPath E u (resolveText W.path x) = .ok ((W.tree.findText (pathUpper (resolveText W.path x))).map Mount.id) := by
    unfold getParentByPath
    rw [if_neg hu]
    exact getByPath_eq H.rep.tree _ (by have := pathUpper_length (resolveText W.path x); omega) hu
  cases hf : W.tree.findText (pathUpper (resolveText W.path x)) with
  | none =>
    rw [hf] at hg
    exact ⟨m, h5, _, e1, Or.inr (Or.inr ⟨hx, hg, h2⟩)⟩
  | some n =>
    rw [hf] at hg
    exact ⟨n, mem_dirs_of_tree (List.mem_of_find?_eq_some hf), _, e1, Or.inr (Or.inl ⟨hx, hg⟩)⟩

theorem scan_step {c : Nat} (T : TabWord u x) (B : Base E L W u) (hp : u.inPos < L) (S : ScanAt W u c) : Scans E W x u c := by
  have H := B.toHolds
  have hpm := H.rep.tree.pathMax
  obtain ⟨m, m0, m1, m2, m3, m4, m5⟩ := H.cwd
  have hcf : cwdFiles W = m.files := by unfold cwdFiles; rw [m0]; rfl
  obtain ⟨hidx, hcnt, S⟩ := S
  rcases S with ⟨s0, gs, g1, g2, g3⟩ | ⟨s0, s1, s2⟩ | ⟨s0, s1, s2⟩ | ⟨s0, ms, s1, s2, s3⟩
  · cases gs with
    | nil =>
      have hn : u.procNode = none := g2
      refine .inl ⟨_, 3 * (cwdFiles W).length + 3 * W.tree.length + 3, acProcess_stage1 hpm hn s0, ⟨⟨_, _, _, _, _, _, _, rfl⟩, .inl ⟨rfl, rfl⟩⟩, ?_, ?_⟩
      · exact ⟨Nat.zero_le _, by show u.acCount + _ ≤ _; unfold left at g3; omega, .inr (.inr (.inl ⟨rfl, rfl, Nat.le_refl _⟩))⟩
      · unfold left at g3; omega
    | cons g gs =>
      obtain ⟨hn, g2⟩ : u.procNode = some g.id ∧ IsChain u.nodes (u.nodes g.id).next (gs.map Group.id) := g2
      have hg : g ∈ W.groups := g1.mem (by simp)
      have hfs := B.rep.cmds.files g hg
      rw [left_cons] at g3
      by_cases hi : g.files.length ≤ u.procItem
      · refine .inl ⟨_, left gs 0 u.procIndex + 3 * (cwdFiles W).length + 3 * W.tree.length + 4, acProcess_next0 hn s0 (by rw [hfs]; exact hi), ⟨⟨_, _, _, _, _, _, _, rfl⟩, .inl ⟨rfl, rfl⟩⟩, ?_, ?_⟩
        · exact ⟨hidx, by show u.acCount + _ ≤ _; have := left_le gs u.procIndex; omega, .inl ⟨s0, gs, (List.suffix_cons g gs).trans g1, g2, Nat.le_refl _⟩⟩
        · have := left_le gs u.procIndex; omega
      · have hi' : u.procItem < g.files.length := by omega
        obtain ⟨f, hf⟩ : ∃ f, g.files[u.procItem]? = some f := ⟨_, List.getElem?_eq_getElem hi'⟩
        refine scan_at_file T H hn (.inl s0) (by rw [hfs]; exact hf) ?_ hidx ?_
        · unfold World.tabNames
          exact List.mem_append_left _ (List.mem_append_left _ (List.mem_map.mpr ⟨f, List.mem_flatMap.mpr ⟨g, hg, List.mem_of_getElem? hf⟩, rfl⟩))
        · intro v v0 v1 v2 v3 v4 v5
          have hlt : left (g :: gs) v.procItem v.procIndex + 3 * (cwdFiles W).length + 3 * W.tree.length + 4 < c := by
            rw [left_cons]
            rcases v5 with ⟨a, b⟩ | ⟨a, b, d⟩ <;> rw [a, b] <;> omega
          refine ⟨_, ⟨?_, by omega, .inl ⟨v4.trans s0, g :: gs, g1, ?_, Nat.le_refl _⟩⟩, hlt⟩
          · omega
          · rw [v1, v3]; exact ⟨hn, g2⟩
  · obtain ⟨n, n1, abs, n2, n3⟩ := acDir_any T B hp
    obtain ⟨pre, es, Tb⟩ := T.tabbing H
    refine .inl ⟨_, 3 * W.tree.length + 1, acProcess_stage2 hpm s1 s0 Tb.text n2 n3, ⟨⟨_, _, _, _, _, _, _, rfl⟩, .inl ⟨rfl, rfl⟩⟩, ?_, by omega⟩
    refine ⟨Nat.zero_le _, by show u.acCount + _ ≤ _; omega, .inr (.inr (.inr ⟨rfl, W.tree.under n, fun _ h => (under_mem h).1, H.rep.under n1, ?_⟩))⟩
    have := under_len W.tree n
    show 3 * (W.tree.under n).length - 0 + 1 ≤ _
    omega
  · have hn : u.procNode = some m.id := s1.trans m2
    have hfs : (u.nodes m.id).files = m.files := (B.rep.dir m5).files
    rw [hcf] at s2
    by_cases hi : m.files.length ≤ u.procItem
    · refine .inl ⟨_, 3 * W.tree.length + 2, acProcess_next1 hn s0 (by rw [hfs]; exact hi), ⟨⟨_, _, _, _, _, _, _, rfl⟩, .inl ⟨rfl, rfl⟩⟩, ?_, by omega⟩
      exact ⟨hidx, by show u.acCount + _ ≤ _; omega, .inr (.inl ⟨s0, rfl, Nat.le_refl _⟩)⟩
    · have hi' : u.procItem < m.files.length := by omega
      obtain ⟨f, hf⟩ : ∃ f, m.files[u.procItem]? = some f := ⟨_, List.getElem?_eq_getElem hi'⟩
      refine scan_at_file T H hn (.inr s0) (by rw [hfs]; exact hf) ?_ hidx ?_
      · unfold World.tabNames
        refine List.mem_append_left _ (List.mem_append_right _ (List.mem_map.mpr ⟨f, ?_, rfl⟩))
        show f ∈ cwdFiles W
        rw [hcf]; exact List.mem_of_getElem? hf
      · intro v v0 v1 v2 v3 v4 v5
        have hlt : 3 * ((cwdFiles W).length - v.procItem) - v.procIndex + 3 * W.tree.length + 3 < c := by
          rw [hcf]
          rcases v5 with ⟨a, b⟩ | ⟨a, b, d⟩ <;> rw [a, b] <;> omega
        exact ⟨_, ⟨by omega, by omega, .inr (.inr (.inl ⟨v4.trans s0, by rw [v3, v2]; exact s1, Nat.le_refl _⟩))⟩, hlt⟩
  · cases ms with
    | nil =>
      have hn : u.procNode = none := s2
      exact .inr (.inr ⟨acProcess_finish hpm hn s0, by omega⟩)
    | cons a ms =>
      obtain ⟨hn, s2⟩ : u.procNode = some a.id ∧ IsChain u.nodes (u.nodes a.id).next (ms.map Mount.id) := s2
      have ha : a ∈ W.tree := s1 a (by simp)
      have hms : ∀ b ∈ ms, b ∈ W.tree := fun b hb => s1 b (by simp [hb])
      have hp := H.rep.tree.path a ha
      have hdn := pathLast_dirName a.path (H.rep.tree.good a ha)
      obtain ⟨pre, es, Tb⟩ := T.tabbing H
      have e := acProcess_dir (E := E) hn s0 Tb.text hp
      rw [hdn] at e
      have hmem : dirName a.path ∈ W.tabNames := List.mem_append_right _ (List.mem_map.mpr ⟨a, ha, rfl⟩)
      simp only [List.length_cons] at s3
      have go : ∀ v : Ush, v.acCount = u.acCount → v.nodes = u.nodes → v.procNode = (u.nodes a.id).next → v.procStage = u.procStage → v.procIndex = 0 → ScanAt W v (3 * ms.length + 1) := by
        intro v v0 v1 v2 v3 v4
        exact ⟨by omega, by omega, .inr (.inr (.inr ⟨v3.trans s0, ms, hms, by rw [v1, v2]; exact s2, by omega⟩))⟩
      have stay : ∀ v : Ush, v.acCount ≤ u.acCount + 1 → v.procIndex = u.procIndex + 1 → v.nodes = u.nodes → v.procNode = u.procNode → v.procStage = u.procStage → v.procIndex ≤ 2 → ScanAt W v ((3 * (ms.length + 1) - v.procIndex) + 1) := by
        intro v v0 v5 v1 v2 v3 v4
        exact ⟨v4, by omega, .inr (.inr (.inr ⟨v3.trans s0, a :: ms, s1, by rw [v1, v2]; exact ⟨hn, s2⟩, by simp⟩))⟩
      by_cases hm : startsWith (dirName a.path) x = false
      · rw [if_pos hm] at e
        exact .inl ⟨_, _, e, ⟨⟨_, _, _, _, _, _, _, rfl⟩, .inl ⟨rfl, rfl⟩⟩, go _ rfl rfl rfl rfl rfl, by omega⟩
      · rw [if_neg hm] at e
        have hpre := prefix_of_not hm
        have hcase : u.procIndex = 0 ∨ u.procIndex = 1 ∨ u.procIndex = 2 := by omega
        rcases hcase with hc | hc | hc
        · rw [acFileIndex_dir0 (u := { u with acName := some (dirName a.path) }) s0 hc rfl (tabNames_nul H _ hmem)] at e
          exact .inr (.inl ⟨_, _, _, e, ⟨⟨_, _, _, _, _, _, _, rfl⟩, .inr ⟨dirName a.path, rfl, hpre, hmem⟩⟩, stay _ (Nat.le_refl _) (by show 1 = u.procIndex + 1; omega) rfl rfl rfl (by show 1 ≤ 2; omega), by
            show 3 * (ms.length + 1) - 1 + 1 < c; omega⟩)
        · rw [acFileIndex_1 (u := { u with acName := some (dirName a.path) }) hc] at e
          exact .inr (.inl ⟨_, _, _, e, ⟨⟨_, _, _, _, _, _, _, rfl⟩, .inl ⟨rfl, rfl⟩⟩, stay _ (Nat.le_succ _) (by show 2 = u.procIndex + 1; omega) rfl rfl rfl (by show 2 ≤ 2; omega), by
            show 3 * (ms.length + 1) - 2 + 1 < c; omega⟩)
        · rw [acFileIndex_dir2 (u := { u with acName := some (dirName a.path) }) s0 hc] at e
          exact .inl ⟨_, _, e, ⟨⟨_, _, _, _, _, _, _, rfl⟩, .inl ⟨rfl, rfl⟩⟩, go _ rfl rfl rfl rfl rfl, by omega⟩

theorem NamesFit.pos (N : NamesFit L W u.acInput x) (T : TabWord u x) : u.inPos < L := by
  have := N.1
  have := T.pos
  omega

theorem goes_scan (I : Inv E L W k u) (hs : isScan u.state = true) : Goes E L W k (innerStep E u) := by
  rw [isScan.inner hs]
  have B := I.toBase
  have hz := B.sized.inLen
  have nw := isScan.write hs
  have hlive := I.at rfl nw
  have hB2 : Base E L W { u with acPrevState := u.state, state := .acCandFinish } := B.keep ⟨rfl, rfl, rfl, rfl⟩ rfl rfl rfl rfl
  have hst : u.state = .acCandCount ∨ u.state = .acCandOptimise ∨ u.state = .acCandPrint := by
    generalize u.state = s at hs
    cases s <;> first | (cases hs; done) | simp
  rcases hst with hst | hst | hst <;> rw [hst] at hlive
  · obtain ⟨x, c, T, N, C, S, hk⟩ := hlive
    rcases scan_step T B (N.pos T) S with ⟨v, d, e, V, S', hd⟩ | ⟨v, d, t, e, V, S', hd⟩ | ⟨e, hc⟩
    · rw [e]
      obtain ⟨a1, a2, a3, a4⟩ := V.same
      refine Goes.set (s := .acCandCount) (j := d + 1 + finCost E W u.inPos) (V.base B) (V.state.trans hst) ?_ (by omega) rfl
      exact ⟨x, d, V.word T, by rw [a1]; exact N, V.cand C, S', by rw [a2]⟩
    · rw [e, if_neg (by rw [hst]; decide)]
      obtain ⟨a1, a2, a3, a4⟩ := V.same
      refine Goes.set (s := .acCandCount) (j := d + 1 + finCost E W u.inPos) (V.base B) (V.state.trans hst) ?_ (by omega) rfl
      exact ⟨x, d, V.word T, by rw [a1]; exact N, V.cand C, S', by rw [a2]⟩
    · rw [e]
      refine Goes.set (s := .acCandFinish) (j := finCost E W u.inPos) hB2 rfl ?_ (by omega) rfl
      exact .inr (.inl ⟨hst, ⟨x, T, N, C⟩, Nat.le_refl _⟩)
  · obtain ⟨x, c, T, N, C, S, p1, p2, p3, hk⟩ := hlive
    rcases scan_step T B (N.pos T) S with ⟨v, d, e, V, S', hd⟩ | ⟨v, d, t, e, V, S', hd⟩ | ⟨e, hc⟩
    · rw [e]
      obtain ⟨a1, a2, a3, a4⟩ := V.same
      refine Goes.set (s := .acCandOptimise) (j := d + 1 + finCost E W u.inPos) (V.base B) (V.state.trans hst) ?_ (by omega) rfl
      exact ⟨x, d, V.word T, by rw [a1]; exact N, V.cand C, S', by rw [a3]; exact p1, by rw [a4]; exact p2, by rw [a4]; exact p3, by rw [a2]⟩
    · rw [e, if_neg (by rw [hst]; decide)]
      obtain ⟨a1, a2, a3, a4⟩ := V.same
      refine Goes.set (s := .acCandOptimise) (j := d + 1 + finCost E W u.inPos) (V.base B) (V.state.trans hst) ?_ (by omega) rfl
      exact ⟨x, d, V.word T, by rw [a1]; exact N, V.cand C, S', by rw [a3]; exact p1, by rw [a4]; exact p2, by rw [a4]; exact p3, by rw [a2]⟩
    · rw [e]
      refine Goes.set (s := .acCandFinish) (j := finCost E W u.inPos) hB2 rfl ?_ (by omega) rfl
      exact .inr (.inr ⟨hst, ⟨x, T, N, C, p3⟩, p1, p2, Nat.le_refl _⟩)
  · obtain ⟨x, c, T, P, S, hk⟩ := hlive
    rcases scan_step T B P S with ⟨v, d, e, V, S', hd⟩ | ⟨v, d, t, e, V, S', hd⟩ | ⟨e, hc⟩
    · rw [e]
      refine Goes.set (s := .acCandPrint) (j := d + 9) (V.base B) (V.state.trans hst) ?_ (by omega) rfl
      exact ⟨x, d, V.word T, by rw [V.same.2.1]; exact P, S', Nat.le_refl _⟩
    · rw [e, if_pos hst, hst]
      refine Goes.sayStr (k := k) (u := v) (nx := .acCandPrint) (j := d + 9) (V.base B).toHolds B.fits ?_ (by omega) rfl
      exact ⟨x, d, V.word T, by rw [V.same.2.1]; exact P, S', Nat.le_refl _⟩
    · rw [e]
      refine Goes.set (s := .acCandFinish) (j := 8) hB2 rfl ?_ (by omega) rfl
      exact .inl ⟨hst, T.line hz, Nat.le_refl _⟩

/-! ## After a scan -/

theorem finCost_step (h : u.inPos < E.inSize) : finCost E W u.inPos = finCost E W (u.inPos + 1) + (scanCost W + 2) := by
  unfold finCost
  obtain ⟨d, hd⟩ : ∃ d, E.inSize - u.inPos = d + 1 := ⟨E.inSize - u.inPos - 1, by omega⟩
  rw [show E.inSize - (u.inPos + 1) = d by omega, hd, Nat.succ_mul]
  omega

theorem finCost_ge (pos : Nat) : scanCost W + 10 ≤ finCost E W pos := by unfold finCost; omega

theorem goes_continue (B : Base E L W u) (T : TabWord u x) (N : NamesFit L W u.acInput x) (C : CandOk W u x) (h0 : 0 < u.acCount)
    (h1 : u.acSuffixLen ≤ x.length) (hk : finCost E W u.inPos ≤ k) : Goes E L W k (acOptimizeContinue E u) := by
  have hz := B.sized.inLen
  have hpos := (T.line hz).pos
  obtain ⟨pre, es, Tb⟩ := T.tabbing B.toHolds
  obtain ⟨c, c1, c2, c3⟩ := C h0
  have hst := finCost_step (E := E) (W := W) hpos
  have hge := finCost_ge (E := E) (W := W) (u.inPos + 1)
  by_cases hl : c.length ≤ x.length
  · rw [acOptimize_end Tb c1 hl]
    refine Goes.set (s := .acRecallSuffix) (j := scanCost W + 10) (B.keep ⟨rfl, rfl, rfl, rfl⟩ rfl rfl rfl rfl) rfl ?_ (by omega) rfl
    exact ⟨x, T, N.pos T, h1, Nat.le_refl _⟩
  · have hl' : x.length < c.length := by omega
    have hfit := Nat.lt_of_lt_of_le (N.2 c c3 c2) B.fits.line
    rw [Tb.input] at hfit
    obtain ⟨rest, e, hlen⟩ := acOptimize_step Tb c1 hl' (by omega)
    rw [e]
    have hB : Base E L W (optNext u (pre ++ ((x ++ [c[x.length]]) ++ cNul :: rest))) := B.keep ⟨rfl, rfl, rfl, rfl⟩ (hlen.trans hz.symm) rfl rfl rfl
    have hpre : x ++ [c[x.length]] <+: c := by
      obtain ⟨y, rfl⟩ := c2
      cases y with
      | nil => simp at hl'
      | cons a y => exact ⟨y, by simp⟩
    have hcn := tabNames_nul B.toHolds c c3
    refine Goes.set (s := .acCandOptimise) (j := scanCost W + 1 + finCost E W (u.inPos + 1)) hB rfl ?_ (by omega) rfl
    refine ⟨x ++ [c[x.length]], scanCost W, ⟨⟨pre, rest, rfl, Tb.input, Tb.nulPre⟩, fun h => hcn (hpre.subset h), ?_, T.esc⟩, ?_, ?_,
      scanAt_start hB.toHolds rfl rfl rfl rfl rfl, h0, ?_, ?_, Nat.le_refl _⟩
    · show u.inPos + 1 = u.acInput + _
      rw [T.pos]; simp; omega
    · refine ⟨?_, fun n hn hx => N.2 n hn ((List.prefix_append _ _).trans hx)⟩
      have := N.2 c c3 c2
      have := hpre.length_le
      show u.acInput + (x ++ [c[x.length]]).length < L
      omega
    · exact fun h => absurd h (Nat.lt_irrefl 0)
    · show 1 ≤ u.acSuffixLen + 1; omega
    · show u.acSuffixLen + 1 ≤ _
      simp; exact h1

theorem goes_acCandFinish (I : Inv E L W k u) (hs : u.state = .acCandFinish) : Goes E L W k (innerStep E u) := by
  rw [innerStep_finish hs]
  have B := I.toBase
  have hz := B.sized.inLen
  rcases I.at hs (by decide) with ⟨h1, h2, h3⟩ | ⟨h1, ⟨x, T, N, C⟩, h3⟩ | ⟨h1, ⟨x, T, N, C, p1⟩, p2, p3, h3⟩
  · have e : acCandidatesFinish E u = .ok { u with state := .acPrompt } := by
      unfold acCandidatesFinish; simp only [h1]
    rw [e]
    exact Goes.set (s := .acPrompt) (j := 7) (B.keep ⟨rfl, rfl, rfl, rfl⟩ rfl rfl rfl rfl) rfl ⟨h2, Nat.le_refl _⟩ (by omega) rfl
  · have hge := finCost_ge (E := E) (W := W) u.inPos
    have hL := T.line (E := E) hz
    match hc : u.acCount with
    | 0 =>
      rw [acFinish_none h1 hc]
      exact Goes.set (s := .readChar) (j := 0) (B.keep ⟨rfl, rfl, rfl, rfl⟩ rfl rfl rfl rfl) rfl hL (by omega) rfl
    | 1 =>
      obtain ⟨c, c1, c2, c3⟩ := C (by omega)
      obtain ⟨pre, es, Tb⟩ := T.tabbing B.toHolds
      have hcn := tabNames_nul B.toHolds c c3
      have hfit := Nat.lt_of_lt_of_le (N.2 c c3 c2) B.fits.line
      obtain ⟨rest, hb⟩ := Tb.buf
      rw [Tb.input] at hfit
      have hlen : strlenAt u.inBuf u.acInput = .ok x.length := by
        rw [Tb.input, hb]; exact strlenAt_append T.nul
      have hsto : ∃ t, storeStr u.inBuf u.acInput c = .ok (pre ++ (c ++ cNul :: t)) := by
        rw [storeStr_ok (by rw [Tb.input]; omega), Tb.input]
        refine ⟨u.inBuf.drop (pre.length + c.length + 1), ?_⟩
        have : u.inBuf.take pre.length = pre := by rw [hb]; exact List.take_left' rfl
        rw [this]
        simp
      obtain ⟨t, hsto⟩ := hsto
      have hsl := storeStr_length hsto
      have hpc : cNul ∉ pre ++ c := by
        intro h
        rcases List.mem_append.mp h with h | h
        · exact Tb.nulPre h
        · exact hcn h
      have hsz : strlenAt (pre ++ (c ++ cNul :: t)) 0 = .ok (pre ++ c).length := by
        rw [← List.append_assoc]; exact strlenAt_zero hpc
      rw [acFinish_one h1 hc c1 hlen hsto hsz]
      have hL' : LineAt E (pre ++ (c ++ cNul :: t)) (pre ++ c).length u.ansiEsc := by
        refine ⟨by simp; omega, ?_, T.esc⟩
        rw [← List.append_assoc, List.getElem?_append_right (Nat.le_refl _)]
        simp
      have hB : Base E L W { u with inBuf := pre ++ (c ++ cNul :: t), inPos := (pre ++ c).length } := B.keep ⟨rfl, rfl, rfl, rfl⟩ hsl rfl rfl rfl
      obtain ⟨s, hs'⟩ := cstrAt_mem (off := u.acInput + x.length) hL'.nul (by
        rw [Tb.input]
        have := c2.length_le
        simp; omega)
      exact Goes.say (k := k) (j := 0) (p := .inBuf (u.acInput + x.length)) hB.toHolds B.fits (by simp) hs' hL' (by omega) rfl
    | n + 2 =>
      rw [acFinish_many h1 hc]
      exact goes_continue (u := { u with acSuffixLen := 0 }) (B.keep ⟨rfl, rfl, rfl, rfl⟩ rfl rfl rfl rfl) T N C (by show 0 < u.acCount; omega) (Nat.zero_le _) h3
  · by_cases hlt : u.acCount < u.acPrevCount
    · have hge := finCost_ge (E := E) (W := W) (u.inPos + 1)
      have hL := T.line (E := E) hz
      have hst := finCost_step (E := E) (W := W) hL.pos
      have hpos := T.pos
      rcases List.eq_nil_or_concat x with rfl | ⟨y, a, rfl⟩
      · simp at p1; omega
      rw [List.concat_eq_append] at *
      simp only [List.length_append, List.length_singleton] at p1 hpos
      obtain ⟨pre, rest, b1, b2, b3⟩ := T.buf
      have hw : wr u.inBuf (u.inPos - 1) cNul = .ok (pre ++ (y ++ cNul :: (cNul :: rest))) := by
        have h1 : u.inPos - 1 = (pre ++ y).length := by simp; omega
        have h2 : u.inBuf = (pre ++ y) ++ a :: (cNul :: rest) := by rw [b1]; simp
        rw [h1, h2, wr_append_length]
        simp
      have e : acCandidatesFinish E u = .ok { u with inBuf := pre ++ (y ++ cNul :: (cNul :: rest)), inPos := u.inPos - 1, acSuffixLen := u.acSuffixLen - 1, state := .acRecallSuffix } := by
        unfold acCandidatesFinish
        simp only [h1, if_pos hlt, if_pos (show u.inPos > 0 by omega), hw, M.ok_bind, if_neg (show ¬ u.acSuffixLen = 0 by omega)]
        rfl
      rw [e]
      refine Goes.set (s := .acRecallSuffix) (j := scanCost W + 10) (B.keep ⟨rfl, rfl, rfl, rfl⟩ ?_ rfl rfl rfl) rfl ?_ (by omega) rfl
      · show (pre ++ (y ++ cNul :: (cNul :: rest))).length = u.inBuf.length
        rw [b1]; simp
      · refine ⟨y, ⟨⟨pre, cNul :: rest, rfl, b2, b3⟩, fun h => T.nul (by simp [h]), ?_, T.esc⟩, ?_, ?_, Nat.le_refl _⟩
        · show u.inPos - 1 = u.acInput + y.length; omega
        · show u.inPos - 1 < L; have := N.pos T; omega
        · show u.acSuffixLen - 1 ≤ y.length; omega
    · have e : acCandidatesFinish E u = acOptimizeContinue E u := by
        unfold acCandidatesFinish
        simp only [h1, if_neg hlt]
      rw [e]
      exact goes_continue B T N C (by omega) p1 h3

theorem goes_acRecallSuffix (I : Inv E L W k u) (hs : u.state = .acRecallSuffix) : Goes E L W k (innerStep E u) := by
  obtain ⟨x, T, P, h1, h2⟩ := I.at hs (by decide)
  have B := I.toBase
  have hz := B.sized.inLen
  have hL := T.line (E := E) hz
  obtain ⟨pre, rest, b1, b2, b3⟩ := T.buf
  have hlen : strlenAt u.inBuf u.acInput = .ok x.length := by
    rw [b2, b1]; exact strlenAt_append T.nul
  have hpos := T.pos
  obtain ⟨s, hs'⟩ := cstrAt_mem (off := u.acInput + x.length - u.acSuffixLen) hL.nul (by omega)
  have hsl : strlenAt u.inBuf (u.acInput + x.length - u.acSuffixLen) = .ok s.length := by
    unfold strlenAt; rw [hs']; rfl
  have e : innerStep E u = (if s.length > 0 then writePointer u (.inBuf (u.acInput + x.length - u.acSuffixLen)) .readChar
      else writePointer (acPrepareCandidates u) (.str crlf) .acCandPrint) := by
    unfold innerStep acRecallSuffix
    simp only [hs, hlen, M.ok_bind, if_neg (show ¬ u.acInput + x.length < u.acSuffixLen by omega), hsl]
  rw [e]
  split
  · exact Goes.say (k := k) (j := 0) (p := .inBuf _) B.toHolds B.fits (by simp) hs' hL (by omega) rfl
  · have hB : Base E L W (acPrepareCandidates u) := B.keep ⟨rfl, rfl, rfl, rfl⟩ rfl rfl rfl rfl
    refine Goes.sayStr (k := k) (nx := .acCandPrint) (j := scanCost W + 9) hB.toHolds B.fits ?_ (by omega) rfl
    exact ⟨x, scanCost W, T, P, scanAt_start hB.toHolds rfl rfl rfl rfl rfl, Nat.le_refl _⟩

end Ush
