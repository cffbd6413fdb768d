import Verif.Spec.Complete
import Verif.Proof.Session
/-!
# TAB completion: scanning the candidates
-/
namespace Ush
open Spec

variable {E : Env} {W : World} {u v w : Ush} {pre x : Str}

theorem Quiet.procStage (h : Quiet u v) : v.procStage = u.procStage := by unfold Quiet at h; rw [h]
theorem Quiet.procNode (h : Quiet u v) : v.procNode = u.procNode := by unfold Quiet at h; rw [h]
theorem Quiet.procIndex (h : Quiet u v) : v.procIndex = u.procIndex := by unfold Quiet at h; rw [h]
theorem Quiet.procItem (h : Quiet u v) : v.procItem = u.procItem := by unfold Quiet at h; rw [h]
theorem Quiet.acCount (h : Quiet u v) : v.acCount = u.acCount := by unfold Quiet at h; rw [h]
theorem Quiet.acCand (h : Quiet u v) : v.acCand = u.acCand := by unfold Quiet at h; rw [h]
theorem Quiet.acName (h : Quiet u v) : v.acName = u.acName := by unfold Quiet at h; rw [h]
theorem Quiet.acInput (h : Quiet u v) : v.acInput = u.acInput := by unfold Quiet at h; rw [h]
theorem Quiet.acPrevCount (h : Quiet u v) : v.acPrevCount = u.acPrevCount := by unfold Quiet at h; rw [h]
theorem Quiet.acSuffixLen (h : Quiet u v) : v.acSuffixLen = u.acSuffixLen := by unfold Quiet at h; rw [h]

/-- Only the scan differs. -/
structure SameTab (u v : Ush) : Prop extends SameFs u v where
  inBuf : v.inBuf = u.inBuf
  outBuf : v.outBuf = u.outBuf
  inPos : v.inPos = u.inPos
  ansiEsc : v.ansiEsc = u.ansiEsc
  acInput : v.acInput = u.acInput
  acPrevCount : v.acPrevCount = u.acPrevCount
  acSuffixLen : v.acSuffixLen = u.acSuffixLen

theorem SameTab.trans (h : SameTab u v) (k : SameTab v w) : SameTab u w :=
  ⟨h.toSameFs.trans k.toSameFs, k.inBuf.trans h.inBuf, k.outBuf.trans h.outBuf, k.inPos.trans h.inPos, k.ansiEsc.trans h.ansiEsc,
   k.acInput.trans h.acInput, k.acPrevCount.trans h.acPrevCount, k.acSuffixLen.trans h.acSuffixLen⟩

theorem SameTab.after (k : SameTab v w) (h : SameTab u v) : SameTab u w := h.trans k

theorem Quiet.tab (h : Quiet u v) : SameTab u v :=
  ⟨h.fs, h.inBuf, h.outBuf, h.inPos, h.ansiEsc, h.acInput, h.acPrevCount, h.acSuffixLen⟩

/-- The three scans. -/
def isScan : St → Bool
  | .acCandCount | .acCandOptimise | .acCandPrint => true
  | _ => false

/-- A scan for the word `x` is going on. -/
structure Scan (E : Env) (W : World) (pre x : Str) (u : Ush) : Prop extends Holds E W u where
  scan : isScan u.state = true
  buf : ∃ rest, u.inBuf = pre ++ (x ++ cNul :: rest)
  input : u.acInput = pre.length
  nul : cNul ∉ x

theorem Scan.same (S : Scan E W pre x u) (h : SameTab u v) (hs : v.state = u.state) : Scan E W pre x v :=
  ⟨S.toHolds.same h.toSameFs ⟨by rw [h.inBuf]; exact S.sized.inLen, by rw [h.outBuf]; exact S.sized.outLen⟩, by rw [hs]; exact S.scan,
   by rw [h.inBuf]; exact S.buf, by rw [h.acInput]; exact S.input, S.nul⟩

theorem Scan.word (S : Scan E W pre x u) : cstrAt u.inBuf u.acInput = .ok x := by
  obtain ⟨rest, hb⟩ := S.buf
  rw [S.input, hb]
  exact cstrAt_append pre x rest S.nul

theorem Scan.length (S : Scan E W pre x u) : pre.length + x.length < E.inSize := by
  obtain ⟨rest, hb⟩ := S.buf
  have := S.sized.inLen
  rw [hb] at this
  simp at this
  omega

theorem isScan.inner (h : isScan u.state = true) : innerStep E u = acCandidatesProcess E u := by
  unfold innerStep
  cases hs : u.state <;> rw [hs] at h <;> first | rfl | cases h

theorem isScan.read (h : isScan u.state = true) : u.state ≠ .readChar := by
  intro hs; rw [hs] at h; cases h

theorem isScan.write (h : isScan u.state = true) : u.state ≠ .writeChar := by
  intro hs; rw [hs] at h; cases h

/-- A silent step of a scan. -/
theorem Scan.step (S : Scan E W pre x u) (i : List UInt8) {u' : Ush} (h : acCandidatesProcess E u = .ok u') (hl : u'.log = u.log) :
    Run E u i u' i [] :=
  Run.inner i S.current (isScan.read S.scan) (isScan.write S.scan) (by rw [isScan.inner S.scan, h]) (by simp [hl])

/-- A step that prints a text, if candidates are to be printed. -/
theorem Scan.say (S : Scan E W pre x u) (i : List UInt8) {u1 : Ush} {s : Str}
    (h : acCandidatesProcess E u = if u.state = .acCandPrint then writePointer u1 (.str s) u.state else .ok u1)
    (hs : cNul ∉ s) (hl : u1.log = u.log) (hc : u1.current = u.current) (ht : u1.state = u.state) :
    ∃ v, Run E u i v i (outs (if u.state = .acCandPrint then s else [])) ∧ Quiet u1 v ∧ v.state = u.state := by
  by_cases hp : u.state = .acCandPrint
  · rw [if_pos hp] at h ⊢
    exact ⟨_, Run.sayStr i S.current (isScan.read S.scan) (isScan.write S.scan) (by rw [isScan.inner S.scan, h]) hs hl hc, Quiet.said _ _ _ _, rfl⟩
  · rw [if_neg hp] at h ⊢
    exact ⟨u1, S.step i h hl, Quiet.refl _, ht⟩

/-- The names that begin with `x`. -/
abbrev hits (x : Str) (ns : List Str) : List Str := ns.filter (fun n => x.isPrefixOf n)

/-- What a scan prints. -/
def scanText (st : St) (hs : List Str) : Str := if st = .acCandPrint then hs.flatMap (· ++ crlf) else []

theorem scanText_append (st : St) (a b : List Str) : scanText st (a ++ b) = scanText st a ++ scanText st b := by
  unfold scanText; split <;> simp

theorem scanText_nil (st : St) : scanText st [] = [] := by unfold scanText; split <;> rfl

/-- A part of a scan that has found the candidates `hs`. -/
structure Tally (u v : Ush) (hs : List Str) : Prop extends SameTab u v where
  state : v.state = u.state
  count : v.acCount = u.acCount + hs.length
  cand : v.acCand = hs.getLast?.or u.acCand

theorem Tally.trans {a b : List Str} (h : Tally u v a) (k : Tally v w b) : Tally u w (a ++ b) :=
  ⟨h.toSameTab.trans k.toSameTab, k.state.trans h.state, by rw [k.count, h.count]; simp; omega, by
    rw [k.cand, h.cand, List.getLast?_append, Option.or_assoc]⟩

/-! ## One file -/

theorem acProcess_next0 {n : NodeId} (hn : u.procNode = some n) (hst : u.procStage = 0) (h : (u.nodes n).files.length ≤ u.procItem) :
    acCandidatesProcess E u = .ok { u with procItem := 0, procNode := (u.nodes n).next } := by
  unfold acCandidatesProcess acCheckForNext
  cases u
  dsimp only at hn hst h
  subst hn hst
  simp only
  rw [if_pos h]
  rfl

theorem acProcess_next1 {n : NodeId} (hn : u.procNode = some n) (hst : u.procStage = 1) (h : (u.nodes n).files.length ≤ u.procItem) :
    acCandidatesProcess E u = .ok { u with procItem := 0, procNode := none } := by
  unfold acCandidatesProcess acCheckForNext
  cases u
  dsimp only at hn hst h
  subst hn hst
  simp only
  rw [if_pos h]
  rfl

theorem acProcess_file {n : NodeId} {f : FileDesc} (hn : u.procNode = some n) (hst : u.procStage = 0 ∨ u.procStage = 1)
    (hx : cstrAt u.inBuf u.acInput = .ok x) (hf : (u.nodes n).files[u.procItem]? = some f) :
    acCandidatesProcess E u = (if startsWith f.name x = false then .ok { u with procItem := u.procItem + 1, procIndex := 0 }
      else acFileIndex u n (some f)) := by
  have hlt : ¬ (u.nodes n).files.length ≤ u.procItem := by
    have := (List.getElem?_eq_some_iff.mp hf).1; omega
  have h1 : acCheckForNext u n = .ok (u, false) := by
    unfold acCheckForNext
    rcases hst with h | h <;> simp only [h] <;> rw [if_neg hlt]
  have h2 : acFilePrepare u n = (if startsWith f.name x = false then .ok ({ u with procItem := u.procItem + 1, procIndex := 0 }, some f, true)
      else .ok (u, some f, false)) := by
    unfold acFilePrepare
    rw [hx]
    simp only [M.ok_bind]
    cases u
    rcases hst with h | h <;> (dsimp only at h hf; subst h; simp only [hf]; split <;> rfl)
  unfold acCandidatesProcess
  split
  · next hz => rw [hz] at hn; cases hn
  · next m hm =>
    cases hm.symm.trans hn
    rw [h1, M.ok_bind]
    simp only [Bool.false_eq_true, if_false]
    rw [h2]
    split <;> rfl

theorem acFileIndex_0 {n : NodeId} {f : FileDesc} (hst : u.procStage = 0 ∨ u.procStage = 1) (hidx : u.procIndex = 0) (hnul : cNul ∉ f.name) :
    acFileIndex u n (some f) = if u.state = .acCandPrint then
        writePointer { u with procIndex := 1, acCount := u.acCount + 1, acCand := some f.name } (.str f.name) u.state
      else .ok { u with procIndex := 1, acCount := u.acCount + 1, acCand := some f.name } := by
  unfold acFileIndex
  cases u
  dsimp only at hst hidx
  subst hidx
  rcases hst with h | h <;> (subst h; simp only [M.ok_bind]; split)
  · rw [writePointer_str _ _ _ hnul, writePointer_str _ _ _ hnul]; rfl
  · rfl
  · rw [writePointer_str _ _ _ hnul, writePointer_str _ _ _ hnul]; rfl
  · rfl

theorem acFileIndex_1 {n : NodeId} {f : Option FileDesc} (hidx : u.procIndex = 1) :
    acFileIndex u n f = if u.state = .acCandPrint then writePointer { u with procIndex := 2 } (.str crlf) u.state
      else .ok { u with procIndex := 2 } := by
  unfold acFileIndex
  cases u
  dsimp only at hidx
  subst hidx
  simp only
  split
  · rw [writePointer_str _ _ _ (by decide), writePointer_str _ _ _ (by decide)]; rfl
  · rfl

theorem acFileIndex_2 {n : NodeId} {f : Option FileDesc} (hst : u.procStage = 0 ∨ u.procStage = 1) (hidx : u.procIndex = 2) :
    acFileIndex u n f = .ok { u with procItem := u.procItem + 1, procIndex := 0 } := by
  unfold acFileIndex
  cases u
  dsimp only at hst hidx
  subst hidx
  rcases hst with h | h <;> (subst h; rfl)

theorem scan_file (S : Scan E W pre x u) (i : List UInt8) {n : NodeId} {f : FileDesc} (hn : u.procNode = some n)
    (hst : u.procStage = 0 ∨ u.procStage = 1) (hidx : u.procIndex = 0) (hf : (u.nodes n).files[u.procItem]? = some f) (hnul : cNul ∉ f.name) :
    ∃ v, Run E u i v i (outs (scanText u.state (hits x [f.name]))) ∧ Tally u v (hits x [f.name]) ∧ v.procStage = u.procStage ∧
      v.procNode = some n ∧ v.procIndex = 0 ∧ v.procItem = u.procItem + 1 := by
  have e := acProcess_file (E := E) hn hst S.word hf
  by_cases hm : startsWith f.name x = true
  · have hh : hits x [f.name] = [f.name] := by
      simp only [hits, List.filter_cons, List.filter_nil]
      rw [if_pos (show List.isPrefixOf x _ = true from hm)]
    rw [if_neg (by rw [hm]; simp), acFileIndex_0 hst hidx hnul] at e
    obtain ⟨v1, r1, q1, s1⟩ := S.say i e hnul rfl rfl rfl
    have t1 : SameTab u v1 := q1.tab.after ⟨⟨rfl, rfl, rfl, rfl⟩, rfl, rfl, rfl, rfl, rfl, rfl, rfl⟩
    have S1 := S.same t1 s1
    have hf1 : (v1.nodes n).files[v1.procItem]? = some f := by rw [q1.nodes, q1.procItem]; exact hf
    have e1 := acProcess_file (E := E) (q1.procNode.trans hn) (by rw [q1.procStage]; exact hst) S1.word hf1
    rw [if_neg (by rw [hm]; simp), acFileIndex_1 q1.procIndex] at e1
    obtain ⟨v2, r2, q2, s2⟩ := S1.say i e1 (by decide) rfl rfl rfl
    have t2 : SameTab v1 v2 := q2.tab.after ⟨⟨rfl, rfl, rfl, rfl⟩, rfl, rfl, rfl, rfl, rfl, rfl, rfl⟩
    have S2 := S1.same t2 s2
    have p2 : v2.procStage = u.procStage := q2.procStage.trans q1.procStage
    have n2 : v2.procNode = some n := q2.procNode.trans (q1.procNode.trans hn)
    have i2 : v2.procItem = u.procItem := q2.procItem.trans q1.procItem
    have hf2 : (v2.nodes n).files[v2.procItem]? = some f := by rw [t2.nodes, i2, ← q1.procItem]; exact hf1
    have e2 := acProcess_file (E := E) n2 (by rw [p2]; exact hst) S2.word hf2
    rw [if_neg (by rw [hm]; simp), acFileIndex_2 (by rw [p2]; exact hst) q2.procIndex] at e2
    have r3 := S2.step i e2 rfl
    have t3 : SameTab v2 { v2 with procItem := v2.procItem + 1, procIndex := 0 } := { toSameFs := ⟨rfl, rfl, rfl, rfl⟩, inBuf := rfl, outBuf := rfl, inPos := rfl, ansiEsc := rfl, acInput := rfl, acPrevCount := rfl, acSuffixLen := rfl }
    refine ⟨_, ((r1.trans r2).trans r3).cast ?_, ⟨(t1.trans t2).trans t3, s2.trans s1, ?_, ?_⟩, p2, n2, rfl, by rw [i2]⟩
    · rw [hh, s1]
      unfold scanText
      split <;> simp [outs]
    · rw [hh]; exact q2.acCount.trans q1.acCount
    · rw [hh]; exact q2.acCand.trans q1.acCand
  · have hh : hits x [f.name] = [] := by
      simp only [hits, List.filter_cons, List.filter_nil]
      rw [if_neg (show ¬ List.isPrefixOf x _ = true from hm)]
    have hm' : startsWith f.name x = false := by simpa using hm
    rw [if_pos hm'] at e
    refine ⟨_, (S.step i e rfl).cast (by rw [hh, scanText_nil]; rfl), ?_, rfl, hn, rfl, rfl⟩
    rw [hh]
    exact { toSameFs := ⟨rfl, rfl, rfl, rfl⟩, inBuf := rfl, outBuf := rfl, inPos := rfl, ansiEsc := rfl, acInput := rfl, acPrevCount := rfl, acSuffixLen := rfl, state := rfl, count := rfl, cand := rfl }

/-- All files of a node. -/
theorem scan_files (i : List UInt8) {n : NodeId} : ∀ (fs : List FileDesc) {u : Ush}, Scan E W pre x u → u.procNode = some n →
    (u.procStage = 0 ∨ u.procStage = 1) → u.procIndex = 0 → (u.nodes n).files.drop u.procItem = fs → (∀ f ∈ fs, cNul ∉ f.name) →
    ∃ v, Run E u i v i (outs (scanText u.state (hits x (fs.map (·.name))))) ∧ Tally u v (hits x (fs.map (·.name))) ∧
      v.procStage = u.procStage ∧ v.procNode = some n ∧ v.procIndex = 0 ∧ (v.nodes n).files.length ≤ v.procItem := by
  intro fs
  induction fs with
  | nil =>
    intro u S hn hst hidx hd _
    refine ⟨u, (Run.refl E u i).cast (by simp [scanText_nil]), ⟨⟨SameFs.refl u, rfl, rfl, rfl, rfl, rfl, rfl, rfl⟩, rfl, rfl, rfl⟩, rfl, hn, hidx, ?_⟩
    by_contra hc
    have := congrArg List.length hd
    simp at this; omega
  | cons f fs ih =>
    intro u S hn hst hidx hd hnul
    have hget : (u.nodes n).files[u.procItem]? = some f := by
      have := congrArg (·[0]?) hd
      simpa using this
    obtain ⟨v, r, T, h1, h2, h3, h4⟩ := scan_file S i hn hst hidx hget (hnul f (by simp))
    obtain ⟨z, r', T', k1, k2, k3, k4⟩ := ih (S.same T.toSameTab T.state) h2 (by rw [h1]; exact hst) h3
      (by rw [T.nodes, h4, ← List.drop_drop, hd]; rfl) (fun g hg => hnul g (by simp [hg]))
    have hh : hits x (List.map (·.name) (f :: fs)) = hits x [f.name] ++ hits x (fs.map (·.name)) := by
      rw [List.map_cons, ← List.singleton_append, hits, List.filter_append]
    refine ⟨z, (r.trans r').cast ?_, ?_, k1.trans h1, k2, k3, k4⟩
    · rw [hh, scanText_append, T.state]; simp [outs]
    · rw [hh]; exact T.trans T'

/-- All command groups. -/
theorem scan_groups (i : List UInt8) : ∀ (cs : Groups) {u : Ush}, Scan E W pre x u → IsChain u.nodes u.procNode (cs.map Group.id) →
    (∀ c ∈ cs, (u.nodes c.id).files = c.files) → u.procStage = 0 → u.procIndex = 0 → u.procItem = 0 →
    (∀ c ∈ cs, ∀ f ∈ c.files, cNul ∉ f.name) →
    ∃ v, Run E u i v i (outs (scanText u.state (hits x (cs.files.map (·.name))))) ∧ Tally u v (hits x (cs.files.map (·.name))) ∧
      v.procStage = 0 ∧ v.procNode = none := by
  intro cs
  induction cs with
  | nil =>
    intro u S hc _ hst hidx hit _
    exact ⟨u, (Run.refl E u i).cast (by simp [Groups.files, scanText_nil]), ⟨⟨SameFs.refl u, rfl, rfl, rfl, rfl, rfl, rfl, rfl⟩, rfl, rfl, rfl⟩, hst, hc⟩
  | cons c cs ih =>
    intro u S hc hfl hst hidx hit hnul
    obtain ⟨v, r, T, h1, h2, h3, h4⟩ := scan_files i c.files S hc.1 (Or.inl hst) hidx (by rw [hit, hfl c (by simp)]; rfl) (hnul c (by simp))
    have S1 := S.same T.toSameTab T.state
    have e := acProcess_next0 (E := E) h2 (h1.trans hst) h4
    have r2 := S1.step i e rfl
    have T2 : Tally v { v with procItem := 0, procNode := (v.nodes c.id).next } [] := { toSameFs := ⟨rfl, rfl, rfl, rfl⟩, inBuf := rfl, outBuf := rfl, inPos := rfl, ansiEsc := rfl, acInput := rfl, acPrevCount := rfl, acSuffixLen := rfl, state := rfl, count := rfl, cand := rfl }
    obtain ⟨z, r', T', k1, k2⟩ := ih (u := { v with procItem := 0, procNode := (v.nodes c.id).next }) (S1.same T2.toSameTab rfl)
      (by show IsChain v.nodes (v.nodes c.id).next _; rw [T.nodes]; exact hc.2)
      (fun c' hc' => by show (v.nodes c'.id).files = _; rw [T.nodes]; exact hfl c' (by simp [hc'])) (h1.trans hst) h3 rfl (fun c' hc' => hnul c' (by simp [hc']))
    have hh : hits x (List.map (·.name) (Groups.files (c :: cs))) = hits x (c.files.map (·.name)) ++ ([] ++ hits x ((Groups.files cs).map (·.name))) := by
      simp only [Groups.files, List.flatMap_cons, List.map_append, hits, List.filter_append, List.nil_append]
    have hst' : ({ v with procItem := 0, procNode := (v.nodes c.id).next } : Ush).state = u.state := T.state
    refine ⟨z, (r.trans (r2.trans r')).cast ?_, ?_, k1, k2⟩
    · rw [hh, scanText_append, hst']; simp [outs]
    · rw [hh]; exact T.trans (T2.trans T')

/-! ## One directory -/

theorem acProcess_dir {n : NodeId} {p : Str} (hn : u.procNode = some n) (hst : u.procStage = 2)
    (hx : cstrAt u.inBuf u.acInput = .ok x) (hp : (u.nodes n).path = some p) :
    acCandidatesProcess E u = (if startsWith (pathLast p) x = false then .ok { u with acName := some (pathLast p), procNode := (u.nodes n).next, procIndex := 0 }
      else acFileIndex { u with acName := some (pathLast p) } n none) := by
  have h1 : acCheckForNext u n = .ok (u, false) := by
    unfold acCheckForNext
    simp only [hst]
  have h2 : acFilePrepare u n = (if startsWith (pathLast p) x = false then .ok ({ u with acName := some (pathLast p), procNode := (u.nodes n).next, procIndex := 0 }, none, true)
      else .ok ({ u with acName := some (pathLast p) }, none, false)) := by
    unfold acFilePrepare
    rw [hx]
    simp only [M.ok_bind]
    cases u
    dsimp only at hst hp
    subst hst
    simp only [hp]
    split <;> rfl
  unfold acCandidatesProcess
  split
  · next hz => rw [hz] at hn; cases hn
  · next m hm =>
    cases hm.symm.trans hn
    rw [h1, M.ok_bind]
    simp only [Bool.false_eq_true, if_false]
    rw [h2]
    split <;> rfl

theorem acFileIndex_dir0 {n : NodeId} {s : Str} (hst : u.procStage = 2) (hidx : u.procIndex = 0) (hs : u.acName = some s) (hnul : cNul ∉ s) :
    acFileIndex u n none = if u.state = .acCandPrint then
        writePointer { u with procIndex := 1, acCount := u.acCount + 1, acCand := some s } (.str s) u.state
      else .ok { u with procIndex := 1, acCount := u.acCount + 1, acCand := some s } := by
  unfold acFileIndex
  cases u
  dsimp only at hst hidx hs
  subst hidx hst hs
  simp only [M.ok_bind]
  split
  · rw [writePointer_str _ _ _ hnul, writePointer_str _ _ _ hnul]; rfl
  · rfl

theorem acFileIndex_dir2 {n : NodeId} (hst : u.procStage = 2) (hidx : u.procIndex = 2) :
    acFileIndex u n none = .ok { u with procNode := (u.nodes n).next, procIndex := 0 } := by
  unfold acFileIndex
  cases u
  dsimp only at hst hidx
  subst hidx hst
  rfl

theorem scan_dir (S : Scan E W pre x u) (i : List UInt8) {n : NodeId} {p : Str} (hn : u.procNode = some n)
    (hst : u.procStage = 2) (hidx : u.procIndex = 0) (hp : (u.nodes n).path = some p) (hnul : cNul ∉ pathLast p) :
    ∃ v, Run E u i v i (outs (scanText u.state (hits x [pathLast p]))) ∧ Tally u v (hits x [pathLast p]) ∧ v.procStage = 2 ∧
      v.procNode = (u.nodes n).next ∧ v.procIndex = 0 := by
  have e := acProcess_dir (E := E) hn hst S.word hp
  by_cases hm : startsWith (pathLast p) x = true
  · have hh : hits x [pathLast p] = [pathLast p] := by
      simp only [hits, List.filter_cons, List.filter_nil]
      rw [if_pos (show List.isPrefixOf x _ = true from hm)]
    rw [if_neg (by rw [hm]; simp), acFileIndex_dir0 (u := { u with acName := some (pathLast p) }) hst hidx rfl hnul] at e
    obtain ⟨v1, r1, q1, s1⟩ := S.say i e hnul rfl rfl rfl
    have t1 : SameTab u v1 := q1.tab.after ⟨⟨rfl, rfl, rfl, rfl⟩, rfl, rfl, rfl, rfl, rfl, rfl, rfl⟩
    have S1 := S.same t1 s1
    have hp1 : (v1.nodes n).path = some p := by rw [q1.nodes]; exact hp
    have st1 : v1.procStage = 2 := q1.procStage.trans hst
    have e1 := acProcess_dir (E := E) (q1.procNode.trans hn) st1 S1.word hp1
    rw [if_neg (by rw [hm]; simp), acFileIndex_1 (u := { v1 with acName := some (pathLast p) }) q1.procIndex] at e1
    obtain ⟨v2, r2, q2, s2⟩ := S1.say i e1 (by decide) rfl rfl rfl
    have t2 : SameTab v1 v2 := q2.tab.after ⟨⟨rfl, rfl, rfl, rfl⟩, rfl, rfl, rfl, rfl, rfl, rfl, rfl⟩
    have S2 := S1.same t2 s2
    have p2 : v2.procStage = 2 := q2.procStage.trans st1
    have n2 : v2.procNode = some n := q2.procNode.trans (q1.procNode.trans hn)
    have hp2 : (v2.nodes n).path = some p := by rw [t2.nodes]; exact hp1
    have e2 := acProcess_dir (E := E) n2 p2 S2.word hp2
    rw [if_neg (by rw [hm]; simp), acFileIndex_dir2 (u := { v2 with acName := some (pathLast p) }) p2 q2.procIndex] at e2
    have r3 := S2.step i e2 rfl
    have t3 : SameTab v2 { v2 with acName := some (pathLast p), procNode := (v2.nodes n).next, procIndex := 0 } := { toSameFs := ⟨rfl, rfl, rfl, rfl⟩, inBuf := rfl, outBuf := rfl, inPos := rfl, ansiEsc := rfl, acInput := rfl, acPrevCount := rfl, acSuffixLen := rfl }
    refine ⟨_, ((r1.trans r2).trans r3).cast ?_, ⟨(t1.trans t2).trans t3, s2.trans s1, ?_, ?_⟩, p2, ?_, rfl⟩
    · rw [hh, s1]
      unfold scanText
      split <;> simp [outs]
    · rw [hh]; exact q2.acCount.trans q1.acCount
    · rw [hh]; exact q2.acCand.trans q1.acCand
    · show (v2.nodes n).next = _
      rw [t2.nodes, t1.nodes]
  · have hh : hits x [pathLast p] = [] := by
      simp only [hits, List.filter_cons, List.filter_nil]
      rw [if_neg (show ¬ List.isPrefixOf x _ = true from hm)]
    have hm' : startsWith (pathLast p) x = false := by simpa using hm
    rw [if_pos hm'] at e
    refine ⟨_, (S.step i e rfl).cast (by rw [hh, scanText_nil]; rfl), ?_, hst, rfl, rfl⟩
    rw [hh]
    exact { toSameFs := ⟨rfl, rfl, rfl, rfl⟩, inBuf := rfl, outBuf := rfl, inPos := rfl, ansiEsc := rfl, acInput := rfl, acPrevCount := rfl, acSuffixLen := rfl, state := rfl, count := rfl, cand := rfl }

/-- All sub-directories. -/
theorem scan_dirs (i : List UInt8) : ∀ (ks : List Mount) {u : Ush}, Scan E W pre x u → IsChain u.nodes u.procNode (ks.map Mount.id) →
    (∀ k ∈ ks, (u.nodes k.id).path = some (render k.path) ∧ ∀ c ∈ k.path, GoodComp c) → u.procStage = 2 → u.procIndex = 0 →
    ∃ v, Run E u i v i (outs (scanText u.state (hits x (ks.map (fun m => dirName m.path))))) ∧ Tally u v (hits x (ks.map (fun m => dirName m.path))) ∧
      v.procStage = 2 ∧ v.procNode = none := by
  intro ks
  induction ks with
  | nil =>
    intro u S hc _ hst hidx
    exact ⟨u, (Run.refl E u i).cast (by simp [scanText_nil]), ⟨⟨SameFs.refl u, rfl, rfl, rfl, rfl, rfl, rfl, rfl⟩, rfl, rfl, rfl⟩, hst, hc⟩
  | cons k ks ih =>
    intro u S hc hk hst hidx
    obtain ⟨h1, h2⟩ := hk k (by simp)
    have hl := pathLast_dirName k.path h2
    obtain ⟨v, r, T, j1, j2, j3⟩ := scan_dir S i hc.1 hst hidx h1 (by rw [hl]; exact dirName_nul k.path h2)
    rw [hl] at r T
    obtain ⟨z, r', T', k1, k2⟩ := ih (S.same T.toSameTab T.state) (by rw [T.nodes, j2]; exact hc.2)
      (fun k' hk' => by rw [T.nodes]; exact hk k' (by simp [hk'])) j1 j3
    have hh : hits x (List.map (fun m => dirName m.path) (k :: ks)) = hits x [dirName k.path] ++ hits x (ks.map (fun m => dirName m.path)) := by
      rw [List.map_cons, ← List.singleton_append, hits, List.filter_append]
    refine ⟨z, (r.trans r').cast ?_, ?_, k1, k2⟩
    · rw [hh, scanText_append, T.state]; simp [outs]
    · rw [hh]; exact T.trans T'

/-! ## From one stage to the next -/

theorem acProcess_stage1 (hpm : 0 < E.pathMax) (hn : u.procNode = none) (hst : u.procStage = 0) :
    acCandidatesProcess E u = .ok { u with procNode := u.current, procIndex := 0, procItem := 0, procStage := 1 } := by
  unfold acCandidatesProcess acCheckForFinish
  rw [vla_ok hpm]
  cases u
  dsimp only at hn hst
  subst hn hst
  rfl

theorem acProcess_stage2 (hpm : 0 < E.pathMax) (hn : u.procNode = none) (hst : u.procStage = 1) {abs : Str} {n : NodeId}
    (hx : cstrAt u.inBuf u.acInput = .ok x) (ha : getAbsolutePath E u x = .ok abs)
    (h : (x = [] ∧ u.current = some n) ∨ (x ≠ [] ∧ getParentByPath E u abs = .ok (some n)) ∨
      (x ≠ [] ∧ getParentByPath E u abs = .ok none ∧ u.current = some n)) :
    acCandidatesProcess E u = .ok { u with procNode := (u.nodes n).children, procIndex := 0, procItem := 0, procStage := 2 } := by
  have h0 : acCandidatesProcess E u = acCheckForFinish E u := by
    unfold acCandidatesProcess
    split
    · rfl
    · next m hm => rw [hm] at hn; cases hn
  rw [h0]
  unfold acCheckForFinish
  rw [vla_ok hpm]
  simp only [M.ok_bind]
  split
  · next hz => rw [hz] at hst; cases hst
  · rw [hx, M.ok_bind, ha, M.ok_bind]
    rcases h with ⟨h1, h2⟩ | ⟨h1, h2⟩ | ⟨h1, h2, h3⟩
    · rw [if_pos h1]; simp only [M.pure_eq, M.ok_bind]; split
      · next hz => rw [hz] at h2; cases h2
      · next m hm => cases hm.symm.trans h2; rfl
    · rw [if_neg h1, h2]; rfl
    · rw [if_neg h1, h2]; simp only [M.pure_eq, M.ok_bind]; split
      · next hz => rw [hz] at h3; cases h3
      · next m hm => cases hm.symm.trans h3; rfl
  · next hz => rw [hz] at hst; cases hst
  · next h1 h2 h3 => exact absurd hst h2

theorem acProcess_finish (hpm : 0 < E.pathMax) (hn : u.procNode = none) (hst : u.procStage = 2) :
    acCandidatesProcess E u = .ok { u with acPrevState := u.state, state := .acCandFinish } := by
  unfold acCandidatesProcess acCheckForFinish
  rw [vla_ok hpm]
  cases u
  dsimp only at hn hst
  subst hn hst
  rfl

theorem normalize_plain (cs : List Str) (h : ∀ c ∈ cs, c ≠ b!"." ∧ c ≠ b!"..") : normalize cs = cs := by
  have hg : ∀ (cs st : List Str), (∀ c ∈ cs, c ≠ b!"." ∧ c ≠ b!"..") → cs.foldl pushComp st = st ++ cs := by
    intro cs
    induction cs with
    | nil => intro st _; simp
    | cons c cs ih =>
      intro st h
      obtain ⟨h1, h2⟩ := h c (by simp)
      rw [List.foldl_cons, ih _ (fun c' hc' => h c' (by simp [hc']))]
      unfold pushComp
      rw [if_neg h1, if_neg h2]
      simp
  simpa [normalize] using hg cs [] h

theorem Usual.mono (hh : W.Usual x) {z : Str} (h : x <+: z) : W.Usual z :=
  ⟨hh.1, fun d hd hz => hh.2.1 d hd (h.trans hz), hh.2.2⟩

/-- The directory whose sub-directories are looked at. -/
theorem Holds.acDir (H : Holds E W u) (hnul : cNul ∉ x) (hl : W.Room E x) :
    ∃ n ∈ W.dirs, ∃ abs, getAbsolutePath E u x = .ok abs ∧
      ((x = [] ∧ u.current = some n.id) ∨ (x ≠ [] ∧ getParentByPath E u abs = .ok (some n.id)) ∨
        (x ≠ [] ∧ getParentByPath E u abs = .ok none ∧ u.current = some n.id)) ∧
      (cSlash ∉ x → W.tabDir x = some n) := by
  obtain ⟨m, h0, h1, h2, h3, h4, h5⟩ := H.cwd
  obtain ⟨e1, e2, e3⟩ := H.abs hnul hl
  by_cases hx : x = []
  · refine ⟨m, h5, _, e1, Or.inl ⟨hx, h2⟩, fun _ => ?_⟩
    unfold World.tabDir
    rw [if_pos (Or.inl hx), h0]
  have hw : ∀ c ∈ W.path, GoodComp c := by rw [h1]; exact h4
  have hq : cSlash ∉ x → resolveText W.path x = render (resolve W.path false [x]) ∧ ∀ c ∈ resolve W.path false [x], GoodComp c := by
    intro hs
    have hgood : GoodComp x := ⟨hx, hs, hnul⟩
    have hr := resolveText_arg W.path hw false [x] false (by simpa using hgood) (by simp)
    have hax : argText false [x] false = x := by simp [argText, render]
    rw [hax] at hr
    refine ⟨hr, ?_⟩
    unfold resolve
    refine good_of_normalize _ ?_
    intro c hc
    simp only [Bool.false_eq_true, if_false] at hc
    rcases List.mem_append.mp hc with hc | hc
    · exact hw c hc
    · rw [List.mem_singleton.mp hc]; exact hgood
  by_cases hu : pathUpper (resolveText W.path x) = []
  · refine ⟨m, h5, _, e1, Or.inr (Or.inr ⟨hx, ?_, h2⟩), fun hs => ?_⟩
    · unfold getParentByPath
      rw [if_pos hu]
    · obtain ⟨k1, k2⟩ := hq hs
      rw [k1, pathUpper_render _ k2] at hu
      unfold World.tabDir
      by_cases h : resolve W.path false [x] = []
      · rw [if_pos (Or.inr h), h0]
      · rw [if_neg h] at hu
        exact absurd hu (render_ne_nil _)
  have hg : getParentByPath E u (resolveText W.path x) = .ok ((W.tree.findText (pathUpper (resolveText W.path x))).map Mount.id) := by
    unfold getParentByPath
    rw [if_neg hu]
    exact getByPath_eq H.rep.tree _ (by have := pathUpper_length (resolveText W.path x); omega) hu
  have hup : cSlash ∉ x → resolve W.path false [x] ≠ [] ∧ pathUpper (resolveText W.path x) = render (resolve W.path false [x]).dropLast ∧
      ∀ c ∈ (resolve W.path false [x]).dropLast, GoodComp c := by
    intro hs
    obtain ⟨k1, k2⟩ := hq hs
    rw [k1, pathUpper_render _ k2] at hu ⊢
    have h : resolve W.path false [x] ≠ [] := by
      intro h
      rw [if_pos h] at hu
      exact hu rfl
    rw [if_neg h]
    exact ⟨h, rfl, fun c hc => k2 c (List.dropLast_subset _ hc)⟩
  cases hf : W.tree.findText (pathUpper (resolveText W.path x)) with
  | none =>
    rw [hf] at hg
    refine ⟨m, h5, _, e1, Or.inr (Or.inr ⟨hx, hg, h2⟩), fun hs => ?_⟩
    obtain ⟨k1, k2, k3⟩ := hup hs
    rw [k2] at hf
    unfold World.tabDir
    rw [if_neg (by rintro (h | h); exacts [hx h, k1 h]), h0]
    suffices hnone : W.tree.find (resolve W.path false [x]).dropLast = none by rw [hnone]; rfl
    unfold Tree.find
    rw [List.find?_eq_none]
    intro n hn hp
    unfold Tree.findText at hf
    rw [List.find?_eq_none] at hf
    refine hf n hn ?_
    have : n.path = (resolve W.path false [x]).dropLast := by simpa using hp
    simp [this]
  | some n =>
    rw [hf] at hg
    have hn : n ∈ W.tree := List.mem_of_find?_eq_some hf
    refine ⟨n, mem_dirs_of_tree hn, _, e1, Or.inr (Or.inl ⟨hx, hg⟩), fun hs => ?_⟩
    obtain ⟨k1, k2, k3⟩ := hup hs
    have hrn : render n.path = pathUpper (resolveText W.path x) := by simpa using List.find?_some hf
    rw [k2] at hrn
    have hp := render_inj _ _ (H.rep.tree.good n hn) k3 hrn
    unfold World.tabDir
    rw [if_neg (by rintro (h | h); exacts [hx h, k1 h]), (find_eq_some H.rep.tree.nodupPath).mpr ⟨hn, hp⟩]
    rfl

theorem isPrefixOf_head {x n : Str} {c : UInt8} (h : x.isPrefixOf n = true) (hx : x.head? = some c) : n.head? = some c := by
  obtain ⟨t, rfl⟩ := List.isPrefixOf_iff_prefix.mp h
  cases x with
  | nil => cases hx
  | cons a x => simpa using hx

theorem dirName_slash (H : Holds E W u) {m : Mount} (hm : m ∈ W.tree) (h0 : m.path ≠ []) : cSlash ∉ dirName m.path := by
  obtain ⟨c, hc⟩ : ∃ c, m.path.getLast? = some c := by
    cases hg : m.path.getLast? with
    | none => exact absurd (List.getLast?_eq_none_iff.mp hg) h0
    | some c => exact ⟨c, rfl⟩
  have hd : dirName m.path = c := by simp [dirName, hc]
  rw [hd]
  exact (H.rep.tree.good m hm c (List.mem_of_getLast? hc)).2.1

/-- No directory has a name with `/`. -/
theorem hits_dirs (H : Holds E W u) {n : Mount} (hp : cSlash ∉ x → W.tabDir x = some n) :
    hits x ((W.tree.under n).map (fun m => dirName m.path)) =
      hits x ((((W.tabDir x).map W.tree.under).getD []).map (fun m => dirName m.path)) := by
  by_cases h1 : cSlash ∈ x
  · have key : ∀ t : Tree, (∀ m ∈ t, m ∈ W.tree ∧ m.path ≠ []) → hits x (t.map (fun m => dirName m.path)) = [] := by
      intro t ht
      rw [hits, List.filter_eq_nil_iff]
      intro a ha hpre
      obtain ⟨m, hm, rfl⟩ := List.mem_map.mp ha
      exact dirName_slash H (ht m hm).1 (ht m hm).2 ((List.isPrefixOf_iff_prefix.mp hpre).subset h1)
    have ku : ∀ n, ∀ m ∈ W.tree.under n, m ∈ W.tree ∧ m.path ≠ [] := by
      intro n m hm
      obtain ⟨a, b⟩ := under_mem hm
      simp [isKid] at b
      exact ⟨a, b.1⟩
    rw [key _ (ku n)]
    cases W.tabDir x with
    | none => rfl
    | some d => exact (key _ (ku d)).symm
  · rw [hp h1]; rfl

/-- A whole scan finds exactly the candidates. -/
theorem scan_all (S : Scan E W pre x u) (hr : W.Room E x) (i : List UInt8) (hn : u.procNode = u.commands) (hst : u.procStage = 0)
    (hidx : u.procIndex = 0) (hit : u.procItem = 0) :
    ∃ v, Run E u i v i (outs (scanText u.state (W.offers x))) ∧ SameTab u v ∧ v.state = .acCandFinish ∧ v.acPrevState = u.state ∧
      v.acCount = u.acCount + (W.offers x).length ∧ v.acCand = (W.offers x).getLast?.or u.acCand := by
  have hpm := S.rep.tree.pathMax
  obtain ⟨m, h0, h1, h2, h3, h4, h5⟩ := S.toHolds.cwd
  -- commands
  obtain ⟨a, ra, Ta, a1, a2⟩ := scan_groups i W.groups S (by rw [hn]; exact S.rep.cmds.chain) S.rep.cmds.files hst hidx hit
    (fun c hc f hf => (S.ok.cmdTexts c hc f hf).name)
  have Sa := S.same Ta.toSameTab Ta.state
  have rb := Sa.step i (acProcess_stage1 hpm a2 a1) rfl
  have Tb : Tally a { a with procNode := a.current, procIndex := 0, procItem := 0, procStage := 1 } [] := { toSameFs := ⟨rfl, rfl, rfl, rfl⟩, inBuf := rfl, outBuf := rfl, inPos := rfl, ansiEsc := rfl, acInput := rfl, acPrevCount := rfl, acSuffixLen := rfl, state := rfl, count := rfl, cand := rfl }
  have Sb := Sa.same Tb.toSameTab Tb.state
  generalize hb : ({ a with procNode := a.current, procIndex := 0, procItem := 0, procStage := 1 } : Ush) = b at *
  have b1 : b.procNode = some m.id := by rw [← hb]; exact Ta.current.trans h2
  have b2 : b.procStage = 1 := by rw [← hb]
  have b3 : b.procIndex = 0 := by rw [← hb]
  have b4 : b.procItem = 0 := by rw [← hb]
  -- files of the working directory
  obtain ⟨c, rc, Tc, c1, c2, c3, c4⟩ := scan_files i m.files Sb b1 (Or.inr b2) b3
    (by rw [b4, (Sb.rep.dir h5).files]; rfl) (fun f hf => (S.ok.treeTexts m h5 f hf).name)
  have Sc := Sb.same Tc.toSameTab Tc.state
  have rd := Sc.step i (acProcess_next1 c2 (c1.trans b2) c4) rfl
  have Td : Tally c { c with procItem := 0, procNode := none } [] := { toSameFs := ⟨rfl, rfl, rfl, rfl⟩, inBuf := rfl, outBuf := rfl, inPos := rfl, ansiEsc := rfl, acInput := rfl, acPrevCount := rfl, acSuffixLen := rfl, state := rfl, count := rfl, cand := rfl }
  have Sd := Sc.same Td.toSameTab Td.state
  generalize hd : ({ c with procItem := 0, procNode := none } : Ush) = d at *
  have d1 : d.procNode = none := by rw [← hd]
  have d2 : d.procStage = 1 := by rw [← hd]; exact c1.trans b2
  -- sub-directories
  obtain ⟨n, n1, abs, n2, n3, n4⟩ := Sd.toHolds.acDir S.nul hr
  have re := Sd.step i (acProcess_stage2 hpm d1 d2 Sd.word n2 n3) rfl
  have Te : Tally d { d with procNode := (d.nodes n.id).children, procIndex := 0, procItem := 0, procStage := 2 } [] := { toSameFs := ⟨rfl, rfl, rfl, rfl⟩, inBuf := rfl, outBuf := rfl, inPos := rfl, ansiEsc := rfl, acInput := rfl, acPrevCount := rfl, acSuffixLen := rfl, state := rfl, count := rfl, cand := rfl }
  have Se := Sd.same Te.toSameTab Te.state
  generalize he : ({ d with procNode := (d.nodes n.id).children, procIndex := 0, procItem := 0, procStage := 2 } : Ush) = e at *
  have e1 : e.procNode = (e.nodes n.id).children := by rw [← he]
  obtain ⟨f, rf, Tf, f1, f2⟩ := scan_dirs i (W.tree.under n) Se (by rw [e1]; exact Se.rep.under n1)
    (fun k hk => ⟨Se.rep.tree.path k (under_mem hk).1, Se.rep.tree.good k (under_mem hk).1⟩) (by rw [← he]) (by rw [← he])
  have Sf := Se.same Tf.toSameTab Tf.state
  rw [hits_dirs S.toHolds n4] at Tf rf
  have rg := Sf.step i (acProcess_finish hpm f2 f1) rfl
  have T := Ta.trans (Tb.trans (Tc.trans (Td.trans (Te.trans Tf))))
  have hC : hits x (W.groups.files.map (·.name)) ++ ([] ++ (hits x (m.files.map (·.name)) ++ ([] ++ ([] ++
      hits x ((((W.tabDir x).map W.tree.under).getD []).map (fun m => dirName m.path)))))) = W.offers x := by
    unfold World.offers
    rw [h0]
    simp [hits]
  have r := ra.trans (rb.trans (rc.trans (rd.trans (re.trans (rf.trans rg)))))
  rw [hC] at T
  refine ⟨_, r.cast ?_, ⟨⟨T.nodes, T.root, T.commands, T.current⟩, T.inBuf, T.outBuf, T.inPos, T.ansiEsc, T.acInput, T.acPrevCount, T.acSuffixLen⟩, rfl, T.state, T.count, T.cand⟩
  rw [← hC, Te.state, Td.state, Tc.state, Tb.state, Ta.state]
  simp only [scanText_append, outs, List.map_append, List.nil_append, List.append_nil]

end Ush
