import Verif.Spec.Edit
import Verif.Proof.Parse
import Verif.Proof.World
/-!
# Prompt, reset and line editor
-/
namespace Ush
open Spec

theorem Spec.SameFs.refl (u : Ush) : SameFs u u := ⟨rfl, rfl, rfl, rfl⟩

theorem Spec.SameFs.trans {u v w : Ush} (h1 : SameFs u v) (h2 : SameFs v w) : SameFs u w :=
  ⟨h2.nodes.trans h1.nodes, h2.root.trans h1.root, h2.commands.trans h1.commands, h2.current.trans h1.current⟩

theorem TreeInv.same {E : Env} {u v : Ush} {t : Tree} (H : TreeInv E u t) (h1 : v.nodes = u.nodes) (h2 : v.root = u.root) :
    TreeInv E v t := by
  obtain ⟨a1, a2, a3, a4, a5, a6, a7, a8, a9, a10, a11, a12, a13, a14⟩ := H
  constructor <;> (first | assumption | (rw [h1]; assumption) | (rw [h2]; assumption))

theorem CmdInv.same {E : Env} {u v : Ush} {g : Groups} (H : CmdInv E u g) (h1 : v.nodes = u.nodes)
    (h2 : v.commands = u.commands) : CmdInv E v g := by
  obtain ⟨a1, a2, a3, a4, a5⟩ := H
  constructor <;> (first | assumption | (rw [h1]; assumption) | (rw [h1, h2]; assumption))

theorem WInv.same {E : Env} {u v : Ush} {W : World} (H : WInv E u W) (S : SameFs u v) : WInv E v W :=
  ⟨H.tree.same S.nodes S.root, H.cmds.same S.nodes S.commands, H.disj,
   fun m hm => (H.cwd m hm).congr S.current (by rw [S.nodes]) (H.cwd m hm).linked, H.apart⟩

/-- The shell is in a mounted directory now. -/
theorem WInv.move {E : Env} {u v : Ush} {W : World} {d : Option Mount} (H : WInv E u W) (h1 : v.nodes = u.nodes) (h2 : v.root = u.root)
    (h3 : v.commands = u.commands) (h : ∀ m, d = some m → m ∈ W.tree ∧ v.current = some m.id) : WInv E v { W with cwd := d } :=
  ⟨H.tree.same h1 h2, H.cmds.same h1 h3, H.disj, fun m hm => CwdInv.of_mem (H.tree.same h1 h2) (h m hm).1 (h m hm).2,
    fun m hm c hc e => H.disj m (h m hm).1 c hc e.symm⟩

/-- A run and what it adds to the log. -/
structure Run (E : Env) (u : Ush) (i : List UInt8) (v : Ush) (j : List UInt8) (l : List Event) : Prop where
  steps : Steps E u i v j
  log : v.log = u.log ++ l

theorem Run.refl (E : Env) (u : Ush) (i : List UInt8) : Run E u i u i [] := ⟨Steps.refl E u i, by simp⟩

theorem Run.trans {E : Env} {u v w : Ush} {i j k : List UInt8} {l l' : List Event} (h1 : Run E u i v j l) (h2 : Run E v j w k l') :
    Run E u i w k (l ++ l') := ⟨h1.steps.trans h2.steps, by rw [h2.log, h1.log, List.append_assoc]⟩

theorem Run.cast {E : Env} {u v : Ush} {i j : List UInt8} {l l' : List Event} (h : Run E u i v j l) (e : l = l') : Run E u i v j l' := e ▸ h

/-- A silent step. -/
theorem Run.inner {E : Env} {u v : Ush} (i : List UInt8) {l : List Event} (hc : u.current.isSome = true)
    (h1 : u.state ≠ .readChar) (h2 : u.state ≠ .writeChar) (h : innerStep E u = .ok v) (hl : v.log = u.log ++ l) : Run E u i v i l :=
  ⟨Steps.inner i hc h1 h2 h, hl⟩

/-- A step that hands over the text `s`, and the delivery of the text. -/
theorem Run.say {E : Env} {u u' : Ush} {p : Ptr} {s : Str} {next : St} (i : List UInt8) (hc : u.current.isSome = true)
    (h1 : u.state ≠ .readChar) (h2 : u.state ≠ .writeChar) (h : innerStep E u = writePointer u' p next)
    (hp : p ≠ .null) (hs : ptrStr u' p = .ok s) (hr : Readable u' p s) (hl : u'.log = u.log) (hc' : u'.current = u.current) :
    Run E u i (said u' p s next) i (outs s) := by
  rw [writePointer_of next hp hs] at h
  exact ⟨(Steps.inner i hc h1 h2 h).trans (Steps.say i u' p s next (by rw [hc']; exact hc) hr), by simp [hl]⟩

theorem Run.sayStr {E : Env} {u u' : Ush} {s : Str} {next : St} (i : List UInt8) (hc : u.current.isSome = true)
    (h1 : u.state ≠ .readChar) (h2 : u.state ≠ .writeChar) (h : innerStep E u = writePointer u' (.str s) next)
    (hs : cNul ∉ s) (hl : u'.log = u.log) (hc' : u'.current = u.current) : Run E u i (said u' (.str s) s next) i (outs s) :=
  Run.say i hc h1 h2 h (by simp) (ptrStr_str u' s hs) (Readable.str u' s) hl hc'

theorem Run.sayOut {E : Env} {u u' : Ush} {s rest : Str} {next : St} (i : List UInt8) (hc : u.current.isSome = true)
    (h1 : u.state ≠ .readChar) (h2 : u.state ≠ .writeChar) (h : innerStep E u = writePointer u' .outBuf next)
    (hb : u'.outBuf = s ++ cNul :: rest) (hs : cNul ∉ s) (hl : u'.log = u.log) (hc' : u'.current = u.current) :
    Run E u i (said u' .outBuf s next) i (outs s) :=
  Run.say i hc h1 h2 h (by simp) (by show cstrAt u'.outBuf 0 = _; rw [hb]; exact cstrAt_zero s rest hs)
    (Readable.out u' s _ hb) hl hc'

theorem not_mem_append {α : Type} {a : α} {l m : List α} (h1 : a ∉ l) (h2 : a ∉ m) : a ∉ l ++ m := by
  simp [h1, h2]

/-- Only the write engine, the state and the log differ. -/
def Quiet (u v : Ush) : Prop :=
  v = { u with state := v.state, writeNext := v.writeNext, writeBuf := v.writeBuf, writeSize := v.writeSize, writePos := v.writePos, log := v.log }

theorem Quiet.refl (u : Ush) : Quiet u u := rfl

theorem Quiet.trans {u v w : Ush} (h1 : Quiet u v) (h2 : Quiet v w) : Quiet u w := by
  unfold Quiet at *
  rw [h1] at h2
  exact h2

theorem Quiet.said (u : Ush) (p : Ptr) (s : List UInt8) (n : St) : Quiet u (said u p s n) := rfl

theorem Quiet.fs {u v : Ush} (h : Quiet u v) : SameFs u v := by
  unfold Quiet at h; rw [h]; exact ⟨rfl, rfl, rfl, rfl⟩

theorem Quiet.inBuf {u v : Ush} (h : Quiet u v) : v.inBuf = u.inBuf := by unfold Quiet at h; rw [h]
theorem Quiet.outBuf {u v : Ush} (h : Quiet u v) : v.outBuf = u.outBuf := by unfold Quiet at h; rw [h]
theorem Quiet.inPos {u v : Ush} (h : Quiet u v) : v.inPos = u.inPos := by unfold Quiet at h; rw [h]
theorem Quiet.ansiEsc {u v : Ush} (h : Quiet u v) : v.ansiEsc = u.ansiEsc := by unfold Quiet at h; rw [h]
theorem Quiet.promptNext {u v : Ush} (h : Quiet u v) : v.promptNext = u.promptNext := by unfold Quiet at h; rw [h]

theorem pathLast_dirName (p : List Str) (h : ∀ c ∈ p, GoodComp c) : pathLast (render p) = dirName p := by
  rcases List.eq_nil_or_concat p with rfl | ⟨l, c, rfl⟩
  · decide
  · rw [List.concat_eq_append] at *
    rw [pathLast_concat l c (h c (by simp))]
    simp [dirName]

theorem dirName_nul (p : List Str) (h : ∀ c ∈ p, GoodComp c) : cNul ∉ dirName p := by
  rcases List.eq_nil_or_concat p with rfl | ⟨l, c, rfl⟩
  · decide
  · rw [List.concat_eq_append] at *
    simp only [dirName, List.getLast?_append, List.getLast?_singleton, Option.some_or, Option.getD_some]
    exact (h c (by simp)).2.2

theorem Quiet.current {u v : Ush} (h : Quiet u v) : v.current = u.current := h.fs.current
theorem Quiet.nodes {u v : Ush} (h : Quiet u v) : v.nodes = u.nodes := h.fs.nodes

theorem quietSay {E : Env} {u : Ush} (s : Str) (next : St) (i : List UInt8) (hc : u.current.isSome = true)
    (h1 : u.state ≠ .readChar) (h2 : u.state ≠ .writeChar) (h : innerStep E u = writePointer u (.str s) next)
    (hs : cNul ∉ s) : ∃ v, Run E u i v i (outs s) ∧ Quiet u v ∧ v.state = next :=
  ⟨_, Run.sayStr i hc h1 h2 h hs rfl rfl, Quiet.said _ _ _ _, rfl⟩

/-- Printing the prompt. -/
theorem prompt_run {E : Env} (T : CStrings E) {u : Ush} {c : NodeId} {p : List Str} (i : List UInt8) (hs : u.state = .promptPrefix)
    (hc : u.current = some c) (hp : (u.nodes c).path = some (render p)) (hg : ∀ c ∈ p, GoodComp c) :
    ∃ v, Run E u i v i (outs (promptText E p)) ∧ Quiet u v ∧ v.state = u.promptNext := by
  have hcs : u.current.isSome = true := by rw [hc]; rfl
  obtain ⟨u1, r1, q1, s1⟩ := quietSay (E := E) (u := u) (E.colorMagenta ++ b!"[") .promptHost i hcs (by simp [hs]) (by simp [hs])
    (by unfold innerStep; rw [hs]) (not_mem_append T.magenta (by decide))
  obtain ⟨u2, r2, q2, s2⟩ := quietSay (E := E) (u := u1) E.hostname .promptSpace i (by rw [q1.current]; exact hcs) (by simp [s1]) (by simp [s1])
    (by unfold innerStep; rw [s1]) T.host
  have q2 := q1.trans q2
  obtain ⟨u3, r3, q3, s3⟩ := quietSay (E := E) (u := u2) b!" " .promptPath i (by rw [q2.current]; exact hcs) (by simp [s2]) (by simp [s2])
    (by unfold innerStep; rw [s2]) (by decide)
  have q3 := q2.trans q3
  obtain ⟨u4, r4, q4, s4⟩ := quietSay (E := E) (u := u3) (dirName p) .promptSuffix i (by rw [q3.current]; exact hcs) (by simp [s3]) (by simp [s3])
    (by unfold innerStep; rw [s3]; simp only [promptPathStep]; rw [q3.current, hc]; simp only; rw [q3.nodes, hp]; simp only; rw [pathLast_dirName p hg])
    (dirName_nul p hg)
  have q4 := q3.trans q4
  obtain ⟨u5, r5, q5, s5⟩ := quietSay (E := E) (u := u4) (b!"]$ " ++ E.styleReset) u4.promptNext i (by rw [q4.current]; exact hcs) (by simp [s4]) (by simp [s4])
    (by unfold innerStep; rw [s4]) (not_mem_append (by decide) T.styleReset)
  refine ⟨u5, ?_, q4.trans q5, by rw [s5, q4.promptNext]⟩
  refine ((((r1.trans r2).trans r3).trans r4).trans r5).cast ?_
  simp [promptText, outs]

theorem readStart_run {E : Env} {u : Ush} (i : List UInt8) (hs : u.state = .readPrepare) (hc : u.current.isSome = true)
    (hl : 0 < u.inBuf.length) :
    Run E u i { u with inPos := 0, inBuf := u.inBuf.set 0 cNul, state := .readChar, ansiEsc := 0 } i [] := by
  refine Run.inner i hc (by simp [hs]) (by simp [hs]) ?_ (by simp)
  unfold innerStep; rw [hs]
  simp only
  unfold readStart
  rw [wr_ok _ hl]; rfl

/-- After a command: prompt and empty line. -/
structure Prompted (E : Env) (u v : Ush) : Prop where
  shows : Shows v {}
  fs : SameFs u v
  sized : Sized E v

theorem resetPrompt_run {E : Env} (T : CStrings E) {u : Ush} {c : NodeId} {p : List Str} (i : List UInt8) (hs : u.state = .resetPrompt)
    (hc : u.current = some c) (hp : (u.nodes c).path = some (render p)) (hg : ∀ c ∈ p, GoodComp c)
    (hz : Sized E u) (hin : 0 < E.inSize) :
    ∃ v, Run E u i v i (outs (promptText E p)) ∧ Prompted E u v ∧ v.outBuf = u.outBuf := by
  have hcs : u.current.isSome = true := by rw [hc]; rfl
  have r0 : Run E u i (promptStart u .readPrepare) i [] :=
    Run.inner i hcs (by simp [hs]) (by simp [hs]) (by unfold innerStep; rw [hs]) (by simp [promptStart])
  obtain ⟨v, r1, q1, s1⟩ := prompt_run T (u := promptStart u .readPrepare) i rfl hc hp hg
  have hbl : v.inBuf = u.inBuf := q1.inBuf
  have hpos : 0 < v.inBuf.length := by rw [hbl, hz.inLen]; exact hin
  have r2 := readStart_run (E := E) (u := v) i s1 (by rw [q1.current]; exact hcs) hpos
  refine ⟨_, ((r0.trans r1).trans r2).cast (by simp), ⟨⟨rfl, rfl, rfl, ?_⟩, ?_, ?_⟩, ?_⟩
  · cases hb : v.inBuf with
    | nil => rw [hb] at hpos; cases hpos
    | cons a l => exact ⟨l, by simp⟩
  · exact SameFs.trans (⟨rfl, rfl, rfl, rfl⟩ : SameFs u (promptStart u .readPrepare)) (q1.fs.trans ⟨rfl, rfl, rfl, rfl⟩)
  · exact ⟨by simp [hbl, hz.inLen], by show v.outBuf.length = _; rw [q1.outBuf]; exact hz.outLen⟩
  · exact q1.outBuf

/-- `reset`: new line, prompt, empty line. -/
theorem reset_run {E : Env} (T : CStrings E) {u : Ush} {c : NodeId} {p : List Str} (i : List UInt8) (hs : u.state = .reset)
    (hc : u.current = some c) (hp : (u.nodes c).path = some (render p)) (hg : ∀ c ∈ p, GoodComp c)
    (hz : Sized E u) (hin : 0 < E.inSize) :
    ∃ v, Run E u i v i (outs (crlf ++ promptText E p)) ∧ Prompted E u v ∧ v.outBuf = u.outBuf := by
  have hcs : u.current.isSome = true := by rw [hc]; rfl
  obtain ⟨u1, r1, q1, s1⟩ := quietSay (E := E) (u := u) crlf .resetPrompt i hcs (by simp [hs]) (by simp [hs])
    (by unfold innerStep; rw [hs]) (by decide)
  obtain ⟨v, r2, p2, o2⟩ := resetPrompt_run T (u := u1) i s1 (by rw [q1.current]; exact hc) (by rw [q1.nodes]; exact hp) hg
    ⟨by rw [q1.inBuf]; exact hz.inLen, by rw [q1.outBuf]; exact hz.outLen⟩ hin
  exact ⟨v, (r1.trans r2).cast (by simp), ⟨p2.shows, q1.fs.trans p2.fs, p2.sized⟩, by rw [o2, q1.outBuf]⟩

/-- From a finished command in a known directory. -/
theorem WInv.at {E : Env} {u : Ush} {W : World} {m : Mount} (H : WInv E u W) (hm : W.cwd = some m) :
    u.current = some m.id ∧ (u.nodes m.id).path = some (render m.path) ∧ ∀ c ∈ m.path, GoodComp c :=
  let C := H.cwd m hm
  ⟨C.cur, C.pathField, C.good⟩

/-! ## The line editor -/

theorem drive1_read {E : Env} {u v : Ush} {c : UInt8} {i : List UInt8} {b : Bool} (hc : u.current.isSome = true)
    (hs : u.state = .readChar) (h : readChar E ⟨some c, true⟩ u = .ok (v, b)) : Steps E u (c :: i) v i := by
  apply Steps.one
  unfold drive1
  rw [service_eq E _ u hc, hs]
  simp only [if_true, List.head?_cons, true_and, List.tail_cons]
  rw [h]; rfl

/-- Echo of a text that has been put into the output buffer. -/
theorem echo_run {E : Env} {u : Ush} {s rest : Str} (i : List UInt8) (next : St) (hc : u.current.isSome = true)
    (hb : u.outBuf = s ++ cNul :: rest) (hs : cNul ∉ s) :
    ∃ w, writePointer u .outBuf next = .ok w ∧ Steps E w i (said u .outBuf s next) i :=
  ⟨_, writePointer_of next (by simp) (by show cstrAt u.outBuf 0 = _; rw [hb]; exact cstrAt_zero s rest hs),
   Steps.say i u .outBuf s next hc (Readable.out u s _ hb)⟩

/-- The text that `readEcho` prints. -/
def echoText (c : UInt8) : Str :=
  if c = cCr then [cCr, cLf] else if c = cBs ∨ c = cDel then [cBs, cSpace, cBs] else if c = cNul then [] else [c]

theorem wr_buf3 (o : List UInt8) (h : 4 ≤ o.length) : ∃ a b c d r, o = a :: b :: c :: d :: r := by
  match o, h with
  | a :: b :: c :: d :: r, _ => exact ⟨a, b, c, d, r, rfl⟩

theorem readEcho_run {E : Env} {u : Ush} (c : UInt8) (i : List UInt8) (hc : u.current.isSome = true) (ho : 4 ≤ u.outBuf.length) :
    ∃ w o, readEcho u c = .ok w ∧ (o.length = u.outBuf.length ∧ ∃ t, o = echoText c ++ cNul :: t) ∧
      Steps E w i (said { u with outBuf := o } .outBuf (echoText c) (if c = cCr ∨ c = cLf then .parsePrepare else .readChar)) i := by
  obtain ⟨x0, x1, x2, x3, r, hb⟩ := wr_buf3 u.outBuf ho
  have key : ∀ (o : List UInt8) (rest : Str), o = echoText c ++ cNul :: rest → cNul ∉ echoText c → o.length = u.outBuf.length →
      ∃ w o', writePointer { u with outBuf := o } .outBuf (if c = cCr ∨ c = cLf then .parsePrepare else .readChar) = .ok w ∧
        (o'.length = u.outBuf.length ∧ ∃ t, o' = echoText c ++ cNul :: t) ∧
        Steps E w i (said { u with outBuf := o' } .outBuf (echoText c) (if c = cCr ∨ c = cLf then .parsePrepare else .readChar)) i := by
    intro o rest h1 h2 h3
    obtain ⟨w, h4, h5⟩ := echo_run (E := E) (u := { u with outBuf := o }) i (if c = cCr ∨ c = cLf then .parsePrepare else .readChar) hc h1 h2
    exact ⟨w, o, h4, ⟨h3, rest, h1⟩, h5⟩
  unfold readEcho
  rw [hb]
  by_cases h1 : c = cCr
  · subst h1
    have := key (cCr :: cLf :: cNul :: x3 :: r) (x3 :: r) rfl (by decide) (by rw [hb]; rfl)
    rw [hb] at this
    exact this
  · by_cases h2 : c = cBs ∨ c = cDel
    · have e : echoText c = [cBs, cSpace, cBs] := by unfold echoText; rw [if_neg h1, if_pos h2]
      have := key (cBs :: cSpace :: cBs :: cNul :: r) r (by rw [e]; rfl) (by rw [e]; decide) (by rw [hb]; rfl)
      rw [hb] at this
      rw [if_neg h1, if_pos h2]
      exact this
    · by_cases h3 : c = cNul
      · have e : echoText c = [] := by unfold echoText; rw [if_neg h1, if_neg h2, if_pos h3]
        have := key (c :: cNul :: x2 :: x3 :: r) (cNul :: x2 :: x3 :: r) (by rw [e, h3]; rfl) (by rw [e]; decide) (by rw [hb]; rfl)
        rw [hb] at this
        rw [if_neg h1, if_neg h2]
        exact this
      · have e : echoText c = [c] := by unfold echoText; rw [if_neg h1, if_neg h2, if_neg h3]
        have := key (c :: cNul :: x2 :: x3 :: r) (x2 :: x3 :: r) (by rw [e]; rfl) (by rw [e]; simpa using fun h => h3 h.symm) (by rw [hb]; rfl)
        rw [hb] at this
        rw [if_neg h1, if_neg h2]
        exact this

/-- A character is put into the line (no escape sequence pending). -/
theorem char_run {E : Env} {u : Ush} (c : UInt8) (i : List UInt8) (hs : u.state = .readChar) (he : u.ansiEsc = 0)
    (hc : u.current.isSome = true) (hz : Sized E u) (hout : 4 ≤ E.outSize) (hp : u.inPos < E.inSize)
    (n1 : c ≠ cEtx) (n2 : c ≠ cBs) (n3 : c ≠ cDel) (n4 : c ≠ cTab) (n5 : c ≠ cEsc) :
    ∃ o, (o.length = E.outSize ∧ ∃ t, o = echoText c ++ cNul :: t) ∧
      let p := if u.inPos + 1 ≥ E.inSize then 0 else u.inPos + 1
      Run E u (c :: i) (said { u with log := u.log ++ [.inp c], inBuf := (u.inBuf.set u.inPos c).set p cNul, inPos := p, outBuf := o }
        .outBuf (echoText c) (if c = cCr ∨ c = cLf then .parsePrepare else .readChar)) i (.inp c :: outs (echoText c)) := by
  simp only
  generalize hpp : (if u.inPos + 1 ≥ E.inSize then 0 else u.inPos + 1) = p
  have hlt : p < E.inSize := by rw [← hpp]; split <;> omega
  obtain ⟨w, o, h1, h2, h3⟩ := readEcho_run (E := E) (u := { u with log := u.log ++ [.inp c], inBuf := (u.inBuf.set u.inPos c).set p cNul, inPos := p })
    c i hc (by show 4 ≤ u.outBuf.length; rw [hz.outLen]; exact hout)
  refine ⟨o, ⟨by rw [h2.1]; exact hz.outLen, h2.2⟩, ⟨Steps.trans (drive1_read (v := w) (b := true) hc hs ?_) h3, by simp⟩⟩
  unfold readChar
  simp only
  rw [if_neg n1, if_neg (by simp [n2, n3]), if_neg n4, if_neg n5]
  unfold readCharByEscape
  have he' : (u.emit (.inp c)).ansiEsc = 0 := he
  rw [if_pos he']
  show (wr u.inBuf u.inPos c >>= _) >>= _ = _
  rw [wr_ok c (by rw [hz.inLen]; exact hp)]
  simp only [M.ok_bind]
  show (wr (u.inBuf.set u.inPos c) (if u.inPos + 1 ≥ E.inSize then 0 else u.inPos + 1) cNul >>= _) >>= _ = _
  rw [hpp, wr_ok cNul (by simp [hz.inLen, hlt])]
  simp only [M.ok_bind, M.pure_eq, if_true]
  subst hpp
  exact congrArg (fun m : M Ush => m >>= fun u => (.ok (u, true) : M (Ush × Bool))) h1

/-- A key that changes nothing but the escape state. -/
theorem silent_run {E : Env} {u v : Ush} (c : UInt8) (i : List UInt8) (hs : u.state = .readChar) (hc : u.current.isSome = true)
    (h : readChar E ⟨some c, true⟩ u = .ok (v, true)) (hl : v.log = u.log ++ [.inp c]) : Run E u (c :: i) v i [.inp c] :=
  ⟨drive1_read hc hs h, hl⟩

theorem set_nul_shows {line rest b : List UInt8} {c : UInt8} (hb : b = line ++ cNul :: rest) (hlt : line.length + 1 < b.length) :
    ∃ rest', (b.set line.length c).set (line.length + 1) cNul = (line ++ [c]) ++ cNul :: rest' := by
  subst hb
  cases rest with
  | nil => simp at hlt
  | cons x rest =>
    refine ⟨rest, ?_⟩
    rw [List.set_append_right _ _ (by simp), List.set_append_right _ _ (by simp)]
    simp

theorem shows_lt {E : Env} {u : Ush} {e : Editor} (S : Shows u e) (hz : Sized E u) : e.line.length < E.inSize := by
  obtain ⟨rest, hb⟩ := S.buf
  have := hz.inLen
  rw [hb] at this
  simp at this
  omega

/-- Every key the editor takes has exactly the specified effect. -/
theorem key_run {E : Env} {u : Ush} {e : Editor} (c : UInt8) (i : List UInt8) (S : Shows u e) (hz : Sized E u)
    (hc : u.current.isSome = true) (hout : 4 ≤ E.outSize) (ht : e.takes c = true) :
    ∃ v, Run E u (c :: i) v i (.inp c :: outs (e.key E.inSize c).2) ∧ Shows v (e.key E.inSize c).1 ∧ SameFs u v ∧ Sized E v := by
  have n1 : c ≠ cEtx := by rintro rfl; simp [Editor.takes, isSpecial] at ht
  have n4 : c ≠ cTab := by rintro rfl; simp [Editor.takes, isSpecial] at ht
  obtain ⟨rest, hb⟩ := S.buf
  have hlt := shows_lt S hz
  unfold Editor.key
  by_cases h1 : isErase c = true
  · have h1' : c = cBs ∨ c = cDel := by simpa [isErase] using h1
    rw [if_pos h1]
    by_cases h2 : e.line = []
    · rw [if_pos h2]
      refine ⟨u.emit (.inp c), ⟨drive1_read (b := true) hc S.state ?_, by simp [Ush.emit, outs]⟩, ⟨S.state, S.esc, S.pos, S.buf⟩, ⟨rfl, rfl, rfl, rfl⟩, ⟨hz.inLen, hz.outLen⟩⟩
      · unfold readChar
        simp only
        rw [if_neg n1, if_pos h1', if_neg (by show ¬ u.inPos > 0; rw [S.pos, h2]; simp)]
        rfl
    · rw [if_neg h2]
      obtain ⟨l, x, hl⟩ : ∃ l x, e.line = l ++ [x] := by
        rcases List.eq_nil_or_concat e.line with h | ⟨l, x, h⟩
        · exact absurd h h2
        · exact ⟨l, x, by rw [h, List.concat_eq_append]⟩
      have hpos : u.inPos = l.length + 1 := by rw [S.pos, hl]; simp
      have hbuf : u.inBuf = l ++ x :: cNul :: rest := by rw [hb, hl]; simp
      have hcn : ¬ (c = cCr ∨ c = cLf) := by rcases h1' with rfl | rfl <;> decide
      have htx : echoText c = [cBs, cSpace, cBs] := by
        unfold echoText; rw [if_neg (fun h => hcn (Or.inl h)), if_pos h1']
      obtain ⟨w, o, r1, r2, r3⟩ := readEcho_run (E := E) (u := { u with log := u.log ++ [.inp c], inBuf := l ++ cNul :: cNul :: rest, inPos := u.inPos - 1 })
        c i hc (by show 4 ≤ u.outBuf.length; rw [hz.outLen]; exact hout)
      rw [htx, if_neg hcn] at r3
      refine ⟨_, ⟨Steps.trans (drive1_read (v := w) (b := true) hc S.state ?_) r3, by simp⟩, ⟨rfl, S.esc, ?_, cNul :: rest, ?_⟩, ⟨rfl, rfl, rfl, rfl⟩, ⟨?_, ?_⟩⟩
      · unfold readChar
        simp only
        rw [if_neg n1, if_pos h1', if_pos (by show u.inPos > 0; omega)]
        show ((wr u.inBuf (u.inPos - 1) cNul >>= _) >>= _) = _
        rw [hpos, hbuf, Nat.add_sub_cancel, wr_append_length]
        simp only [M.ok_bind, M.pure_eq, if_true]
        exact congrArg (fun m : M Ush => m >>= fun u => (.ok (u, true) : M (Ush × Bool))) r1
      · simp [said, hl, hpos]
      · simp [said, hl]
      · have := hz.inLen
        rw [hbuf] at this
        simpa [said] using this
      · show o.length = _
        rw [r2.1]; exact hz.outLen
  · rw [if_neg h1]
    have n23 : c ≠ cBs ∧ c ≠ cDel := by simpa [isErase, not_or] using h1
    by_cases h3 : c = cEsc
    · rw [if_pos h3]
      refine ⟨{ u.emit (.inp c) with ansiEsc := 1 }, ⟨drive1_read (b := true) hc S.state ?_, by simp [Ush.emit]⟩, ⟨S.state, rfl, S.pos, S.buf⟩, ⟨rfl, rfl, rfl, rfl⟩, ⟨hz.inLen, hz.outLen⟩⟩
      unfold readChar
      simp only
      rw [if_neg n1, if_neg (by simp [n23]), if_neg n4, if_pos h3]
      rfl
    · rw [if_neg h3]
      cases hesc : e.esc with
      | esc =>
        have hae : u.ansiEsc = 1 := by rw [S.esc, hesc]; rfl
        have hrc : readChar E ⟨some c, true⟩ u =
            .ok ({ u.emit (.inp c) with ansiEsc := if c = 0x5B ∨ c = 0x4F then 2 else 0 }, true) := by
          unfold readChar
          simp only
          rw [if_neg n1, if_neg (by simp [n23]), if_neg n4, if_neg h3]
          unfold readCharByEscape
          have a1 : (u.emit (.inp c)).ansiEsc = 1 := hae
          rw [if_neg (by rw [a1]; decide), if_pos a1]
          by_cases h4 : c = 0x5B ∨ c = 0x4F
          · rw [if_pos h4, if_pos h4]; rfl
          · rw [if_neg h4, if_neg h4]; rfl
        refine ⟨_, ⟨drive1_read hc S.state hrc, by simp [Ush.emit]⟩, ⟨S.state, ?_, S.pos, S.buf⟩, ⟨rfl, rfl, rfl, rfl⟩, ⟨hz.inLen, hz.outLen⟩⟩
        show (if c = 0x5B ∨ c = 0x4F then 2 else 0) = _
        by_cases h4 : c = 0x5B ∨ c = 0x4F
        · simp only [if_pos h4]; rfl
        · simp only [if_neg h4]; rfl
      | bracket =>
        have hae : u.ansiEsc = 2 := by rw [S.esc, hesc]; rfl
        have hrc : readChar E ⟨some c, true⟩ u = .ok ({ u.emit (.inp c) with ansiEsc := 0 }, true) := by
          unfold readChar
          simp only
          rw [if_neg n1, if_neg (by simp [n23]), if_neg n4, if_neg h3]
          unfold readCharByEscape
          have a1 : (u.emit (.inp c)).ansiEsc = 2 := hae
          rw [if_neg (by rw [a1]; decide), if_neg (by rw [a1]; decide), if_pos a1]
          rfl
        exact ⟨_, ⟨drive1_read hc S.state hrc, by simp [Ush.emit]⟩, ⟨S.state, rfl, S.pos, S.buf⟩, ⟨rfl, rfl, rfl, rfl⟩, ⟨hz.inLen, hz.outLen⟩⟩
      | none =>
        have hae : u.ansiEsc = 0 := by rw [S.esc, hesc]; rfl
        have hen : ¬ (c = cCr ∨ c = cLf) := by
          intro h
          have : isEnter c = true := by simpa [isEnter] using h
          simp [Editor.takes, this, hesc] at ht
        obtain ⟨o, ho, r⟩ := char_run (E := E) (u := u) c i S.state hae hc hz hout (by rw [S.pos]; exact hlt) n1 n23.1 n23.2 n4 h3
        have htx : echoText c = if c = cNul then [] else [c] := by
          unfold echoText; rw [if_neg (fun h => hen (Or.inl h)), if_neg (by simp [n23])]
        simp only at r
        rw [if_neg hen, htx] at r
        refine ⟨_, r, ⟨rfl, ?_, ?_, ?_⟩, ⟨rfl, rfl, rfl, rfl⟩, ⟨?_, ho.1⟩⟩
        · exact hae
        · simp only [said]
          by_cases h5 : e.line.length + 1 < E.inSize
          · rw [if_pos h5, if_neg (by rw [S.pos]; omega), S.pos]; simp
          · rw [if_neg h5, if_pos (by rw [S.pos]; omega)]; rfl
        · simp only [said]
          by_cases h5 : e.line.length + 1 < E.inSize
          · rw [if_pos h5, if_neg (by rw [S.pos]; omega), S.pos]
            exact set_nul_shows hb (by rw [hz.inLen]; exact h5)
          · rw [if_neg h5, if_pos (by rw [S.pos]; omega), S.pos]
            cases hb2 : u.inBuf.set e.line.length c with
            | nil =>
              have := congrArg List.length hb2
              simp [hz.inLen] at this; omega
            | cons a l => exact ⟨l, by simp⟩
        · simp [said, hz.inLen]

/-- Enter. -/
theorem enter_run {E : Env} {u : Ush} {e : Editor} (c : UInt8) (i : List UInt8) (S : Shows u e) (hz : Sized E u)
    (hc : u.current.isSome = true) (hout : 4 ≤ E.outSize) (hesc : e.esc = .none) (hen : c = cLf ∨ c = cCr)
    (hin : 2 ≤ E.inSize) :
    ∃ v rest, Run E u (c :: i) v i (.inp c :: outs (enterEcho c)) ∧ v.state = .parsePrepare ∧
      v.inBuf = sent E.inSize e.line ++ c :: rest ∧ SameFs u v ∧ Sized E v ∧
      v.writeBuf = .outBuf ∧ v.writePos = (enterEcho c).length ∧ v.writeSize = (enterEcho c).length ∧
      ∃ t, v.outBuf = enterEcho c ++ cNul :: t := by
  obtain ⟨rest, hb⟩ := S.buf
  have hlt := shows_lt S hz
  have hae : u.ansiEsc = 0 := by rw [S.esc, hesc]; rfl
  obtain ⟨o, ho, r⟩ := char_run (E := E) (u := u) c i S.state hae hc hz hout (by rw [S.pos]; omega)
    (by rcases hen with rfl | rfl <;> decide) (by rcases hen with rfl | rfl <;> decide) (by rcases hen with rfl | rfl <;> decide)
    (by rcases hen with rfl | rfl <;> decide) (by rcases hen with rfl | rfl <;> decide)
  have htx : echoText c = enterEcho c := by rcases hen with rfl | rfl <;> rfl
  simp only at r
  have hen' : c = cCr ∨ c = cLf := hen.symm
  rw [if_pos hen', htx] at r
  by_cases hfit : e.line.length + 1 < E.inSize
  · rw [sent_fit hfit]
    rw [if_neg (by rw [S.pos]; omega)] at r
    obtain ⟨rest', hr⟩ := set_nul_shows (c := c) hb (by rw [hz.inLen]; exact hfit)
    refine ⟨_, cNul :: rest', r, rfl, ?_, ⟨rfl, rfl, rfl, rfl⟩, ⟨by simp [said, hz.inLen], ho.1⟩, rfl, rfl, rfl, by rw [← htx]; exact ho.2⟩
    simp only [said]
    rw [S.pos, hr]; simp
  · rw [if_pos (by rw [S.pos]; omega)] at r
    unfold sent
    rw [if_neg hfit]
    refine ⟨_, [], r, rfl, ?_, ⟨rfl, rfl, rfl, rfl⟩, ⟨by simp [said, hz.inLen], ho.1⟩, rfl, rfl, rfl, by rw [← htx]; exact ho.2⟩
    have hl := hz.inLen
    rw [hb] at hl
    simp only [said]
    rw [S.pos, hb]
    cases hline : e.line with
    | nil => rw [hline] at hfit; simp at hfit; omega
    | cons a l =>
      rw [hline] at hl hfit
      cases rest with
      | nil => simp
      | cons x rest => simp at hl hfit; omega

/-- Ctrl+C. -/
theorem ctrlC_run {E : Env} (T : CStrings E) {u : Ush} {e : Editor} {d : NodeId} {p : List Str} (i : List UInt8) (S : Shows u e) (hz : Sized E u)
    (hc : u.current = some d) (hp : (u.nodes d).path = some (render p)) (hg : ∀ c ∈ p, GoodComp c) (hin : 0 < E.inSize) :
    ∃ v, Run E u (cEtx :: i) v i (.inp cEtx :: outs (b!"^C" ++ crlf ++ promptText E p)) ∧ Prompted E u v ∧ v.outBuf = u.outBuf := by
  have hcs : u.current.isSome = true := by rw [hc]; rfl
  have hrc : readChar E ⟨some cEtx, true⟩ u = .ok (writePointerBin (u.emit (.inp cEtx)) (.str b!"^C") 2 .reset, true) := by
    unfold readChar
    simp only
    rw [if_pos trivial, writePointer_str _ _ _ (by decide)]
    rfl
  have r1 : Run E u (cEtx :: i) (said (u.emit (.inp cEtx)) (.str b!"^C") b!"^C" .reset) i (.inp cEtx :: outs b!"^C") :=
    ⟨(drive1_read hcs S.state hrc).trans (Steps.say i _ _ b!"^C" .reset hcs (Readable.str _ _)), by simp [Ush.emit]⟩
  obtain ⟨v, r2, p2, o2⟩ := reset_run T (u := said (u.emit (.inp cEtx)) (.str b!"^C") b!"^C" .reset) i rfl hc hp hg
    ⟨hz.inLen, hz.outLen⟩ hin
  have f : SameFs u (said (u.emit (.inp cEtx)) (.str b!"^C") b!"^C" .reset) := ⟨rfl, rfl, rfl, rfl⟩
  exact ⟨v, (r1.trans r2).cast (by simp [outs]), ⟨p2.shows, f.trans p2.fs, p2.sized⟩, o2⟩

/-- Any number of keys. -/
theorem keys_run {E : Env} (hout : 4 ≤ E.outSize) (i : List UInt8) : ∀ (cs : Str) (u : Ush) (e : Editor), Shows u e → Sized E u →
    u.current.isSome = true → e.takesAll E.inSize cs = true →
    ∃ v, Run E u (cs ++ i) v i (e.keys E.inSize cs).2 ∧ Shows v (e.keys E.inSize cs).1 ∧ SameFs u v ∧ Sized E v := by
  intro cs
  induction cs with
  | nil => intro u e S hz hc _; exact ⟨u, Run.refl E u i, S, SameFs.refl u, hz⟩
  | cons c cs ih =>
    intro u e S hz hc ht
    simp only [Editor.takesAll, Bool.and_eq_true] at ht
    obtain ⟨v, r1, S1, f1, z1⟩ := key_run c (cs ++ i) S hz hc hout ht.1
    obtain ⟨w, r2, S2, f2, z2⟩ := ih v _ S1 z1 (by rw [f1.current]; exact hc) ht.2
    exact ⟨w, (r1.trans r2).cast (by simp [Editor.keys]), S2, f1.trans f2, z2⟩

end Ush
