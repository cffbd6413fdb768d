import Verif.Proof.Effort
import Verif.Proof.Log
import Verif.Spec.Width
/-!
# The counters stay small
-/
namespace Ush
open Spec

/-- Bounds that every step keeps. -/
structure SlimAt (E : Env) (B i o a e p z : Nat) (w : Ptr) (x t g d c s k q : Nat) (n : NodeId → Node) : Prop where
  inPos : i ≤ E.inSize
  outPos : o ≤ E.inSize
  args : a ≤ E.inSize
  esc : e ≤ 2
  wpos : p ≤ z
  wout : w = .outBuf → p ≤ E.outSize
  index : x ≤ 3
  item : t ≤ max (B + E.xxdColumns) E.inSize
  stage : g ≤ 2
  data : d ≤ B
  word : c ≤ E.inSize
  suffix : s ≤ E.inSize
  count : k ≤ 4 * (E.nodeCount + 1) * (B + 1)
  prev : q ≤ 4 * (E.nodeCount + 1) * (B + 1)
  nodes : ∀ i, (n i).files.length ≤ B

abbrev Slim (E : Env) (B : Nat) (u : Ush) : Prop :=
  SlimAt E B u.inPos u.outPos u.argsCount u.ansiEsc u.writePos u.writeSize u.writeBuf u.procIndex u.procItem u.procStage u.procDataSize u.acInput u.acSuffixLen u.acCount u.acPrevCount u.nodes

variable {E : Env} {B : Nat} {u v : Ush}

/-- Show the bounds of a changed state from those of the old one (taken apart in the context). -/
macro "slim" : tactic => `(tactic| (constructor <;> (try dsimp only) <;> first | assumption | omega | (intro _; omega)))

theorem Slim.bin (S : Slim E B u) (p : Ptr) (n : Nat) (nx : St) : Slim E B (writePointerBin u p n nx) :=
  { S with wpos := Nat.zero_le _, wout := fun _ => Nat.zero_le _ }

theorem Slim.ptr (S : Slim E B u) {p : Ptr} {nx : St} (h : writePointer u p nx = .ok v) : Slim E B v := by
  unfold writePointer at h
  mgo h
  cases h
  exact S.bin _ _ _

theorem wr_lt {b c : List UInt8} {i : Nat} {x : UInt8} (h : wr b i x = .ok c) : i < b.length ∧ c.length = b.length := by
  unfold wr at h
  split at h
  · cases h; exact ⟨by assumption, by simp⟩
  · cases h

theorem Slim.printfError (S : Slim E B u) {m : Str} (hb : u.writeBuf = .outBuf) (h : printfError E u m = .ok v) : Slim E B v := by
  unfold Ush.printfError at h
  have := S.wpos
  have := S.wout hb
  mgo h
  · cases h; exact { S with wpos := by show u.writePos ≤ u.writeSize + _; omega }
  · cases h; exact { S with wpos := this }

theorem Slim.printf (S : Slim E B u) {f : Fmt} (h : ushPrintf E u f = .ok v) : Slim E B v := by
  unfold ushPrintf at h
  obtain ⟨u1, h1, h⟩ := M.bind_eq_ok.mp h
  have e1 : Slim E B u1 ∧ u1.writeBuf = .outBuf := by
    split at h1
    · obtain ⟨o, _, h1⟩ := M.bind_eq_ok.mp h1
      refine ⟨Slim.ptr (u := { u with outBuf := o }) S h1, ?_⟩
      unfold writePointer at h1
      mgo h1
      cases h1; rfl
    · next hb => cases h1; exact ⟨S, by simpa using hb⟩
  obtain ⟨S1, b1⟩ := e1
  obtain ⟨_, _, h⟩ := M.bind_eq_ok.mp h
  obtain ⟨_, _, h⟩ := M.bind_eq_ok.mp h
  obtain ⟨n, _, h⟩ := M.bind_eq_ok.mp h
  have S2 : ∀ o, Slim E B { u1 with outBuf := o, writeSize := u1.writeSize + n } := fun o =>
    { S1 with wpos := Nat.le_trans S1.wpos (Nat.le_add_right _ _) }
  split at h
  · exact (S2 _).printfError b1 h
  · split at h
    · exact (S2 _).printfError b1 h
    · cases h; exact S2 _

/-- Only the links of a node object change, or its descriptors become `fs`. -/
theorem files_setNode {nodes : NodeId → Node} (h : ∀ i, (nodes i).files.length ≤ B) {n : NodeId} {x : Node} (hx : x.files.length ≤ B) :
    ∀ i, (setNode nodes n x i).files.length ≤ B := by
  intro i
  unfold setNode
  split
  · exact hx
  · exact h i

theorem Slim.mount (S : Slim E B u) {p : Str} {i : NodeId} {fs : List FileDesc} {r : Ush × Status} (hf : fs.length ≤ B)
    (h : nodeMount E u p i fs = .ok r) : Slim E B r.1 := by
  have h0 : ∀ j, (setNode u.nodes i { u.nodes i with files := fs, path := some p } j).files.length ≤ B := files_setNode S.nodes hf
  unfold nodeMount at h
  mgo h <;> cases h
  · exact { S with nodes := h0 }
  · refine { S with nodes := ?_ }
    have h1 := files_setNode h0 (n := i) (x := { setNode u.nodes i { u.nodes i with files := fs, path := some p } i with next := (setNode u.nodes i { u.nodes i with files := fs, path := some p } ‹NodeId›).children }) (h0 _)
    have h2 := files_setNode h1 (n := ‹NodeId›) (x := { setNode (setNode u.nodes i { u.nodes i with files := fs, path := some p }) i { setNode u.nodes i { u.nodes i with files := fs, path := some p } i with next := (setNode u.nodes i { u.nodes i with files := fs, path := some p } ‹NodeId›).children } ‹NodeId› with children := some i }) (h1 _)
    exact files_setNode h2 (h2 _)
  · exact { S with nodes := files_setNode h0 (h0 _) }
  · exact { S with nodes := h0 }

theorem Slim.unmount (S : Slim E B u) {p : Str} {r : Ush × Status} (h : nodeUnmount E u p = .ok r) : Slim E B r.1 := by
  unfold nodeUnmount at h
  mgo h <;> cases h <;> first | exact S | exact { S with nodes := files_setNode S.nodes (S.nodes _) }

theorem Slim.cd (S : Slim E B u) {p : Str} {r : Ush × Status} (h : setCurrentDir E u p = .ok r) : Slim E B r.1 := by
  unfold setCurrentDir at h
  mgo h <;> cases h <;> exact S

theorem Slim.add (S : Slim E B u) {i : NodeId} {fs : List FileDesc} {r : Ush × Status} (hf : fs.length ≤ B)
    (h : commandsAdd u i fs = .ok r) : Slim E B r.1 := by
  unfold commandsAdd at h
  mgo h; cases h
  exact { S with nodes := files_setNode S.nodes hf }

theorem Slim.remove (S : Slim E B u) {i : NodeId} {r : Ush × Status} (h : commandsRemove E u i = .ok r) : Slim E B r.1 := by
  unfold commandsRemove at h
  mgo h <;> cases h <;> first | exact S | exact { S with nodes := files_setNode S.nodes (S.nodes _) }

theorem Slim.api (S : Slim E B u) {a : Api} (ha : Api.Small B a) (h : runApi E u a = .ok v) : Slim E B v := by
  cases a with
  | print p => exact S.ptr h
  | printNoNewline p => exact S.ptr h
  | printStatus s => exact S.ptr h
  | printf f => exact S.printf h
  | flush => exact S.ptr h
  | reset => exact Slim.ptr (u := { u with current := u.root }) S h
  | mount p i fs =>
    obtain ⟨r, h1, h⟩ := M.bind_eq_ok.mp h
    cases h; exact S.mount ha h1
  | unmount p =>
    obtain ⟨r, h1, h⟩ := M.bind_eq_ok.mp h
    cases h; exact S.unmount h1
  | setCurrentDir p =>
    obtain ⟨r, h1, h⟩ := M.bind_eq_ok.mp h
    cases h; exact S.cd h1
  | commandsAdd i fs =>
    obtain ⟨r, h1, h⟩ := M.bind_eq_ok.mp h
    cases h; exact S.add ha h1
  | commandsRemove i =>
    obtain ⟨r, h1, h⟩ := M.bind_eq_ok.mp h
    cases h; exact S.remove h1
  | processStart f => cases h; exact S
  | setState s => cases h; exact S
  | fillOut s =>
    obtain ⟨r, h1, h⟩ := M.bind_eq_ok.mp h
    cases h; exact S

theorem Slim.apis : ∀ (as : List Api) {u v : Ush}, Slim E B u → (∀ a ∈ as, Api.Small B a) → runApis E u as = .ok v → Slim E B v := by
  intro as
  induction as with
  | nil => intro u v S _ h; cases h; exact S
  | cons a as ih =>
    intro u v S ha h
    obtain ⟨w, h1, h2⟩ := M.bind_eq_ok.mp h
    exact ih (S.api (ha a (by simp)) h1) (fun b hb => ha b (by simp [hb])) h2

/-! ## Built-in commands -/

theorem Slim.cat (S : Slim E B u) (h0 : 0 < E.inSize) (h : catService E u = .ok v) : Slim E B v := by
  have := S.args
  unfold catService at h
  split at h
  · cases h; exact { S with item := by show 1 ≤ _; omega }
  · split at h
    · cases h; exact S
    · next hi =>
      obtain ⟨_, _, h⟩ := M.bind_eq_ok.mp h
      obtain ⟨_, _, h⟩ := M.bind_eq_ok.mp h
      obtain ⟨_, _, h⟩ := M.bind_eq_ok.mp h
      obtain ⟨r, _, h⟩ := M.bind_eq_ok.mp h
      cases r with
      | none => cases h
      | some f =>
        simp only at h
        cases hg : f.getData with
        | none => rw [hg] at h; cases h
        | some id =>
          rw [hg] at h
          simp only [callGet] at h
          cases hd : E.userGet id u with
          | none => rw [hd] at h; cases h
          | some d =>
            rw [hd] at h; cases h
            exact { Slim.bin S (.data d) d.length u.state with item := by show u.procItem + 1 ≤ _; omega }
  · cases h; exact S
  · cases h; exact S

theorem Slim.help (S : Slim E B u) (h : helpService E u = .ok v) : Slim E B v := by
  unfold helpService at h
  obtain ⟨s1, s2, s3, s4, s5, s6, s7, s8, s9, s10, s11, s12, s13, s14, s15⟩ := id S
  have hB : ∀ n, ¬ u.procItem ≥ (u.nodes n).files.length → u.procItem + 1 ≤ B := fun n h => by have := s15 n; omega
  mgo h
  all_goals first
    | (cases h; exact S)
    | (cases h; slim)
    | (refine Slim.ptr ?_ h; slim)
    | (have := hB _ ‹_›; refine Slim.ptr ?_ h; slim)

theorem Slim.ls (S : Slim E B u) (h : lsService E u = .ok v) : Slim E B v := by
  unfold lsService at h
  obtain ⟨s1, s2, s3, s4, s5, s6, s7, s8, s9, s10, s11, s12, s13, s14, s15⟩ := id S
  have hB : ∀ n, ¬ u.procItem ≥ (u.nodes n).files.length → u.procItem + 1 ≤ B := fun n h => by have := s15 n; omega
  mgo h
  all_goals first
    | (cases h; exact S)
    | (cases h; slim)
    | (refine Slim.ptr ?_ h; slim)
    | (have := hB _ ‹_›; refine Slim.ptr ?_ h; slim)
    | (cases h; rename_i hw; have Z := S.ptr hw; obtain ⟨s1, s2, s3, s4, s5, s6, s7, s8, s9, s10, s11, s12, s13, s14, s15⟩ := Z; slim)

theorem xxdTextLoop_item : ∀ (n off : Nat) {b : List UInt8} {r : List UInt8 × Nat}, xxdTextLoop u n off b = .ok r → r.2 = off + n := by
  intro n
  induction n with
  | zero => intro off b r h; cases h; rfl
  | succ n ih =>
    intro off b r h
    unfold xxdTextLoop at h
    obtain ⟨_, _, h⟩ := M.bind_eq_ok.mp h
    rw [ih _ h]; omega

theorem Slim.xxd (S : Slim E B u) (hx : u.state = .processService → u.procIndex = 2 → u.procItem ≤ u.procDataSize) (h : xxdService E u = .ok v) :
    Slim E B v := by
  unfold xxdService at h
  obtain ⟨s1, s2, s3, s4, s5, s6, s7, s8, s9, s10, s11, s12, s13, s14, s15⟩ := id S
  split at h
  · cases h; slim
  · next hs =>
    split at h
    · obtain ⟨_, _, h⟩ := M.bind_eq_ok.mp h
      refine Slim.ptr ?_ h; slim
    · obtain ⟨_, _, h⟩ := M.bind_eq_ok.mp h
      obtain ⟨_, _, h⟩ := M.bind_eq_ok.mp h
      obtain ⟨_, _, h⟩ := M.bind_eq_ok.mp h
      refine Slim.ptr ?_ h; slim
    · next hi =>
      obtain ⟨_, _, h⟩ := M.bind_eq_ok.mp h
      obtain ⟨r, hr, h⟩ := M.bind_eq_ok.mp h
      have := xxdTextLoop_item _ _ hr
      have := hx hs hi
      refine Slim.ptr ?_ h; slim
    · split at h
      · exact S.ptr h
      · refine Slim.ptr ?_ h; slim
    · cases h
  · cases h; exact S
  · cases h; exact S

/-! ## The parser -/

theorem Slim.proc (Z : Env.Small E B) (S : Slim E B u) (h0 : 0 < E.inSize)
    (hx : ∀ f, u.procFile = some f → f.process = some (.builtin .xxd) → u.state = .processService → u.procIndex = 2 → u.procItem ≤ u.procDataSize)
    (h : processCall E u = .ok v) : Slim E B v := by
  unfold processCall at h
  split at h
  · cases h
  · next f hf =>
    split at h
    · cases h; exact S
    · exact S.help h
    · exact S.ls h
    · exact S.cat h0 h
    · next hp => exact S.xxd (hx f hf hp) h
    · cases h
    · exact Slim.apis _ (u := u.emit _) S (Z.proc _ _) h

theorem Slim.call (Z : Env.Small E B) (S : Slim E B u) {f : FileDesc} {cb : Cb} {argv : List Nat} {strs : List Str}
    (h : callExec E u f cb argv strs = .ok v) : Slim E B v := by
  unfold callExec at h
  have S : Slim E B (u.emit (.exec cb strs)) := S
  simp only at h
  generalize u.emit (.exec cb strs) = w at h S
  obtain ⟨s1, s2, s3, s4, s5, s6, s7, s8, s9, s10, s11, s12, s13, s14, s15⟩ := id S
  split at h
  · unfold helpCallback at h
    mgo h
    all_goals first
      | (cases h; exact { S with index := Nat.zero_le _, item := Nat.zero_le _ })
      | exact S.ptr h
  · unfold lsCallback at h
    mgo h
    all_goals first
      | (cases h; exact S)
      | exact S.ptr h
      | exact Slim.ptr (u := { w with procNode := none }) S h
  · unfold cdCallback at h
    split at h
    · exact S.ptr h
    · obtain ⟨_, _, h⟩ := M.bind_eq_ok.mp h
      obtain ⟨_, _, h⟩ := M.bind_eq_ok.mp h
      obtain ⟨r, hr, h⟩ := M.bind_eq_ok.mp h
      have := S.cd hr
      simp only at h
      split at h
      · exact this.ptr h
      · cases h; exact this
  · unfold pwdCallback at h
    mgo h
    all_goals exact S.ptr h
  · unfold catCallback at h
    mgo h
    all_goals first
      | (cases h; exact S)
      | exact S.ptr h
  · unfold xxdCallback at h
    split at h
    · exact S.ptr h
    · obtain ⟨_, _, h⟩ := M.bind_eq_ok.mp h
      obtain ⟨_, _, h⟩ := M.bind_eq_ok.mp h
      obtain ⟨r, _, h⟩ := M.bind_eq_ok.mp h
      cases r with
      | none => exact S.ptr h
      | some f =>
        simp only at h
        cases hg : f.getData with
        | none => rw [hg] at h; exact S.ptr h
        | some id =>
          rw [hg] at h
          simp only [callGet] at h
          cases hd : E.userGet id w with
          | none => rw [hd] at h; cases h; exact { S with data := Nat.zero_le _ }
          | some d => rw [hd] at h; cases h; exact { S with data := Z.get _ _ _ hd }
  · have hdec : ∀ {a : List Nat} {r : Ush × Nat × Nat}, echoDecode w a = .ok r → Slim E B r.1 := by
      intro a r hr
      unfold echoDecode at hr
      mgo hr
      cases hr; exact S
    unfold echoCallback at h
    split at h
    · obtain ⟨_, _, h⟩ := M.bind_eq_ok.mp h
      obtain ⟨_, _, h⟩ := M.bind_eq_ok.mp h
      split at h
      · exact S.ptr h
      · obtain ⟨_, _, h⟩ := M.bind_eq_ok.mp h
        obtain ⟨_, _, h⟩ := M.bind_eq_ok.mp h
        obtain ⟨r, _, h⟩ := M.bind_eq_ok.mp h
        cases r with
        | none => exact S.ptr h
        | some f =>
          simp only at h
          cases hg : f.setData with
          | none => rw [hg] at h; exact S.ptr h
          | some id =>
            rw [hg] at h
            simp only at h
            obtain ⟨r, hr, h⟩ := M.bind_eq_ok.mp h
            unfold callSet at h
            exact Slim.apis _ (u := r.1.emit _) (hdec hr) (Z.set _ _ _) h
    · obtain ⟨r, hr, h⟩ := M.bind_eq_ok.mp h
      exact (hdec hr).ptr h
    · cases h; exact S
    · exact S.ptr h
  · exact Slim.apis _ S (Z.exec _ _ _) h

theorem Slim.finish (Z : Env.Small E B) (S : Slim E B u) (h : parseFinish E u = .ok v) : Slim E B v := by
  unfold parseFinish at h
  obtain ⟨argv, _, h⟩ := M.bind_eq_ok.mp h
  split at h
  · cases h; exact S
  · obtain ⟨strs, _, h⟩ := M.bind_eq_ok.mp h
    obtain ⟨w, hw, h⟩ := M.bind_eq_ok.mp h
    have S : Slim E B w := by
      unfold callHook at hw
      split at hw
      · cases hw; exact S
      · next hk _ hh => exact Slim.apis _ (u := u.emit _) S (Z.hook _ hh _ _) hw
    obtain ⟨_, _, h⟩ := M.bind_eq_ok.mp h
    obtain ⟨_, _, h⟩ := M.bind_eq_ok.mp h
    obtain ⟨r, _, h⟩ := M.bind_eq_ok.mp h
    cases r with
    | none => exact S.ptr h
    | some f =>
      simp only at h
      cases he : f.exec with
      | none => rw [he] at h; exact S.ptr h
      | some cb => rw [he] at h; exact S.call Z h

theorem Slim.put (S : Slim E B u) (hz : u.inBuf.length = E.inSize) {c : UInt8} (h : putOut u c = .ok v) :
    Slim E B v ∧ v.inBuf.length = E.inSize ∧ v.argsCount = u.argsCount := by
  unfold putOut at h
  obtain ⟨b, h1, h⟩ := M.bind_eq_ok.mp h
  obtain ⟨h2, h3⟩ := wr_lt h1
  cases h
  exact ⟨{ S with outPos := by show u.outPos + 1 ≤ _; omega }, h3.trans hz, rfl⟩

theorem Slim.escaped (S : Slim E B u) (hz : u.inBuf.length = E.inSize) {c : UInt8} (h : parseEscaped u c = .ok v) : Slim E B v := by
  unfold parseEscaped at h
  obtain ⟨a, h1, h⟩ := M.bind_eq_ok.mp h
  obtain ⟨b, h2, h⟩ := M.bind_eq_ok.mp h
  cases h
  have : Slim E B a ∧ a.inBuf.length = E.inSize := by
    split at h1
    · exact ⟨(S.put hz h1).1, (S.put hz h1).2.1⟩
    · cases h1; exact ⟨S, hz⟩
  exact (this.1.put this.2 h2).1

theorem Slim.std (S : Slim E B u) (hz : u.inBuf.length = E.inSize) (ha : u.state = .parseSearchArg → u.argsCount < E.inSize) {c : UInt8}
    (h : parseCharStandard u c = .ok v) : Slim E B v := by
  unfold parseCharStandard at h
  split at h
  · next hs =>
    have ha := ha hs
    mgo h
    · cases h; exact S
    · cases h; exact { S with args := ha }
    · cases h; exact { S with args := ha }
    · next hw =>
      cases h
      obtain ⟨S1, -, e⟩ := S.put hz hw
      exact { S1 with args := by show _ + 1 ≤ _; omega }
  · mgo h
    · exact S.escaped hz h
    · cases h; exact S
    · cases h; exact S
    · exact (S.put hz h).1
  · mgo h
    · exact S.escaped hz h
    · next hw => cases h; exact (S.put hz hw).1
    · cases h; exact S
    · cases h; exact S
    · exact (S.put hz h).1
  · cases h

theorem rd_lt {b : List UInt8} {i : Nat} {x : UInt8} (h : rd b i = .ok x) : i < b.length := by
  unfold rd at h
  split at h
  · next hh => exact (List.getElem?_eq_some_iff.mp hh).1
  · cases h

theorem Slim.parse (Z : Env.Small E B) (S : Slim E B u) (hz : u.inBuf.length = E.inSize) (ha : u.state = .parseSearchArg → u.argsCount < E.inSize)
    (h : parseChar E u = .ok v) : Slim E B v := by
  unfold parseChar at h
  obtain ⟨ch, h1, h⟩ := M.bind_eq_ok.mp h
  have hp := rd_lt h1
  have S1 : Slim E B { u with inPos := u.inPos + 1 } := { S with inPos := by show u.inPos + 1 ≤ _; omega }
  simp only at h
  split at h
  · obtain ⟨w, hw, h⟩ := M.bind_eq_ok.mp h
    exact Slim.finish (u := { w with state := .resetPrompt }) Z (S1.put hz hw).1 h
  · exact S1.std hz ha h

/-! ## TAB -/

theorem lastArgLoop_le (s : Str) : ∀ n, lastArgLoop s n ≤ s.length := by
  intro n
  induction n with
  | zero => exact Nat.zero_le _
  | succ n ih =>
    unfold lastArgLoop
    split
    · next h => have := (List.getElem?_eq_some_iff.mp h).1; omega
    · exact ih

theorem lastArgOff_le (s : Str) : lastArgOff s ≤ s.length := by
  unfold lastArgOff
  split
  · exact Nat.zero_le _
  · split
    · exact Nat.le_refl _
    · exact lastArgLoop_le _ _

theorem cstrAt_len {b : List UInt8} {off : Nat} {s : Str} (h : cstrAt b off = .ok s) : off + s.length < b.length := by
  obtain ⟨-, r, h5⟩ := cstrAt_eq_ok h
  have := congrArg List.length h5
  simp at this
  omega

theorem strlenAt_len {b : List UInt8} {off n : Nat} (h : strlenAt b off = .ok n) : off + n < b.length := by
  unfold strlenAt at h
  obtain ⟨s, h3, h4⟩ := M.bind_eq_ok.mp h
  cases h4
  exact cstrAt_len h3

theorem Slim.more (S : Slim E B u) (hz : u.inBuf.length = E.inSize) (hs : u.acSuffixLen < E.inSize) (h : acOptimizeContinue E u = .ok v) : Slim E B v := by
  obtain ⟨s1, s2, s3, s4, s5, s6, s7, s8, s9, s10, s11, s12, s13, s14, s15⟩ := id S
  unfold acOptimizeContinue at h
  obtain ⟨pos, _, h⟩ := M.bind_eq_ok.mp h
  simp only at h
  split at h
  · cases h
  · split at h
    · cases h; slim
    · obtain ⟨_, _, h⟩ := M.bind_eq_ok.mp h
      obtain ⟨b, h1, h⟩ := M.bind_eq_ok.mp h
      obtain ⟨b2, h2, h⟩ := M.bind_eq_ok.mp h
      obtain ⟨l1, l2⟩ := wr_lt h1
      obtain ⟨l3, l4⟩ := wr_lt h2
      cases h
      unfold acPrepareCandidates
      slim

theorem Slim.cands (S : Slim E B u) (hs : isScan u.state = true) (hv : (∀ i, (v.nodes i).files.length ≤ B) → isScan (next v) = true → v.acCount ≤ 4 * (E.nodeCount + 1) * (B + 1)) (h : acCandidatesProcess E u = .ok v) : Slim E B v := by
  obtain ⟨s1, s2, s3, s4, s5, s6, s7, s8, s9, s10, s11, s12, s13, s14, s15⟩ := id S
  unfold acCandidatesProcess at h
  split at h
  · unfold acCheckForFinish at h
    mgo h <;> (cases h; slim)
  · next n hn =>
    obtain ⟨r, h1, h⟩ := M.bind_eq_ok.mp h
    have e1 : Slim E B r.1 ∧ (r.2 = false → r.1 = u) := by
      unfold acCheckForNext at h1
      mgo h1 <;> (cases h1; exact ⟨by first | exact S | slim, by simp⟩)
    obtain ⟨S1, e1⟩ := e1
    simp only at h
    split at h
    · cases h; exact S1
    · next hr =>
      rw [e1 (by simpa using hr)] at h
      clear S1 e1
      obtain ⟨q, h2, h⟩ := M.bind_eq_ok.mp h
      have hB : ∀ f, (u.nodes n).files[u.procItem]? = some f → u.procItem + 1 ≤ B := fun f h => by
        have := (List.getElem?_eq_some_iff.mp h).1
        have := s15 n
        omega
      have e2 : Slim E B q.1 ∧ (q.2.2 = false → (u.procStage ≠ 2 → q.1.procItem + 1 ≤ B) ∧ q.1.procStage = u.procStage ∧ q.1.state = u.state) := by
        unfold acFilePrepare at h2
        obtain ⟨_, _, h2⟩ := M.bind_eq_ok.mp h2
        split at h2
        · split at h2
          · cases h2
          · next hf =>
            have := hB _ hf
            split at h2 <;> cases h2
            · exact ⟨by slim, by simp⟩
            · exact ⟨S, fun _ => ⟨fun _ => this, rfl, rfl⟩⟩
        · split at h2
          · cases h2
          · next hf =>
            have := hB _ hf
            split at h2 <;> cases h2
            · exact ⟨by slim, by simp⟩
            · exact ⟨S, fun _ => ⟨fun _ => this, rfl, rfl⟩⟩
        · next hst =>
          split at h2
          · cases h2
          · simp only at h2
            split at h2 <;> cases h2
            · exact ⟨by slim, by simp⟩
            · exact ⟨S, fun _ => ⟨fun h => absurd hst h, rfl, rfl⟩⟩
        · cases h2
      obtain ⟨S2, e2⟩ := e2
      split at h
      · cases h; exact S2
      · next hq =>
        obtain ⟨i1, i2, i3⟩ := e2 (by simpa using hq)
        generalize q.1 = w at *
        obtain ⟨t1, t2, t3, t4, t5, t6, t7, t8, t9, t10, t11, t12, t13, t14, t15⟩ := id S2
        unfold acFileIndex at h
        split at h
        · obtain ⟨nm, h3, h⟩ := M.bind_eq_ok.mp h
          obtain ⟨x, h4, h⟩ := M.bind_eq_ok.mp h
          cases h
          have S3 : Slim E B x ∧ next x = u.state := by
            split at h4
            · refine ⟨S2.ptr h4, ?_⟩
              unfold writePointer at h4
              mgo h4
              cases h4; exact i3
            · cases h4
              exact ⟨S2, (next_of i3 (isScan.write hs))⟩
          refine { S3.1 with index := by show 1 ≤ 3; decide, count := hv S3.1.nodes ?_ }
          show isScan (next x) = true
          rw [S3.2]; exact hs
        · obtain ⟨x, h4, h⟩ := M.bind_eq_ok.mp h
          cases h
          have S3 : Slim E B x := by
            split at h4
            · exact S2.ptr h4
            · cases h4; exact S2
          exact { S3 with index := by show 2 ≤ 3; decide }
        · split at h
          · next hst => cases h; have := i1 (by omega); slim
          · next hst => cases h; have := i1 (by omega); slim
          · cases h; slim
          · cases h
        · cases h

theorem Slim.done (S : Slim E B u) (hz : u.inBuf.length = E.inSize) (h0 : 0 < E.inSize) (hs : u.acPrevState = .acCandOptimise → u.acSuffixLen < E.inSize)
    (h : acCandidatesFinish E u = .ok v) : Slim E B v := by
  obtain ⟨s1, s2, s3, s4, s5, s6, s7, s8, s9, s10, s11, s12, s13, s14, s15⟩ := id S
  unfold acCandidatesFinish at h
  split at h
  · cases h; exact S
  · split at h
    · cases h; exact S
    · obtain ⟨_, _, h⟩ := M.bind_eq_ok.mp h
      split at h
      · cases h
      · obtain ⟨b, h1, h⟩ := M.bind_eq_ok.mp h
        obtain ⟨p, h2, h⟩ := M.bind_eq_ok.mp h
        have := strlenAt_len h2
        have := storeStr_length h1
        refine Slim.ptr ?_ h
        slim
    · exact Slim.more (u := { u with acSuffixLen := 0 }) { S with suffix := Nat.zero_le _ } hz h0 h
  · next hp =>
    split at h
    · obtain ⟨b, h1, h⟩ := M.bind_eq_ok.mp h
      obtain ⟨l1, l2⟩ := wr_lt h1
      split at h
      · cases h
      · cases h; slim
    · exact S.more hz (hs hp) h
  · cases h

/-! ## Service calls -/

/-- What a step needs to know about the state. -/
structure Ready (E : Env) (u : Ush) : Prop where
  size : u.inBuf.length = E.inSize
  out : u.outBuf.length = E.outSize
  pos : 0 < E.inSize
  xxd : ∀ f, u.procFile = some f → f.process = some (.builtin .xxd) → u.state = .processService → u.procIndex = 2 → u.procItem ≤ u.procDataSize
  args : u.state = .parseSearchArg → u.argsCount < E.inSize
  suffix : u.state = .acCandFinish → u.acPrevState = .acCandOptimise → u.acSuffixLen < E.inSize

theorem Slim.inner (Z : Env.Small E B) (S : Slim E B u) (R : Ready E u) (hv : (∀ i, (v.nodes i).files.length ≤ B) → isScan (next v) = true → v.acCount ≤ 4 * (E.nodeCount + 1) * (B + 1))
    (h : innerStep E u = .ok v) : Slim E B v := by
  have hz := R.size
  obtain ⟨s1, s2, s3, s4, s5, s6, s7, s8, s9, s10, s11, s12, s13, s14, s15⟩ := id S
  unfold innerStep at h
  split at h
  all_goals first
    | (cases h; exact S)
    | exact S.ptr h
    | exact S.parse Z hz R.args h
    | exact S.proc Z R.pos R.xxd h
    | (refine S.cands ?_ hv h; next hs => rw [hs]; rfl)
    | skip
  · unfold promptPathStep at h
    mgo h
    all_goals exact S.ptr h
  · unfold readStart at h
    mgo h
    cases h; slim
  · cases h
    unfold parseStart
    slim
  · unfold acStatePrepare at h
    obtain ⟨s, h1, h⟩ := M.bind_eq_ok.mp h
    have := cstrAt_len h1
    have := lastArgOff_le s
    cases h; slim
  · cases h
    unfold acCandidatesStart acPrepareCandidates
    slim
  · next hs => exact S.done hz R.pos (R.suffix hs) h
  · unfold acRecallSuffix at h
    obtain ⟨_, _, h⟩ := M.bind_eq_ok.mp h
    split at h
    · cases h
    · simp only at h
      obtain ⟨_, _, h⟩ := M.bind_eq_ok.mp h
      split at h
      · exact S.ptr h
      · refine Slim.ptr ?_ h
        unfold acPrepareCandidates
        slim

theorem Slim.echo (S : Slim E B u) {c : UInt8} (h : readEcho u c = .ok v) : Slim E B v := by
  unfold readEcho at h
  obtain ⟨o, _, h⟩ := M.bind_eq_ok.mp h
  exact Slim.ptr (u := { u with outBuf := o }) S h

theorem Slim.esc' (S : Slim E B u) (hz : u.inBuf.length = E.inSize) {c : UInt8} {r : Ush × Bool} (h : readCharByEscape E u c = .ok r) : Slim E B r.1 := by
  obtain ⟨s1, s2, s3, s4, s5, s6, s7, s8, s9, s10, s11, s12, s13, s14, s15⟩ := id S
  unfold readCharByEscape at h
  split at h
  · obtain ⟨b, h1, h⟩ := M.bind_eq_ok.mp h
    obtain ⟨b2, h2, h⟩ := M.bind_eq_ok.mp h
    obtain ⟨l1, l2⟩ := wr_lt h1
    obtain ⟨l3, l4⟩ := wr_lt h2
    cases h; slim
  · mgo h <;> cases h <;> first | exact S | slim

theorem Slim.read (S : Slim E B u) (hz : u.inBuf.length = E.inSize) {io : Io} {r : Ush × Bool} (h : readChar E io u = .ok r) : Slim E B r.1 := by
  obtain ⟨s1, s2, s3, s4, s5, s6, s7, s8, s9, s10, s11, s12, s13, s14, s15⟩ := id S
  unfold readChar at h
  cases hrd : io.rd with
  | none => rw [hrd] at h; cases h; exact S
  | some ch =>
    rw [hrd] at h
    simp only at h
    obtain ⟨p, h1, h⟩ := M.bind_eq_ok.mp h
    have e1 : Slim E B p.1 := by
      split at h1
      · obtain ⟨w, hw, h1⟩ := M.bind_eq_ok.mp h1
        cases h1; exact Slim.ptr (u := u.emit _) S hw
      · split at h1
        · split at h1
          · obtain ⟨w, hw, h1⟩ := M.bind_eq_ok.mp h1
            cases h1
            exact { S with inPos := Nat.le_trans (Nat.sub_le _ _) s1 }
          · cases h1; exact S
        · split at h1
          · cases h1; cases E.autocomplete <;> exact S
          · split at h1
            · cases h1; exact { S with esc := by show 1 ≤ 2; decide }
            · exact Slim.esc' (u := u.emit _) S hz h1
    obtain ⟨w, hw, h⟩ := M.bind_eq_ok.mp h
    cases h
    split at hw
    · exact e1.echo hw
    · cases hw; exact e1

theorem Slim.write (S : Slim E B u) (hz : u.outBuf.length = E.outSize) {io : Io} (h : writeChar io u = .ok v) : Slim E B v := by
  obtain ⟨s1, s2, s3, s4, s5, s6, s7, s8, s9, s10, s11, s12, s13, s14, s15⟩ := id S
  unfold writeChar at h
  split at h
  · cases h; exact S
  · obtain ⟨c, h1, h⟩ := M.bind_eq_ok.mp h
    split at h
    · cases h
      refine { S with wpos := by show u.writePos + 1 ≤ u.writeSize; omega, wout := ?_ }
      intro hb
      have hb : u.writeBuf = .outBuf := hb
      rw [hb] at h1
      have := rd_lt h1
      show u.writePos + 1 ≤ _
      omega
    · cases h; exact S

theorem Slim.service (Z : Env.Small E B) (S : Slim E B u) (R : Ready E u) (hc : u.current.isSome = true) {io : Io} {b : Bool}
    (hv : (∀ i, (v.nodes i).files.length ≤ B) → isScan (next v) = true → v.acCount ≤ 4 * (E.nodeCount + 1) * (B + 1)) (h : service E io u = .ok (v, b)) : Slim E B v := by
  rw [service_eq E io u hc] at h
  split at h
  · exact S.read R.size h
  · next hs =>
    obtain ⟨w, h1, h⟩ := M.bind_eq_ok.mp h
    cases h
    refine S.inner Z R hv ?_
    unfold innerStep
    rw [hs]; exact h1
  · obtain ⟨w, h1, h⟩ := M.bind_eq_ok.mp h
    cases h
    exact S.write R.out h1
  · obtain ⟨w, h1, h⟩ := M.bind_eq_ok.mp h
    cases h
    exact S.inner Z R hv h1

/-! ## Histories -/

variable {L k : Nat} {W : World}

theorem flatMap_length_le {α β : Type} {f : α → List β} : ∀ l : List α, (∀ a ∈ l, (f a).length ≤ B) → (l.flatMap f).length ≤ l.length * B := by
  intro l
  induction l with
  | nil => intro _; simp
  | cons a l ih =>
    intro h
    have h1 := h a (by simp)
    have h2 := ih (fun b hb => h b (by simp [hb]))
    simp only [List.flatMap_cons, List.length_append, List.length_cons, Nat.succ_mul]
    omega

theorem scanCost_small (H : Holds E W u) (hn : ∀ i, (u.nodes i).files.length ≤ B) : scanCost W ≤ 4 * (E.nodeCount + 1) * (B + 1) := by
  have h1 : W.groups.length + W.tree.length ≤ E.nodeCount := by
    have hd : (W.groups.map Group.id ++ W.tree.map Mount.id).Nodup := by
      rw [List.nodup_append]
      refine ⟨H.rep.cmds.nodupId, H.rep.tree.nodupId, ?_⟩
      intro a ha b hb e
      obtain ⟨c, hc, rfl⟩ := List.mem_map.mp ha
      obtain ⟨m, hm, rfl⟩ := List.mem_map.mp hb
      exact H.rep.disj m hm c hc e.symm
    have := nodup_lt_length hd (n := E.nodeCount) (by
      intro i hi
      rcases List.mem_append.mp hi with h | h
      · obtain ⟨c, hc, rfl⟩ := List.mem_map.mp h
        exact H.rep.cmds.idLt c hc
      · obtain ⟨m, hm, rfl⟩ := List.mem_map.mp h
        exact H.rep.tree.idLt m hm)
    simpa using this
  have h2 : W.groups.files.length ≤ W.groups.length * B := flatMap_length_le _ (fun c hc => by
    rw [← H.rep.cmds.files c hc]; exact hn _)
  have h3 : (cwdFiles W).length ≤ B := by
    obtain ⟨m, h0, -, -, -, -, h5⟩ := H.cwd
    unfold cwdFiles
    rw [h0]
    have h6 : (u.nodes m.id).files = m.files := (H.rep.dir h5).files
    show m.files.length ≤ B
    rw [← h6]; exact hn _
  have h4 : W.groups.length * B ≤ E.nodeCount * B := Nat.mul_le_mul_right _ (by omega)
  unfold scanCost
  rw [cost_eq]
  have h5 : 4 * (E.nodeCount + 1) * (B + 1) = 4 * (E.nodeCount * B) + 4 * E.nodeCount + 4 * B + 4 := by
    simp only [Nat.mul_add, Nat.add_mul, Nat.mul_one, Nat.mul_assoc]; omega
  omega

theorem Inv.scanned (I : Inv E L W k v) (hn : ∀ i, (v.nodes i).files.length ≤ B) (hs : isScan (next v) = true) :
    v.acCount ≤ 4 * (E.nodeCount + 1) * (B + 1) := by
  have h1 := scanCost_small I.toHolds hn
  have h2 := I.live
  have key : ∀ c, ScanAt W v c → v.acCount ≤ 4 * (E.nodeCount + 1) * (B + 1) := fun c h => by
    have := h.2.1; omega
  generalize next v = s at hs h2
  cases s <;> try cases hs
  · obtain ⟨x, c, -, -, -, S, -⟩ := h2
    exact key c S
  · obtain ⟨x, c, -, -, -, S, -⟩ := h2
    exact key c S
  · obtain ⟨x, c, -, -, S, -⟩ := h2
    exact key c S

theorem Inv.ready (cfg : Roomy E) (I : Inv E L W k u) : Ready E u := by
  have hz := I.sized.inLen
  refine ⟨hz, I.sized.outLen, by have := cfg.inSize; omega, ?_, ?_, ?_⟩
  · intro f hf hp hs hi
    obtain ⟨g, hg, h⟩ := I.at hs (by decide)
    rw [hf] at hg
    cases hg
    rw [hp] at h
    have h : XxdLive E u k .processService := h
    rcases h.2.2.1 (by omega) with h | h <;> omega
  · intro hs
    have P : ParseOk E L u .parseSearchArg k := I.at hs (by decide)
    obtain ⟨n, c, h1, -, h3, -⟩ := P.line
    have h4 := (List.getElem?_eq_some_iff.mp h3).1
    have h5 := P.args
    rw [if_pos rfl] at h5
    have h6 := List.count_le_length (a := cNul) (l := u.inBuf.take u.outPos)
    rw [List.length_take] at h6
    have h7 := P.out
    omega
  · intro hs hp
    rcases I.at hs (by decide) with ⟨h, -⟩ | ⟨h, -⟩ | ⟨-, ⟨x, T, -, -, h⟩, -⟩
    · rw [hp] at h; cases h
    · rw [hp] at h; cases h
    · have := (T.line (E := E) hz).pos
      have := T.pos
      omega

theorem move_slim (cfg : Roomy E) (H : Behaves E L) (Z : Env.Small E B) (I : Inv E L W k u) (S : Slim E B u) {m : Move} (hm : m.Ok E L u) (hB : m.Small B) :
    ∃ v W' j, run E u m.ops = .ok v ∧ Inv E L W' j v ∧ Slim E B v := by
  cases m with
  | service io =>
    obtain ⟨v, b, W', j, e, i, -⟩ := service_inv cfg H I io hm
    refine ⟨v, W', j, ?_, i, S.service Z (I.ready cfg) I.toHolds.current i.scanned e⟩
    show ((service E io u >>= fun p => (pure p.1 : M Ush)) >>= fun w => run E w []) = _
    rw [e]; rfl
  | calls as =>
    obtain ⟨v, W', j, e, i, -⟩ := calls_inv cfg as.length as W k u (Nat.le_refl _) I hm
    exact ⟨v, W', j, by rw [← e]; exact run_apis E as u, i, Slim.apis as S hB e⟩

theorem legal_slim (cfg : Roomy E) (H : Behaves E L) (Z : Env.Small E B) : ∀ (ms : List Move) {u : Ush} {W : World} {k : Nat}, Inv E L W k u → Slim E B u →
    Legal E L u ms → (∀ m ∈ ms, m.Small B) → ∃ v W' j, run E u (ms.flatMap Move.ops) = .ok v ∧ Inv E L W' j v ∧ Slim E B v := by
  intro ms
  induction ms with
  | nil => intro u W k I S _ _; exact ⟨u, W, k, rfl, I, S⟩
  | cons m ms ih =>
    intro u W k I S hl hB
    obtain ⟨v, W', j, e, i, s⟩ := move_slim cfg H Z I S hl.1 (hB m (by simp))
    obtain ⟨w, W2, j2, e2, i2⟩ := ih i s (hl.2 v e) (fun x hx => hB x (by simp [hx]))
    exact ⟨w, W2, j2, by rw [List.flatMap_cons, run_append, e, M.ok_bind, e2], i2⟩

theorem Slim.blank (inBuf outBuf : List UInt8) : Slim E B (blank inBuf outBuf) := by
  unfold Ush.blank
  constructor <;> first | exact Nat.zero_le _ | exact fun _ => Nat.zero_le _

theorem Slim.init (Z : Env.Small E B) (S : Slim E B u) (h : ushInit E u = .ok v) : Slim E B v := by
  unfold ushInit at h
  obtain ⟨_, _, h⟩ := M.bind_eq_ok.mp h
  obtain ⟨_, _, h⟩ := M.bind_eq_ok.mp h
  obtain ⟨w, h1, h⟩ := M.bind_eq_ok.mp h
  have S1 : Slim E B w := by
    split at h1
    · obtain ⟨r, h2, h1⟩ := M.bind_eq_ok.mp h1
      cases h1
      exact Slim.add (u := { u with root := none }) S Z.table h2
    · cases h1; exact S
  exact Slim.ptr (u := { w with current := w.root }) S1 h

theorem Slim.boot (Z : Env.Small E B) {inBuf outBuf : List UInt8} {os : List FsOp} (hos : ∀ o ∈ os, Api.Small B o.api)
    (h : run E (Ush.blank inBuf outBuf) (steps os) = .ok u) : Slim E B u := by
  have : steps os = .init :: (os.map FsOp.api).map Op.api := by simp [steps]
  rw [this, run, step] at h
  obtain ⟨w, h1, h⟩ := M.bind_eq_ok.mp h
  rw [run_apis] at h
  exact Slim.apis _ (Slim.init Z (Slim.blank _ _) h1) (by simpa using hos) h

theorem Slim.counters (S : Slim E B u) (h : WriteOk E u) : Counters E B u where
  inPos := S.inPos
  outPos := S.outPos
  args := S.args
  esc := S.esc
  writePos := S.wpos
  writeSize := by
    unfold WriteOk at h
    unfold extent
    split at h <;> simp_all; omega
  index := S.index
  stage := S.stage
  item := S.item
  data := S.data
  word := S.word
  suffix := S.suffix
  count := S.count
  prev := S.prev

end Ush
