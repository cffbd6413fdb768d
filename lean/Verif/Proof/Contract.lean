import Verif.Spec.Contract
import Verif.Proof.Log
/-!
# What the application's callbacks can rely on
-/
namespace Ush
open Spec
variable {E : Env} {F : FileDesc → Prop} {u v w : Ush}

/-- Descriptors in the shell, log and input buffer are the same, except for the contents of the buffer. -/
structure Keeps (u v : Ush) : Prop where
  log : v.log = u.log
  files : ∀ n, (v.nodes n).files = (u.nodes n).files
  proc : v.procFile = u.procFile
  len : v.inBuf.length = u.inBuf.length

theorem Keeps.trans (h1 : Keeps u v) (h2 : Keeps v w) : Keeps u w :=
  ⟨h2.log.trans h1.log, fun n => (h2.files n).trans (h1.files n), h2.proc.trans h1.proc, h2.len.trans h1.len⟩

theorem Keeps.refl (u : Ush) : Keeps u u := ⟨rfl, fun _ => rfl, rfl, rfl⟩

/-- The invariant. -/
structure Lawful (E : Env) (F : FileDesc → Prop) (u : Ush) : Prop where
  files : ∀ n, ∀ f ∈ (u.nodes n).files, F f
  proc : ∀ f, u.procFile = some f → F f
  len : u.inBuf.length = E.inSize
  log : ∀ e ∈ u.log, Permitted E F e

theorem Lawful.keep (H : Lawful E F u) (K : Keeps u v) : Lawful E F v :=
  ⟨fun n => by rw [K.files]; exact H.files n, by rw [K.proc]; exact H.proc, K.len.trans H.len, by rw [K.log]; exact H.log⟩

theorem Lawful.emit (H : Lawful E F u) {e : Event} (he : Permitted E F e) : Lawful E F (u.emit e) :=
  ⟨H.files, H.proc, H.len, fun x hx => by
    rcases List.mem_append.mp hx with h | h
    · exact H.log x h
    · rw [List.mem_singleton.mp h]; exact he⟩

theorem Lawful.start (H : Lawful E F u) {f : FileDesc} (hf : F f) : Lawful E F (processStart u f) :=
  ⟨H.files, fun g hg => by cases hg; exact hf, H.len, H.log⟩

theorem writePointer_keeps {p : Ptr} {st : St} (h : writePointer u p st = .ok v) : Keeps u v := by
  unfold writePointer at h
  mgo h
  cases h; exact ⟨rfl, fun _ => rfl, rfl, rfl⟩

theorem printfError_keeps {m : Str} (h : printfError E u m = .ok v) : Keeps u v := by
  unfold printfError at h
  mgo h <;> (cases h; exact ⟨rfl, fun _ => rfl, rfl, rfl⟩)

theorem ushPrintf_keeps {f : Fmt} (h : ushPrintf E u f = .ok v) : Keeps u v := by
  unfold ushPrintf at h
  obtain ⟨u1, h1, h⟩ := M.bind_eq_ok.mp h
  have e1 : Keeps u u1 := by
    split at h1
    · obtain ⟨o, _, h1⟩ := M.bind_eq_ok.mp h1
      have := writePointer_keeps h1
      exact ⟨this.log, this.files, this.proc, this.len⟩
    · cases h1; exact ⟨rfl, fun _ => rfl, rfl, rfl⟩
  obtain ⟨_, _, h⟩ := M.bind_eq_ok.mp h
  obtain ⟨_, _, h⟩ := M.bind_eq_ok.mp h
  obtain ⟨_, _, h⟩ := M.bind_eq_ok.mp h
  split at h
  · have := printfError_keeps h
    exact e1.trans ⟨this.log, this.files, this.proc, this.len⟩
  · split at h
    · have := printfError_keeps h
      exact e1.trans ⟨this.log, this.files, this.proc, this.len⟩
    · cases h; exact e1.trans ⟨rfl, fun _ => rfl, rfl, rfl⟩

theorem setNode_files (ns : NodeId → Node) (i : NodeId) (n : Node) (h : n.files = (ns i).files) (j : NodeId) : (setNode ns i n j).files = (ns j).files := by
  unfold setNode
  split
  · rename_i e; rw [e, h]
  · rfl

theorem nodeUnmount_keeps {p : Str} {r : Ush × Status} (h : nodeUnmount E u p = .ok r) : Keeps u r.1 := by
  unfold nodeUnmount at h
  mgo h
  all_goals
    cases h
    refine ⟨rfl, fun _ => ?_, rfl, rfl⟩
    first
      | rfl
      | (apply setNode_files; rfl)

theorem commandsRemove_keeps {i : NodeId} {r : Ush × Status} (h : commandsRemove E u i = .ok r) : Keeps u r.1 := by
  unfold commandsRemove at h
  mgo h
  all_goals
    cases h
    refine ⟨rfl, fun _ => ?_, rfl, rfl⟩
    first
      | rfl
      | (apply setNode_files; rfl)

theorem setCurrentDir_keeps {p : Str} {r : Ush × Status} (h : setCurrentDir E u p = .ok r) : Keeps u r.1 := by
  unfold setCurrentDir at h
  mgo h <;> (cases h; exact ⟨rfl, fun _ => rfl, rfl, rfl⟩)

theorem Lawful.nodes (H : Lawful E F u) {fs : List FileDesc} (hf : ∀ f ∈ fs, F f) (i : NodeId) (n : Node) (hn : n.files = fs) :
    Lawful E F { u with nodes := setNode u.nodes i n } :=
  ⟨fun j f hfm => by
    simp only [setNode] at hfm
    split at hfm
    · rw [hn] at hfm; exact hf f hfm
    · exact H.files j f hfm, H.proc, H.len, H.log⟩

theorem nodeMount_lawful (H : Lawful E F u) {p : Str} {i : NodeId} {fs : List FileDesc} (hf : ∀ f ∈ fs, F f) {r : Ush × Status}
    (h : nodeMount E u p i fs = .ok r) : Lawful E F r.1 := by
  have H1 := H.nodes hf i { u.nodes i with files := fs, path := some p } rfl
  unfold nodeMount at h
  mgo h
  all_goals
    cases h
    refine H1.keep ⟨rfl, fun _ => ?_, rfl, rfl⟩
    first
      | rfl
      | (apply setNode_files; rfl)
      | (refine (setNode_files _ _ _ ?_ _).trans ((setNode_files _ _ _ ?_ _).trans (setNode_files _ _ _ ?_ _)) <;> rfl)

theorem commandsAdd_lawful (H : Lawful E F u) {i : NodeId} {fs : List FileDesc} (hf : ∀ f ∈ fs, F f) {r : Ush × Status}
    (h : commandsAdd u i fs = .ok r) : Lawful E F r.1 := by
  have H1 := H.nodes hf i { u.nodes i with files := fs, path := none, next := u.commands } rfl
  unfold commandsAdd at h
  mgo h
  cases h
  exact H1.keep ⟨rfl, fun _ => rfl, rfl, rfl⟩

theorem runApi_lawful (H : Lawful E F u) {a : Api} (ha : ApiFiles F a) (h : runApi E u a = .ok v) : Lawful E F v := by
  cases a with
  | print p => exact H.keep (writePointer_keeps h)
  | printNoNewline p => exact H.keep (writePointer_keeps h)
  | printStatus s => exact H.keep (writePointer_keeps h)
  | printf f => exact H.keep (ushPrintf_keeps h)
  | flush => exact H.keep (writePointer_keeps h)
  | reset =>
    have := writePointer_keeps h
    exact H.keep ⟨this.log, this.files, this.proc, this.len⟩
  | mount p i fs =>
    obtain ⟨r, h1, h⟩ := M.bind_eq_ok.mp h
    cases h
    exact (nodeMount_lawful H ha h1).emit trivial
  | unmount p =>
    obtain ⟨r, h1, h⟩ := M.bind_eq_ok.mp h
    cases h
    exact (H.keep (nodeUnmount_keeps h1)).emit trivial
  | setCurrentDir p =>
    obtain ⟨r, h1, h⟩ := M.bind_eq_ok.mp h
    cases h
    exact (H.keep (setCurrentDir_keeps h1)).emit trivial
  | commandsAdd i fs =>
    obtain ⟨r, h1, h⟩ := M.bind_eq_ok.mp h
    cases h
    exact (commandsAdd_lawful H ha h1).emit trivial
  | commandsRemove i =>
    obtain ⟨r, h1, h⟩ := M.bind_eq_ok.mp h
    cases h
    exact (H.keep (commandsRemove_keeps h1)).emit trivial
  | processStart f => cases h; exact H.start ha
  | setState s => cases h; exact H.keep ⟨rfl, fun _ => rfl, rfl, rfl⟩
  | fillOut s =>
    obtain ⟨r, h1, h⟩ := M.bind_eq_ok.mp h
    cases h; exact H.keep ⟨rfl, fun _ => rfl, rfl, rfl⟩

theorem runApis_lawful : ∀ (as : List Api) {u v : Ush}, Lawful E F u → (∀ a ∈ as, ApiFiles F a) → runApis E u as = .ok v → Lawful E F v := by
  intro as
  induction as with
  | nil => intro u v H _ h; cases h; exact H
  | cons a as ih =>
    intro u v H ha h
    obtain ⟨w, h1, h2⟩ := M.bind_eq_ok.mp h
    exact ih (runApi_lawful H (ha a (by simp)) h1) (fun b hb => ha b (by simp [hb])) h2

/-! ### Files that are found are files in the shell -/

theorem findCommand_mem {name : Str} {f : FileDesc} (hF : ∀ n, ∀ f ∈ (u.nodes n).files, F f) : ∀ (n : Nat) (c : Option NodeId),
    findCommand u.nodes name n c = .ok (some f) → F f := by
  intro n
  induction n with
  | zero => intro c h; cases c <;> cases h
  | succ n ih =>
    intro c h
    cases c with
    | none => cases h
    | some c =>
      simp only [findCommand] at h
      split at h
      · rename_i g hg
        cases h
        exact hF c _ (List.mem_of_find?_eq_some hg)
      · exact ih _ h

theorem findFileIn_mem {dir abs : Str} {f : FileDesc} : ∀ (fs : List FileDesc), findFileIn E dir abs fs = .ok (some f) → f ∈ fs := by
  intro fs
  induction fs with
  | nil => intro h; cases h
  | cons g fs ih =>
    intro h
    obtain ⟨fp, _, h⟩ := M.bind_eq_ok.mp h
    split at h
    · cases h; simp
    · simp [ih h]

theorem findFile_mem {abs : Str} {f : FileDesc} (hF : ∀ n, ∀ f ∈ (u.nodes n).files, F f) : ∀ (n : Nat) (c : Option NodeId),
    findFile E u.nodes abs n c = .ok (some f) → F f := by
  intro n
  induction n with
  | zero => intro c h; cases c <;> cases h
  | succ n ih =>
    intro c h
    cases c with
    | none => cases h
    | some c =>
      obtain ⟨r, hr, h⟩ := M.bind_eq_ok.mp h
      cases r with
      | none => exact ih _ h
      | some g =>
        cases h
        unfold findFileNode at hr
        split at hr
        · cases hr
        · split at hr
          · cases hr
          · exact hF c _ (findFileIn_mem _ hr)

theorem Lawful.found (H : Lawful E F u) {name : Str} {f : FileDesc} (h : fileFindByName E u name = .ok (some f)) : F f := by
  unfold fileFindByName at h
  obtain ⟨_, _, h⟩ := M.bind_eq_ok.mp h
  obtain ⟨c, hc, h⟩ := M.bind_eq_ok.mp h
  cases c with
  | some g => cases h; exact findCommand_mem H.files _ _ hc
  | none =>
    obtain ⟨_, _, h⟩ := M.bind_eq_ok.mp h
    obtain ⟨_, _, h⟩ := M.bind_eq_ok.mp h
    exact findFile_mem H.files _ _ h

/-! ### Arguments and data are in the input buffer -/

theorem cstrAt_fits {b : List UInt8} {o : Nat} {s : Str} (h : cstrAt b o = .ok s) : cNul ∉ s ∧ o + s.length < b.length := by
  unfold cstrAt at h
  split at h
  · rename_i hm
    cases h
    constructor
    · intro h
      have := List.mem_takeWhile_imp h
      simp at this
    · obtain ⟨a, c, e⟩ := List.append_of_mem hm
      have h2 : (List.takeWhile (· ≠ cNul) (b.drop o)).length < (b.drop o).length := by
        have h3 := List.takeWhile_append_dropWhile (p := (· ≠ cNul)) (l := b.drop o)
        have h4 : (List.dropWhile (· ≠ cNul) (b.drop o)) ≠ [] := by
          intro h5
          rw [h5, List.append_nil] at h3
          rw [← h3] at hm
          have := List.mem_takeWhile_imp hm
          simp at this
        have h5 := congrArg List.length h3
        have h6 := List.length_pos_iff.2 h4
        rw [List.length_append] at h5
        omega
      rw [List.length_drop] at h2
      omega
  · cases h

theorem getArgsLoop_fits {b : List UInt8} : ∀ (n p : Nat) (argv : List Nat) (strs : List Str), getArgsLoop b n p = .ok argv →
    argv.mapM (cstrAt b) = .ok strs → p ≤ b.length → strs.length = argv.length ∧ (∀ a ∈ strs, cNul ∉ a) ∧ p + (strs.map (·.length + 1)).sum ≤ b.length := by
  intro n
  induction n with
  | zero =>
    intro p argv strs h1 h2 hp
    cases h1; cases h2
    exact ⟨rfl, by simp, by simpa using hp⟩
  | succ n ih =>
    intro p argv strs h1 h2 hp
    obtain ⟨len, hl, h1⟩ := M.bind_eq_ok.mp h1
    obtain ⟨s', hs', hl⟩ := M.bind_eq_ok.mp hl
    cases hl
    obtain ⟨rest, hr, h1⟩ := M.bind_eq_ok.mp h1
    cases h1
    rw [List.mapM_cons] at h2
    obtain ⟨s, hs, h2⟩ := M.bind_eq_ok.mp h2
    obtain ⟨ss, hss, h2⟩ := M.bind_eq_ok.mp h2
    cases h2
    rw [hs'] at hs
    cases hs
    obtain ⟨f1, f2⟩ := cstrAt_fits hs'
    obtain ⟨i1, i2, i3⟩ := ih _ _ _ hr hss (by omega)
    refine ⟨by simp [i1], ?_, ?_⟩
    · intro a ha
      rcases List.mem_cons.mp ha with rfl | ha
      · exact f1
      · exact i2 a ha
    · simp only [List.map_cons, List.sum_cons]; omega

theorem decodeLoop_len (m : Nat) : ∀ (n : Nat) (b : List UInt8) (i o s : Nat) (x : UInt8) (r : Nat) (y : List UInt8 × Nat),
    decodeInPlaceLoop m n b i o s x r = .ok y → r ≤ m → y.1.length = b.length ∧ y.2 ≤ m := by
  intro n
  induction n with
  | zero => intro b i o s x r y h; cases h
  | succ n ih =>
    intro b i o s x r y h hr
    unfold decodeInPlaceLoop at h
    obtain ⟨ch, _, h⟩ := M.bind_eq_ok.mp h
    split at h
    · rename_i hc
      have hr2 : r + 1 ≤ m := by
        simp only [Bool.and_eq_true, decide_eq_true_eq] at hc
        omega
      split at h
      · split at h
        · exact ih _ _ _ _ _ _ _ h hr
        · obtain ⟨b', hb, h⟩ := M.bind_eq_ok.mp h
          obtain ⟨e1, e2⟩ := ih _ _ _ _ _ _ _ h hr2
          exact ⟨e1.trans (wr_length hb), e2⟩
      · split at h
        · split at h
          · exact ih _ _ _ _ _ _ _ h hr
          · obtain ⟨b', hb, h⟩ := M.bind_eq_ok.mp h
            obtain ⟨e1, e2⟩ := ih _ _ _ _ _ _ _ h hr2
            exact ⟨e1.trans (wr_length hb), e2⟩
        · split at h
          · exact ih _ _ _ _ _ _ _ h hr
          · obtain ⟨b', hb, h⟩ := M.bind_eq_ok.mp h
            obtain ⟨e1, e2⟩ := ih _ _ _ _ _ _ _ h hr2
            exact ⟨e1.trans (wr_length hb), e2⟩
    · cases h; exact ⟨rfl, hr⟩

theorem echoDecode_keeps {argv : List Nat} {r : Ush × Nat × Nat} (h : echoDecode u argv = .ok r) : Keeps u r.1 ∧ r.2.2 < u.inBuf.length := by
  unfold echoDecode at h
  obtain ⟨o, _, h⟩ := M.bind_eq_ok.mp h
  obtain ⟨m, hm, h⟩ := M.bind_eq_ok.mp h
  obtain ⟨y, hy, h⟩ := M.bind_eq_ok.mp h
  cases h
  obtain ⟨s, hs, hm⟩ := M.bind_eq_ok.mp hm
  cases hm
  obtain ⟨e1, e2⟩ := decodeLoop_len _ _ _ _ _ _ _ _ _ hy (Nat.zero_le _)
  have := (cstrAt_fits hs).2
  exact ⟨⟨rfl, fun _ => rfl, rfl, e1⟩, by show y.2 < _; omega⟩

/-! ### The service functions -/

theorem catService_lawful (H : Lawful E F u) (h : catService E u = .ok v) : Lawful E F v := by
  unfold catService at h
  split at h
  · cases h; exact H.keep ⟨rfl, fun _ => rfl, rfl, rfl⟩
  · split at h
    · cases h; exact H.keep ⟨rfl, fun _ => rfl, rfl, rfl⟩
    · obtain ⟨_, _, h⟩ := M.bind_eq_ok.mp h
      obtain ⟨_, _, h⟩ := M.bind_eq_ok.mp h
      obtain ⟨_, _, h⟩ := M.bind_eq_ok.mp h
      obtain ⟨r, hr, h⟩ := M.bind_eq_ok.mp h
      cases r with
      | none => cases h
      | some f =>
        simp only at h
        cases hg : f.getData with
        | none => rw [hg] at h; cases h
        | some id =>
          rw [hg] at h
          simp only [callGet] at h
          cases hd : E.userGet id u with
          | none => rw [hd] at h; cases h
          | some d =>
            rw [hd] at h; cases h
            exact (H.emit (e := .getData id) ⟨f, H.found hr, hg⟩).keep ⟨rfl, fun _ => rfl, rfl, rfl⟩
  · cases h; exact H.keep ⟨rfl, fun _ => rfl, rfl, rfl⟩
  · cases h; exact H

theorem helpService_keeps (h : helpService E u = .ok v) : Keeps u v := by
  unfold helpService at h
  mgo h
  all_goals first
    | (cases h; exact ⟨rfl, fun _ => rfl, rfl, rfl⟩)
    | (have hz := writePointer_keeps h; exact ⟨hz.log, hz.files, hz.proc, hz.len⟩)

theorem lsService_keeps (h : lsService E u = .ok v) : Keeps u v := by
  unfold lsService at h
  mgo h
  all_goals first
    | (cases h; exact ⟨rfl, fun _ => rfl, rfl, rfl⟩)
    | (have hz := writePointer_keeps h; exact ⟨hz.log, hz.files, hz.proc, hz.len⟩)
    | (cases h; rename_i hw; have hz := writePointer_keeps hw; exact ⟨hz.log, hz.files, hz.proc, hz.len⟩)

theorem xxdService_keeps (h : xxdService E u = .ok v) : Keeps u v := by
  unfold xxdService at h
  mgo h
  all_goals first
    | (cases h; exact ⟨rfl, fun _ => rfl, rfl, rfl⟩)
    | (have hz := writePointer_keeps h; exact ⟨hz.log, hz.files, hz.proc, hz.len⟩)

theorem processCall_lawful (hE : EnvFiles E F) (H : Lawful E F u) (h : processCall E u = .ok v) : Lawful E F v := by
  unfold processCall at h
  split at h
  · cases h
  · rename_i f hf
    have hF := H.proc f hf
    split at h
    · cases h; exact H.keep ⟨rfl, fun _ => rfl, rfl, rfl⟩
    · exact H.keep (helpService_keeps h)
    · exact H.keep (lsService_keeps h)
    · exact catService_lawful H h
    · exact H.keep (xxdService_keeps h)
    · cases h
    · rename_i id hp
      exact runApis_lawful _ (H.emit (e := .proc id) ⟨f, hF, hp⟩) (hE.proc id u) h

theorem callExec_lawful (hE : EnvFiles E F) (H : Lawful E F u) {f : FileDesc} {cb : Cb} {argv : List Nat} {strs : List Str} (hf : F f) (hcb : f.exec = some cb)
    (ha : ArgvOk E strs) (h : callExec E u f cb argv strs = .ok v) : Lawful E F v := by
  unfold callExec at h
  have H' := H.emit (e := .exec cb strs) ⟨⟨f, hf, hcb⟩, ha⟩
  simp only at h
  generalize u.emit (.exec cb strs) = w at h H'
  split at h
  · unfold helpCallback at h
    mgo h
    all_goals first
      | (cases h; exact (H'.keep (v := { w with procNode := w.commands, procIndex := 0, procItem := 0 }) ⟨rfl, fun _ => rfl, rfl, rfl⟩).start hf)
      | exact H'.keep (writePointer_keeps h)
  · unfold lsCallback at h
    mgo h
    all_goals first
      | (cases h; exact ⟨H'.files, fun g hg => by cases hg; exact hf, H'.len, H'.log⟩)
      | (have hz := writePointer_keeps h; exact H'.keep ⟨hz.log, hz.files, hz.proc, hz.len⟩)
  · unfold cdCallback at h
    split at h
    · exact H'.keep (writePointer_keeps h)
    · obtain ⟨_, _, h⟩ := M.bind_eq_ok.mp h
      obtain ⟨_, _, h⟩ := M.bind_eq_ok.mp h
      obtain ⟨r, hr, h⟩ := M.bind_eq_ok.mp h
      have := H'.keep (setCurrentDir_keeps hr)
      simp only at h
      split at h
      · exact this.keep (writePointer_keeps h)
      · cases h; exact this
  · unfold pwdCallback at h
    mgo h
    all_goals exact H'.keep (writePointer_keeps h)
  · unfold catCallback at h
    mgo h
    all_goals first
      | (cases h; exact H'.start hf)
      | exact H'.keep (writePointer_keeps h)
  · unfold xxdCallback at h
    split at h
    · exact H'.keep (writePointer_keeps h)
    · obtain ⟨_, _, h⟩ := M.bind_eq_ok.mp h
      obtain ⟨_, _, h⟩ := M.bind_eq_ok.mp h
      obtain ⟨r, hr, h⟩ := M.bind_eq_ok.mp h
      cases r with
      | none => exact H'.keep (writePointer_keeps h)
      | some g =>
        simp only at h
        cases hg : g.getData with
        | none => rw [hg] at h; exact H'.keep (writePointer_keeps h)
        | some id =>
          rw [hg] at h
          simp only [callGet] at h
          have H2 := H'.emit (e := .getData id) ⟨g, H'.found hr, hg⟩
          cases hd : E.userGet id w with
          | none => rw [hd] at h; cases h; exact (H2.keep (v := { w.emit (.getData id) with procDataSize := 0 }) ⟨rfl, fun _ => rfl, rfl, rfl⟩).start hf
          | some d =>
            rw [hd] at h; cases h
            exact (H2.keep (v := { w.emit (.getData id) with procData := some d, procDataSize := d.length }) ⟨rfl, fun _ => rfl, rfl, rfl⟩).start hf
  · unfold echoCallback at h
    split at h
    · obtain ⟨_, _, h⟩ := M.bind_eq_ok.mp h
      obtain ⟨_, _, h⟩ := M.bind_eq_ok.mp h
      split at h
      · exact H'.keep (writePointer_keeps h)
      · obtain ⟨_, _, h⟩ := M.bind_eq_ok.mp h
        obtain ⟨_, _, h⟩ := M.bind_eq_ok.mp h
        obtain ⟨r, hr, h⟩ := M.bind_eq_ok.mp h
        cases r with
        | none => exact H'.keep (writePointer_keeps h)
        | some g =>
          simp only at h
          cases hg : g.setData with
          | none => rw [hg] at h; exact H'.keep (writePointer_keeps h)
          | some id =>
            rw [hg] at h
            simp only at h
            obtain ⟨r, hd, h⟩ := M.bind_eq_ok.mp h
            unfold callSet at h
            obtain ⟨k1, k2⟩ := echoDecode_keeps hd
            refine runApis_lawful _ ((H'.keep k1).emit (e := .setData id _) ⟨⟨g, H'.found hr, hg⟩, ?_⟩) (hE.set _ _ _) h
            rw [H'.len] at k2
            exact Nat.lt_of_le_of_lt (List.length_take_le _ _) k2
    · obtain ⟨r, hr, h⟩ := M.bind_eq_ok.mp h
      exact (H'.keep (echoDecode_keeps hr).1).keep (writePointer_keeps h)
    · cases h; exact H'.keep ⟨rfl, fun _ => rfl, rfl, rfl⟩
    · exact H'.keep (writePointer_keeps h)
  · exact runApis_lawful _ H' (hE.exec _ _ _) h

theorem parseFinish_lawful (hE : EnvFiles E F) (H : Lawful E F u) (h : parseFinish E u = .ok v) : Lawful E F v := by
  unfold parseFinish at h
  obtain ⟨argv, hargv, h⟩ := M.bind_eq_ok.mp h
  split at h
  · cases h; exact H
  · rename_i hne
    obtain ⟨strs, hstrs, h⟩ := M.bind_eq_ok.mp h
    obtain ⟨f1, f2, f3⟩ := getArgsLoop_fits _ _ _ _ hargv hstrs (Nat.zero_le _)
    have ha : ArgvOk E strs := ⟨by rintro rfl; exact hne f1.symm, f2, by rw [← H.len]; omega⟩
    obtain ⟨w, hw, h⟩ := M.bind_eq_ok.mp h
    have h1 : Lawful E F w := by
      unfold callHook at hw
      split at hw
      · cases hw; exact H
      · rename_i k hk
        exact runApis_lawful _ (H.emit (e := .hook strs) ⟨by rw [hk]; simp, ha⟩) (hE.hook k hk strs u) hw
    obtain ⟨_, _, h⟩ := M.bind_eq_ok.mp h
    obtain ⟨_, _, h⟩ := M.bind_eq_ok.mp h
    obtain ⟨r, hr, h⟩ := M.bind_eq_ok.mp h
    cases r with
    | none => exact h1.keep (writePointer_keeps h)
    | some f =>
      simp only at h
      cases he : f.exec with
      | none => rw [he] at h; exact h1.keep (writePointer_keeps h)
      | some cb => rw [he] at h; exact callExec_lawful hE h1 (h1.found hr) he ha h

theorem putOut_keeps {c : UInt8} (h : putOut u c = .ok v) : Keeps u v := by
  unfold putOut at h
  obtain ⟨b, hb, h⟩ := M.bind_eq_ok.mp h
  cases h; exact ⟨rfl, fun _ => rfl, rfl, wr_length hb⟩

theorem parseEscaped_keeps {c : UInt8} (h : parseEscaped u c = .ok v) : Keeps u v := by
  unfold parseEscaped at h
  obtain ⟨a, h1, h⟩ := M.bind_eq_ok.mp h
  obtain ⟨b, h2, h⟩ := M.bind_eq_ok.mp h
  cases h
  have k1 : Keeps u a := by
    split at h1
    · exact putOut_keeps h1
    · cases h1; exact .refl _
  have k2 := k1.trans (putOut_keeps h2)
  exact ⟨k2.log, k2.files, k2.proc, k2.len⟩

theorem parseCharStandard_keeps {c : UInt8} (h : parseCharStandard u c = .ok v) : Keeps u v := by
  unfold parseCharStandard at h
  mgo h
  all_goals first
    | (cases h; exact ⟨rfl, fun _ => rfl, rfl, rfl⟩)
    | exact putOut_keeps h
    | exact parseEscaped_keeps h
    | (cases h; rename_i hw; have hz := putOut_keeps hw; exact ⟨hz.log, hz.files, hz.proc, hz.len⟩)

theorem parseChar_lawful (hE : EnvFiles E F) (H : Lawful E F u) (h : parseChar E u = .ok v) : Lawful E F v := by
  unfold parseChar at h
  obtain ⟨ch, _, h⟩ := M.bind_eq_ok.mp h
  simp only at h
  have H1 := H.keep (v := { u with inPos := u.inPos + 1 }) ⟨rfl, fun _ => rfl, rfl, rfl⟩
  split at h
  · obtain ⟨w, hw, h⟩ := M.bind_eq_ok.mp h
    exact parseFinish_lawful hE ((H1.keep (putOut_keeps hw)).keep (v := { w with state := .resetPrompt }) ⟨rfl, fun _ => rfl, rfl, rfl⟩) h
  · exact H1.keep (parseCharStandard_keeps h)

theorem acOptimizeContinue_keeps (h : acOptimizeContinue E u = .ok v) : Keeps u v := by
  unfold acOptimizeContinue at h
  obtain ⟨_, _, h⟩ := M.bind_eq_ok.mp h
  split at h
  · cases h
  · split at h
    · cases h; exact ⟨rfl, fun _ => rfl, rfl, rfl⟩
    · obtain ⟨_, _, h⟩ := M.bind_eq_ok.mp h
      obtain ⟨b1, h1, h⟩ := M.bind_eq_ok.mp h
      obtain ⟨b2, h2, h⟩ := M.bind_eq_ok.mp h
      cases h
      exact ⟨rfl, fun _ => rfl, rfl, (wr_length h2).trans (wr_length h1)⟩

theorem acCandidatesProcess_keeps (h : acCandidatesProcess E u = .ok v) : Keeps u v := by
  unfold acCandidatesProcess at h
  split at h
  · unfold acCheckForFinish at h
    mgo h <;> (cases h; exact ⟨rfl, fun _ => rfl, rfl, rfl⟩)
  · obtain ⟨r, h1, h⟩ := M.bind_eq_ok.mp h
    have e1 : Keeps u r.1 := by
      unfold acCheckForNext at h1
      mgo h1 <;> (cases h1; exact ⟨rfl, fun _ => rfl, rfl, rfl⟩)
    simp only at h
    split at h
    · cases h; exact e1
    · obtain ⟨q, h2, h⟩ := M.bind_eq_ok.mp h
      have e2 : Keeps r.1 q.1 := by
        unfold acFilePrepare at h2
        mgo h2
        all_goals
          first
            | (cases h2; exact ⟨rfl, fun _ => rfl, rfl, rfl⟩)
            | (simp only at h2; split at h2 <;> (cases h2; exact ⟨rfl, fun _ => rfl, rfl, rfl⟩))
      split at h
      · cases h; exact e1.trans e2
      · refine (e1.trans e2).trans ?_
        unfold acFileIndex at h
        split at h
        · obtain ⟨nm, h3, h⟩ := M.bind_eq_ok.mp h
          obtain ⟨w, h4, h⟩ := M.bind_eq_ok.mp h
          cases h
          split at h4
          · have hz := writePointer_keeps h4; exact ⟨hz.log, hz.files, hz.proc, hz.len⟩
          · cases h4; exact ⟨rfl, fun _ => rfl, rfl, rfl⟩
        · obtain ⟨w, h4, h⟩ := M.bind_eq_ok.mp h
          cases h
          split at h4
          · have hz := writePointer_keeps h4; exact ⟨hz.log, hz.files, hz.proc, hz.len⟩
          · cases h4; exact ⟨rfl, fun _ => rfl, rfl, rfl⟩
        · mgo h <;> (cases h; exact ⟨rfl, fun _ => rfl, rfl, rfl⟩)
        · cases h

theorem acCandidatesFinish_keeps (h : acCandidatesFinish E u = .ok v) : Keeps u v := by
  unfold acCandidatesFinish at h
  mgo h
  all_goals first
    | (cases h; exact ⟨rfl, fun _ => rfl, rfl, rfl⟩)
    | (have hz := acOptimizeContinue_keeps h; exact ⟨hz.log, hz.files, hz.proc, hz.len⟩)
    | (rename_i _ _ _ _ hb _ _; have hz := writePointer_keeps h; exact ⟨hz.log, hz.files, hz.proc, hz.len.trans (storeStr_length hb)⟩)
    | (cases h; refine ⟨rfl, fun _ => rfl, rfl, ?_⟩; rename_i hb _ _; exact wr_length hb)

theorem readStart_keeps (h : readStart u = .ok v) : Keeps u v := by
  unfold readStart at h
  obtain ⟨b, hb, h⟩ := M.bind_eq_ok.mp h
  cases h; exact ⟨rfl, fun _ => rfl, rfl, wr_length hb⟩

theorem innerStep_lawful (hE : EnvFiles E F) (H : Lawful E F u) (h : innerStep E u = .ok v) : Lawful E F v := by
  unfold innerStep at h
  split at h
  all_goals first
    | (cases h; exact H.keep ⟨rfl, fun _ => rfl, rfl, rfl⟩)
    | exact H.keep (writePointer_keeps h)
    | exact parseChar_lawful hE H h
    | exact processCall_lawful hE H h
    | exact H.keep (acCandidatesProcess_keeps h)
    | exact H.keep (acCandidatesFinish_keeps h)
    | exact H.keep (readStart_keeps h)
    | skip
  · unfold promptPathStep at h
    mgo h
    all_goals exact H.keep (writePointer_keeps h)
  · unfold acStatePrepare at h
    mgo h
    cases h; exact H.keep ⟨rfl, fun _ => rfl, rfl, rfl⟩
  · unfold acRecallSuffix at h
    mgo h
    all_goals (have hz := writePointer_keeps h; exact H.keep ⟨hz.log, hz.files, hz.proc, hz.len⟩)

theorem readEcho_keeps {c : UInt8} (h : readEcho u c = .ok v) : Keeps u v := by
  unfold readEcho at h
  obtain ⟨o, _, h⟩ := M.bind_eq_ok.mp h
  have hz := writePointer_keeps h
  exact ⟨hz.log, hz.files, hz.proc, hz.len⟩

theorem readCharByEscape_keeps {c : UInt8} {r : Ush × Bool} (h : readCharByEscape E u c = .ok r) : Keeps u r.1 := by
  unfold readCharByEscape at h
  split at h
  · obtain ⟨b1, h1, h⟩ := M.bind_eq_ok.mp h
    obtain ⟨b2, h2, h⟩ := M.bind_eq_ok.mp h
    cases h
    exact ⟨rfl, fun _ => rfl, rfl, (wr_length h2).trans (wr_length h1)⟩
  · mgo h <;> (cases h; exact ⟨rfl, fun _ => rfl, rfl, rfl⟩)

theorem readChar_lawful (H : Lawful E F u) {io : Io} {r : Ush × Bool} (h : readChar E io u = .ok r) : Lawful E F r.1 := by
  unfold readChar at h
  cases hrd : io.rd with
  | none => rw [hrd] at h; cases h; exact H
  | some ch =>
    rw [hrd] at h
    simp only at h
    have H1 : Lawful E F (u.emit (.inp ch)) := H.emit trivial
    obtain ⟨p, h1, h⟩ := M.bind_eq_ok.mp h
    have e1 : Keeps (u.emit (.inp ch)) p.1 := by
      split at h1
      · obtain ⟨w, hw, h1⟩ := M.bind_eq_ok.mp h1
        cases h1; exact writePointer_keeps hw
      · split at h1
        · split at h1
          · obtain ⟨w, hw, h1⟩ := M.bind_eq_ok.mp h1
            cases h1; exact ⟨rfl, fun _ => rfl, rfl, wr_length hw⟩
          · cases h1; exact .refl _
        · split at h1
          · cases h1; cases E.autocomplete <;> exact ⟨rfl, fun _ => rfl, rfl, rfl⟩
          · split at h1
            · cases h1; exact ⟨rfl, fun _ => rfl, rfl, rfl⟩
            · exact readCharByEscape_keeps h1
    obtain ⟨w, hw, h⟩ := M.bind_eq_ok.mp h
    cases h
    have e2 : Keeps p.1 w := by
      split at hw
      · exact readEcho_keeps hw
      · cases hw; exact .refl _
    exact (H1.keep e1).keep e2

theorem writeChar_lawful (H : Lawful E F u) {io : Io} (h : writeChar io u = .ok v) : Lawful E F v := by
  unfold writeChar at h
  split at h
  · cases h; exact H.keep ⟨rfl, fun _ => rfl, rfl, rfl⟩
  · obtain ⟨ch, _, h⟩ := M.bind_eq_ok.mp h
    split at h
    · cases h
      exact (H.emit (e := .out ch) trivial).keep ⟨rfl, fun _ => rfl, rfl, rfl⟩
    · cases h; exact H

theorem service_lawful (hE : EnvFiles E F) (H : Lawful E F u) {io : Io} {r : Ush × Bool} (h : service E io u = .ok r) : Lawful E F r.1 := by
  cases hc : u.current.isSome with
  | false => rw [service_noroot E io u hc] at h; cases h
  | true =>
    rw [service_eq E io u hc] at h
    split at h
    · exact readChar_lawful H h
    · obtain ⟨v, hv, h⟩ := M.bind_eq_ok.mp h
      cases h; exact H.keep (readStart_keeps hv)
    · obtain ⟨v, hv, h⟩ := M.bind_eq_ok.mp h
      cases h; exact writeChar_lawful H hv
    · obtain ⟨v, hv, h⟩ := M.bind_eq_ok.mp h
      cases h; exact innerStep_lawful hE H hv

theorem deinitRec_files : ∀ (n : Nat) (ns ns' : NodeId → Node) (c : Option NodeId), (∀ i, ∀ f ∈ (ns i).files, F f) →
    deinitRec ns n c = .ok ns' → ∀ i, ∀ f ∈ (ns' i).files, F f := by
  intro n
  induction n with
  | zero =>
    intro ns ns' c H h
    cases c with
    | none => cases h; exact H
    | some c => cases h
  | succ n ih =>
    intro ns ns' c H h
    cases c with
    | none => cases h; exact H
    | some c =>
      obtain ⟨m, hm, h⟩ := M.bind_eq_ok.mp h
      have H1 : ∀ i, ∀ f ∈ (m i).files, F f := by
        split at hm
        · cases hm; exact H
        · exact ih _ _ _ H hm
      refine ih _ _ _ ?_ h
      intro i f hf
      simp only [setNode] at hf
      split at hf
      · cases hf
      · exact H1 i f hf

theorem step_lawful (hE : EnvFiles E F) (H : Lawful E F u) {o : Op} (ho : OpFiles F o) (h : step E u o = .ok v) : Lawful E F v := by
  cases o with
  | service io =>
    obtain ⟨r, hr, h⟩ := M.bind_eq_ok.mp h
    cases h; exact service_lawful hE H hr
  | api a => exact runApi_lawful H ho h
  | init =>
    unfold step ushInit at h
    obtain ⟨_, _, h⟩ := M.bind_eq_ok.mp h
    obtain ⟨_, _, h⟩ := M.bind_eq_ok.mp h
    obtain ⟨w, hw, h⟩ := M.bind_eq_ok.mp h
    have H0 := H.keep (v := { u with root := none }) ⟨rfl, fun _ => rfl, rfl, rfl⟩
    have H1 : Lawful E F w := by
      split at hw
      · rename_i on
        obtain ⟨r, hr, hw⟩ := M.bind_eq_ok.mp hw
        cases hw
        exact commandsAdd_lawful H0 (hE.builtin on) hr
      · cases hw; exact H0
    have hz := writePointer_keeps h
    exact H1.keep ⟨hz.log, hz.files, hz.proc, hz.len⟩
  | deinit =>
    obtain ⟨ns, hn, h⟩ := M.bind_eq_ok.mp h
    cases h
    have := deinitRec_files _ _ _ _ H.files hn
    refine ⟨?_, (fun f hf => nomatch hf), H.len, H.log⟩
    intro i f hf
    simp only [setNode] at hf
    split at hf
    · cases hf
    · exact this i f hf

theorem run_lawful (hE : EnvFiles E F) : ∀ (os : List Op) {u v : Ush}, Lawful E F u → (∀ o ∈ os, OpFiles F o) → run E u os = .ok v → Lawful E F v := by
  intro os
  induction os with
  | nil => intro u v H _ h; cases h; exact H
  | cons o os ih =>
    intro u v H ho h
    obtain ⟨w, h1, h2⟩ := M.bind_eq_ok.mp h
    exact ih (step_lawful hE H (ho o (by simp)) h1) (fun p hp => ho p (by simp [hp])) h2

end Ush
