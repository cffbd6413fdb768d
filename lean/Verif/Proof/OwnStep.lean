import Verif.Proof.Own
/-!
# A shell instance depends on its own nodes only: all steps
-/
namespace Ush
open Spec

variable {S : NodeId → Bool} {g : NodeId → Node} {E : Env} {u : Ush}

/-- Unchanged pointers. -/
macro "keeps" O:term : term => `(Spec.Own.to $O ⟨rfl, rfl, rfl, rfl, rfl, rfl⟩)

theorem ptrStr_over (p : Ptr) : ptrStr (over S g u) p = ptrStr u p := by cases p <;> rfl
theorem ptrRead_over (p : Ptr) (i : Nat) : ptrRead (over S g u) p i = ptrRead u p i := by cases p <;> rfl

theorem writePointer_own (O : Own S u) (p : Ptr) (s : St) : Sim (Same S g) (writePointer u p s) (writePointer (over S g u) p s) := by
  unfold writePointer
  refine .same _ fun _ _ => ?_
  refine .eq_same (ptrStr_over p) fun _ _ => ?_
  exact ⟨rfl, keeps O⟩

theorem printfError_own (O : Own S u) (m : Str) : Sim (Same S g) (printfError E u m) (printfError E (over S g u) m) := by
  unfold printfError
  refine .same _ fun _ _ => ?_
  split
  · refine .same _ fun _ _ => ?_
    refine .same _ fun _ _ => ?_
    exact ⟨rfl, keeps O⟩
  · split
    · rfl
    · refine .same _ fun _ _ => ?_
      exact ⟨rfl, keeps O⟩

theorem ushPrintf_own (O : Own S u) (f : Fmt) : Sim (Same S g) (ushPrintf E u f) (ushPrintf E (over S g u) f) := by
  unfold ushPrintf
  refine Sim.bind (r := Same S g) ?_ ?_
  · split
    · refine .same _ fun o _ => ?_
      exact writePointer_own (u := { u with outBuf := o }) (keeps O) _ _
    · exact ⟨rfl, keeps O⟩
  · rintro v _ ⟨rfl, O1⟩
    refine .same _ fun idx _ => ?_
    refine .same _ fun buf _ => ?_
    refine .same _ fun real _ => ?_
    cases f with
    | error s => exact printfError_own (u := { v with outBuf := buf, writeSize := v.writeSize + real }) (keeps O1) _
    | text s =>
      simp only
      split
      · exact printfError_own (u := { v with outBuf := buf, writeSize := v.writeSize + real }) (keeps O1) _
      · exact ⟨rfl, keeps O1⟩

theorem emit_own {m m' : M (Ush × Status)} (k : Status → Event) (h : Sim (SameR S g) m m') :
    Sim (Same S g) (do let (v, s) ← m; return v.emit (k s)) (do let (v, s) ← m'; return v.emit (k s)) := by
  refine Sim.bind h ?_
  rintro ⟨v, s⟩ ⟨_, t⟩ ⟨⟨rfl, O⟩, ht⟩
  obtain rfl : t = s := ht
  exact ⟨rfl, keeps O⟩

theorem runApi_own (O : Own S u) (a : Api) (ha : Names S a) : Sim (Same S g) (runApi E u a) (runApi E (over S g u) a) := by
  cases a with
  | print p => exact writePointer_own O _ _
  | printNoNewline p => exact writePointer_own O _ _
  | printStatus s => exact writePointer_own O _ _
  | printf f => exact ushPrintf_own O f
  | flush => exact writePointer_own O _ _
  | reset => exact writePointer_own (u := { u with current := u.root }) ⟨O.node, O.root, O.root, O.commands, O.procNode, O.procChild⟩ _ _
  | mount p i fs => exact emit_own .ret (nodeMount_own O p ha fs)
  | unmount p => exact emit_own .ret (nodeUnmount_own O p)
  | setCurrentDir p => exact emit_own .ret (setCurrentDir_own O p)
  | commandsAdd i fs => exact emit_own .ret (commandsAdd_own O ha fs)
  | commandsRemove i => exact emit_own .ret (commandsRemove_own O ha)
  | processStart f => exact ⟨rfl, keeps O⟩
  | setState s => exact ⟨rfl, keeps O⟩
  | fillOut s =>
    refine .same _ fun _ _ => ?_
    exact ⟨rfl, keeps O⟩

theorem runApis_own : ∀ (as : List Api) {u : Ush}, Own S u → (∀ a ∈ as, Names S a) → Sim (Same S g) (runApis E u as) (runApis E (over S g u) as) := by
  intro as
  induction as with
  | nil => intro u O _; exact ⟨rfl, O⟩
  | cons a as ih =>
    intro u O ha
    refine Sim.bind (runApi_own O a (ha a (by simp))) ?_
    rintro v _ ⟨rfl, O1⟩
    exact ih O1 (fun b hb => ha b (by simp [hb]))

/-! ## Line reader -/

theorem readEcho_own (O : Own S u) (ch : UInt8) : Sim (Same S g) (readEcho u ch) (readEcho (over S g u) ch) := by
  unfold readEcho
  refine .same _ fun o _ => ?_
  exact writePointer_own (u := { u with outBuf := o }) (keeps O) _ _

theorem readCharByEscape_own (O : Own S u) (ch : UInt8) : Sim (SameR S g) (readCharByEscape E u ch) (readCharByEscape E (over S g u) ch) := by
  unfold readCharByEscape
  split
  · refine .same _ fun _ _ => ?_
    refine .same _ fun _ _ => ?_
    exact ⟨⟨rfl, keeps O⟩, rfl⟩
  · split
    · split
      · exact ⟨⟨rfl, keeps O⟩, rfl⟩
      · exact ⟨⟨rfl, keeps O⟩, rfl⟩
    · split
      · exact ⟨⟨rfl, keeps O⟩, rfl⟩
      · exact ⟨⟨rfl, keeps O⟩, rfl⟩

theorem readChar_own (O : Own S u) (io : Io) : Sim (SameR S g) (readChar E io u) (readChar E io (over S g u)) := by
  unfold readChar
  split
  · exact ⟨⟨rfl, O⟩, rfl⟩
  · rename_i ch _
    have O1 : Own S (u.emit (.inp ch)) := keeps O
    have e : (over S g u).emit (.inp ch) = over S g (u.emit (.inp ch)) := rfl
    simp only [e]
    generalize u.emit (.inp ch) = w at O1
    refine Sim.bind (r := SameR S g) ?_ ?_
    · split
      · refine Sim.bind (writePointer_own O1 _ _) ?_
        rintro v _ ⟨rfl, O2⟩
        exact ⟨⟨rfl, O2⟩, rfl⟩
      · split
        · split
          · refine .same _ fun _ _ => ?_
            exact ⟨⟨rfl, keeps O1⟩, rfl⟩
          · exact ⟨⟨rfl, O1⟩, rfl⟩
        · split
          · cases E.autocomplete
            · exact ⟨⟨rfl, O1⟩, rfl⟩
            · exact ⟨⟨rfl, keeps O1⟩, rfl⟩
          · split
            · exact ⟨⟨rfl, keeps O1⟩, rfl⟩
            · exact readCharByEscape_own O1 ch
    · rintro ⟨v, b⟩ ⟨_, b'⟩ ⟨⟨rfl, O2⟩, ht⟩
      obtain rfl : b' = b := ht
      refine Sim.bind (r := Same S g) ?_ ?_
      · simp only
        split
        · exact readEcho_own O2 ch
        · exact ⟨rfl, O2⟩
      · rintro x _ ⟨rfl, O3⟩
        exact ⟨⟨rfl, O3⟩, rfl⟩

theorem readStart_own (O : Own S u) : Sim (Same S g) (readStart u) (readStart (over S g u)) := by
  unfold readStart
  refine .same _ fun _ _ => ?_
  exact ⟨rfl, keeps O⟩

theorem writeChar_own (O : Own S u) (io : Io) : Sim (Same S g) (writeChar io u) (writeChar io (over S g u)) := by
  unfold writeChar
  split
  · exact ⟨rfl, keeps O⟩
  · refine .eq_same (ptrRead_over _ _) fun _ _ => ?_
    split
    · exact ⟨rfl, keeps O⟩
    · exact ⟨rfl, O⟩

theorem promptPathStep_own (O : Own S u) : Sim (Same S g) (promptPathStep u) (promptPathStep (over S g u)) := by
  unfold promptPathStep
  cases hc : u.current with
  | none => exact rfl
  | some c =>
    simp only [mix_in (O.current c hc)]
    cases (u.nodes c).path with
    | none => exact rfl
    | some p => exact writePointer_own O _ _

/-! ## Parser and callbacks -/

theorem putOut_own (O : Own S u) (ch : UInt8) : Sim (Same S g) (putOut u ch) (putOut (over S g u) ch) := by
  unfold putOut
  refine .same _ fun _ _ => ?_
  exact ⟨rfl, keeps O⟩

theorem parseEscaped_own (O : Own S u) (ch : UInt8) : Sim (Same S g) (parseEscaped u ch) (parseEscaped (over S g u) ch) := by
  unfold parseEscaped
  refine Sim.bind (r := Same S g) ?_ ?_
  · split
    · exact putOut_own O _
    · exact ⟨rfl, O⟩
  · rintro v _ ⟨rfl, O1⟩
    refine Sim.bind (putOut_own O1 ch) ?_
    rintro w _ ⟨rfl, O2⟩
    exact ⟨rfl, keeps O2⟩

theorem parseCharStandard_own (O : Own S u) (ch : UInt8) : Sim (Same S g) (parseCharStandard u ch) (parseCharStandard (over S g u) ch) := by
  unfold parseCharStandard
  cases hs : u.state
  case parseSearchArg =>
    simp only
    split
    · exact ⟨rfl, O⟩
    · split
      · exact ⟨rfl, keeps O⟩
      · split
        · exact ⟨rfl, keeps O⟩
        · refine Sim.bind (putOut_own O ch) ?_
          rintro v _ ⟨rfl, O1⟩
          exact ⟨rfl, keeps O1⟩
  case parseQuoteArg =>
    simp only
    split
    · exact parseEscaped_own O ch
    · split
      · exact ⟨rfl, keeps O⟩
      · split
        · exact ⟨rfl, keeps O⟩
        · exact putOut_own O ch
  case parseStandardArg =>
    simp only
    split
    · exact parseEscaped_own O ch
    · split
      · refine Sim.bind (putOut_own O cNul) ?_
        rintro v _ ⟨rfl, O1⟩
        exact ⟨rfl, keeps O1⟩
      · split
        · exact ⟨rfl, keeps O⟩
        · split
          · exact ⟨rfl, keeps O⟩
          · exact putOut_own O ch
  all_goals exact rfl

theorem callSet_own (P : Private S E) (O : Own S u) (id : Nat) (d : List UInt8) : Sim (Same S g) (callSet E u id d) (callSet E (over S g u) id d) := by
  unfold callSet
  rw [(P.set id d u).1 g]
  exact runApis_own (u := u.emit (.setData id d)) _ (keeps O) (P.set id d u).2

theorem callHook_own (P : Private S E) (O : Own S u) (strs : List Str) : Sim (Same S g) (callHook E u strs) (callHook E (over S g u) strs) := by
  unfold callHook
  cases hh : E.hook with
  | none => exact ⟨rfl, O⟩
  | some h =>
    simp only
    rw [(P.hook h hh strs u).1 g]
    exact runApis_own (u := u.emit (.hook strs)) _ (keeps O) (P.hook h hh strs u).2

theorem catCheck_over (O : Own S u) : ∀ (os : List Nat), catCheck E (over S g u) os = catCheck E u os := by
  intro os
  induction os with
  | nil => rfl
  | cons o os ih => simp only [catCheck, fileFindByName_over O, ih]

theorem catCallback_own (O : Own S u) (f : FileDesc) (argv : List Nat) : Sim (Same S g) (catCallback E u f argv) (catCallback E (over S g u) f argv) := by
  unfold catCallback
  split
  · exact writePointer_own O _ _
  · refine .eq_same (catCheck_over O _) fun r _ => ?_
    cases r with
    | some s => exact writePointer_own O _ _
    | none => exact ⟨rfl, keeps O⟩

theorem catService_own (P : Private S E) (O : Own S u) : Sim (Same S g) (catService E u) (catService E (over S g u)) := by
  unfold catService
  cases hs : u.state
  case processStart => exact ⟨rfl, keeps O⟩
  case processService =>
    simp only
    split
    · exact ⟨rfl, keeps O⟩
    · refine .same _ fun argv _ => ?_
      refine .same _ fun o _ => ?_
      refine .same _ fun name _ => ?_
      refine .eq_same (fileFindByName_over O name) fun r _ => ?_
      cases r with
      | none => exact rfl
      | some f =>
        simp only
        cases f.getData with
        | none => exact rfl
        | some id =>
          simp only [callGet, P.get id u g]
          cases E.userGet id u with
          | none => exact rfl
          | some d => exact ⟨rfl, keeps O⟩
  case processFinish => exact ⟨rfl, keeps O⟩
  all_goals exact ⟨rfl, O⟩

theorem cdCallback_own (O : Own S u) (argv : List Nat) : Sim (Same S g) (cdCallback E u argv) (cdCallback E (over S g u) argv) := by
  unfold cdCallback
  split
  · exact writePointer_own O _ _
  · refine .same _ fun o _ => ?_
    refine .same _ fun path _ => ?_
    refine Sim.bind (setCurrentDir_own O path) ?_
    rintro ⟨v, s⟩ ⟨_, s'⟩ ⟨⟨rfl, O1⟩, ht⟩
    obtain rfl : s' = s := ht
    simp only
    split
    · exact writePointer_own O1 _ _
    · exact ⟨rfl, O1⟩

theorem pwdCallback_own (O : Own S u) (argv : List Nat) : Sim (Same S g) (pwdCallback E u argv) (pwdCallback E (over S g u) argv) := by
  unfold pwdCallback
  split
  · exact writePointer_own O _ _
  · cases hc : u.current with
    | none => exact rfl
    | some c =>
      simp only [mix_in (O.current c hc)]
      cases (u.nodes c).path with
      | none => exact rfl
      | some p => exact writePointer_own O _ _

theorem echoDecode_own (O : Own S u) (argv : List Nat) : Sim (SameR S g) (echoDecode u argv) (echoDecode (over S g u) argv) := by
  unfold echoDecode
  refine .same _ fun o _ => ?_
  refine .same _ fun max _ => ?_
  refine .same _ fun r _ => ?_
  exact ⟨⟨rfl, keeps O⟩, rfl⟩

theorem echoCallback_own (P : Private S E) (O : Own S u) (argv : List Nat) : Sim (Same S g) (echoCallback E u argv) (echoCallback E (over S g u) argv) := by
  unfold echoCallback
  split
  · refine .same _ fun o2 _ => ?_
    refine .same _ fun s2 _ => ?_
    split
    · exact writePointer_own O _ _
    · refine .same _ fun o3 _ => ?_
      refine .same _ fun s3 _ => ?_
      refine .eq_same (fileFindByName_over O s3) fun r _ => ?_
      cases r with
      | none => exact writePointer_own O _ _
      | some f =>
        simp only
        cases f.setData with
        | none => exact writePointer_own O _ _
        | some id =>
          refine Sim.bind (echoDecode_own O argv) ?_
          rintro ⟨v, o, sz⟩ ⟨_, o', sz'⟩ ⟨⟨rfl, O1⟩, ht⟩
          obtain ⟨rfl, rfl⟩ : o' = o ∧ sz' = sz := by simpa using ht
          exact callSet_own P O1 id _
  · refine Sim.bind (echoDecode_own O argv) ?_
    rintro ⟨v, o, sz⟩ ⟨_, o', sz'⟩ ⟨⟨rfl, O1⟩, ht⟩
    obtain ⟨rfl, rfl⟩ : o' = o ∧ sz' = sz := by simpa using ht
    exact writePointer_own O1 _ _
  · exact ⟨rfl, keeps O⟩
  · exact writePointer_own O _ _

theorem helpCallback_own (O : Own S u) (f : FileDesc) (argv : List Nat) : Sim (Same S g) (helpCallback E u f argv) (helpCallback E (over S g u) f argv) := by
  unfold helpCallback
  split
  · exact ⟨rfl, ⟨O.node, O.root, O.current, O.commands, O.commands, O.procChild⟩⟩
  · refine .same _ fun o _ => ?_
    refine .same _ fun name _ => ?_
    refine .eq_same (fileFindByName_over O name) fun r _ => ?_
    cases r with
    | none => exact writePointer_own O _ _
    | some f =>
      simp only
      cases f.help with
      | none => exact writePointer_own O _ _
      | some h => exact writePointer_own O _ _
  · exact writePointer_own O _ _

theorem helpService_own (O : Own S u) : Sim (Same S g) (helpService E u) (helpService E (over S g u)) := by
  unfold helpService
  cases hs : u.state
  case processStart =>
    simp only
    cases hn : u.procNode with
    | none => exact ⟨rfl, ⟨O.node, O.root, O.current, O.commands, hn ▸ O.procNode, O.procChild⟩⟩
    | some n =>
      have hS := O.procNode n hn
      simp only [mix_in hS]
      rw [← hn, ← hs]
      split
      · exact ⟨rfl, ⟨O.node, O.root, O.current, O.commands, (O.node n hS).1, O.procChild⟩⟩
      · cases (u.nodes n).files[u.procItem]? with
        | none => exact rfl
        | some f =>
          simp only
          split
          · cases f.description with
            | some d =>
              refine .same _ fun o _ => ?_
              exact writePointer_own (u := { u with outBuf := o, procIndex := 1 }) (keeps O) _ _
            | none =>
              refine .same _ fun o _ => ?_
              exact writePointer_own (u := { u with outBuf := o, procIndex := 2 }) (keeps O) _ _
          · cases f.description with
            | some d => exact writePointer_own (u := { u with procIndex := 2 }) (keeps O) _ _
            | none => exact rfl
          · exact writePointer_own (u := { u with procIndex := 0, procItem := u.procItem + 1 }) (keeps O) _ _
          · exact rfl
  all_goals exact ⟨rfl, O⟩

theorem lsCallback_own (O : Own S u) (f : FileDesc) (argv : List Nat) : Sim (Same S g) (lsCallback E u f argv) (lsCallback E (over S g u) f argv) := by
  unfold lsCallback
  split
  · exact ⟨rfl, ⟨O.node, O.root, O.current, O.commands, O.current, O.procChild⟩⟩
  · refine .same _ fun o _ => ?_
    refine .same _ fun path _ => ?_
    refine .eq_same (getAbsolutePath_over O path) fun abs _ => ?_
    obtain ⟨h1, h2⟩ := getByPath_over (E := E) (g := g) O abs
    refine .eq_same h1 fun r hr => ?_
    cases r with
    | none => exact writePointer_own (u := { u with procNode := none }) ⟨O.node, O.root, O.current, O.commands, .none, O.procChild⟩ _ _
    | some n => exact ⟨rfl, ⟨O.node, O.root, O.current, O.commands, h2 _ hr, O.procChild⟩⟩
  · exact writePointer_own O _ _

theorem lsService_own (O : Own S u) : Sim (Same S g) (lsService E u) (lsService E (over S g u)) := by
  unfold lsService
  cases hs : u.state
  case processStart =>
    simp only
    cases hn : u.procNode with
    | none => exact rfl
    | some n =>
      have hS := O.procNode n hn
      simp only [mix_in hS]
      refine Sim.bind (writePointer_own O _ _) ?_
      rintro v _ ⟨rfl, O1⟩
      simp only [mix_in hS]
      exact ⟨rfl, ⟨O1.node, O1.root, O1.current, O1.commands, O1.procNode, (O1.node n hS).2.1⟩⟩
  case processService =>
    simp only
    cases hn : u.procChild with
    | none =>
      simp only
      rw [← hn]
      exact ⟨rfl, keeps O⟩
    | some c =>
      have hS := O.procChild c hn
      simp only [mix_in hS]
      rw [← hn, ← hs]
      split
      · exact writePointer_own (u := { u with procIndex := 1 }) (keeps O) _ _
      · cases (u.nodes c).path with
        | none => exact rfl
        | some p => exact writePointer_own (u := { u with procIndex := 2 }) (keeps O) _ _
      · exact writePointer_own (u := { u with procIndex := 3 }) (keeps O) _ _
      · exact ⟨rfl, ⟨O.node, O.root, O.current, O.commands, O.procNode, (O.node c hS).1⟩⟩
      · exact rfl
  case processFinish =>
    simp only
    cases hn : u.procNode with
    | none => exact rfl
    | some n =>
      have hS := O.procNode n hn
      simp only [mix_in hS]
      rw [← hn, ← hs]
      split
      · exact ⟨rfl, keeps O⟩
      · cases (u.nodes n).files[u.procItem]? with
        | none => exact rfl
        | some f =>
          simp only
          split
          · refine .same _ fun o _ => ?_
            exact writePointer_own (u := { u with outBuf := o, procIndex := 1 }) (keeps O) _ _
          · cases f.description with
            | some d =>
              refine .same _ fun o _ => ?_
              exact writePointer_own (u := { u with outBuf := o, procIndex := 2 }) (keeps O) _ _
            | none =>
              refine .same _ fun o _ => ?_
              exact writePointer_own (u := { u with outBuf := o, procIndex := 3 }) (keeps O) _ _
          · cases f.description with
            | some d => exact writePointer_own (u := { u with procIndex := 3 }) (keeps O) _ _
            | none => exact rfl
          · exact writePointer_own (u := { u with procIndex := 0, procItem := u.procItem + 1 }) (keeps O) _ _
          · exact rfl
  all_goals exact ⟨rfl, O⟩

theorem xxdCallback_own (P : Private S E) (O : Own S u) (f : FileDesc) (argv : List Nat) : Sim (Same S g) (xxdCallback E u f argv) (xxdCallback E (over S g u) f argv) := by
  unfold xxdCallback
  split
  · exact writePointer_own O _ _
  · refine .same _ fun o _ => ?_
    refine .same _ fun name _ => ?_
    refine .eq_same (fileFindByName_over O name) fun r _ => ?_
    cases r with
    | none => exact writePointer_own O _ _
    | some f =>
      simp only
      cases f.getData with
      | none => exact writePointer_own O _ _
      | some id =>
        simp only [callGet, P.get id u g]
        cases E.userGet id u with
        | none => exact ⟨rfl, keeps O⟩
        | some d => exact ⟨rfl, keeps O⟩

theorem xxdHexLoop_over : ∀ (c i : Nat) (b : List UInt8), xxdHexLoop (over S g u) c i b = xxdHexLoop u c i b := by
  intro c
  induction c with
  | zero => intro i b; rfl
  | succ n ih => intro i b; simp only [xxdHexLoop, ih]; rfl

theorem xxdTextLoop_over : ∀ (c i : Nat) (b : List UInt8), xxdTextLoop (over S g u) c i b = xxdTextLoop u c i b := by
  intro c
  induction c with
  | zero => intro i b; rfl
  | succ n ih => intro i b; simp only [xxdTextLoop, ih]; rfl

theorem xxdService_own (O : Own S u) : Sim (Same S g) (xxdService E u) (xxdService E (over S g u)) := by
  unfold xxdService
  cases hs : u.state
  case processStart => exact ⟨rfl, keeps O⟩
  case processService =>
    simp only
    split
    · refine .same _ fun o _ => ?_
      exact writePointer_own (u := { u with outBuf := o, procIndex := 1 }) (keeps O) _ _
    · refine .same _ fun o _ => ?_
      refine .eq_same (xxdHexLoop_over _ _ _) fun o _ => ?_
      refine .same _ fun o _ => ?_
      exact writePointer_own (u := { u with outBuf := o, procIndex := 2 }) (keeps O) _ _
    · refine .same _ fun o _ => ?_
      refine .eq_same (xxdTextLoop_over _ _ _) fun r _ => ?_
      exact writePointer_own (u := { u with outBuf := r.1, procIndex := 3, procItem := r.2 }) (keeps O) _ _
    · split
      · exact writePointer_own O _ _
      · exact writePointer_own (u := { u with procIndex := 0 }) (keeps O) _ _
    · exact rfl
  case processFinish => exact ⟨rfl, keeps O⟩
  all_goals exact ⟨rfl, O⟩

theorem callExec_own (P : Private S E) (O : Own S u) (f : FileDesc) (cb : Cb) (argv : List Nat) (strs : List Str) :
    Sim (Same S g) (callExec E u f cb argv strs) (callExec E (over S g u) f cb argv strs) := by
  unfold callExec
  have e : (over S g u).emit (.exec cb strs) = over S g (u.emit (.exec cb strs)) := rfl
  have O1 : Own S (u.emit (.exec cb strs)) := keeps O
  simp only [e]
  generalize u.emit (.exec cb strs) = w at O1
  cases cb with
  | user id =>
    simp only
    rw [(P.exec id strs w).1 g]
    exact runApis_own _ O1 (P.exec id strs w).2
  | builtin b =>
    cases b
    · exact helpCallback_own O1 f argv
    · exact lsCallback_own O1 f argv
    · exact cdCallback_own O1 argv
    · exact pwdCallback_own O1 argv
    · exact catCallback_own O1 f argv
    · exact xxdCallback_own P O1 f argv
    · exact echoCallback_own P O1 argv

theorem processCall_own (P : Private S E) (O : Own S u) : Sim (Same S g) (processCall E u) (processCall E (over S g u)) := by
  unfold processCall
  cases u.procFile with
  | none => exact rfl
  | some f =>
    simp only
    cases f.process with
    | none => exact ⟨rfl, keeps O⟩
    | some cb =>
      cases cb with
      | user id =>
        simp only
        rw [(P.proc id u).1 g]
        exact runApis_own (u := u.emit (.proc id)) _ (keeps O) (P.proc id u).2
      | builtin b =>
        cases b
        · exact helpService_own O
        · exact lsService_own O
        · exact rfl
        · exact rfl
        · exact catService_own P O
        · exact xxdService_own O
        · exact rfl

theorem parseFinish_own (P : Private S E) (O : Own S u) : Sim (Same S g) (parseFinish E u) (parseFinish E (over S g u)) := by
  unfold parseFinish
  refine .same _ fun argv _ => ?_
  split
  · exact ⟨rfl, O⟩
  · refine .same _ fun strs _ => ?_
    refine Sim.bind (callHook_own P O strs) ?_
    rintro v _ ⟨rfl, O1⟩
    refine .same _ fun o _ => ?_
    refine .same _ fun name _ => ?_
    refine .eq_same (fileFindByName_over O1 name) fun r _ => ?_
    cases r with
    | none => exact writePointer_own O1 _ _
    | some f =>
      simp only
      cases f.exec with
      | none => exact writePointer_own O1 _ _
      | some cb => exact callExec_own P O1 f cb argv strs

theorem parseChar_own (P : Private S E) (O : Own S u) : Sim (Same S g) (parseChar E u) (parseChar E (over S g u)) := by
  unfold parseChar
  refine .same _ fun ch _ => ?_
  simp only
  split
  · refine Sim.bind (putOut_own (u := { u with inPos := u.inPos + 1 }) (keeps O) cNul) ?_
    rintro v _ ⟨rfl, O1⟩
    exact parseFinish_own (u := { v with state := .resetPrompt }) P (keeps O1)
  · exact parseCharStandard_own (u := { u with inPos := u.inPos + 1 }) (keeps O) ch

/-! ## Completion -/

theorem acPrepareCandidates_own (O : Own S u) : Own S (acPrepareCandidates u) :=
  ⟨O.node, O.root, O.current, O.commands, O.commands, O.procChild⟩

theorem acOptimizeContinue_own (O : Own S u) : Sim (Same S g) (acOptimizeContinue E u) (acOptimizeContinue E (over S g u)) := by
  unfold acOptimizeContinue
  refine .same _ fun pos _ => ?_
  simp only
  cases u.acCand with
  | none => exact rfl
  | some cand =>
    simp only
    split
    · exact ⟨rfl, keeps O⟩
    · refine .same _ fun ch _ => ?_
      refine .same _ fun buf _ => ?_
      refine .same _ fun buf _ => ?_
      exact ⟨rfl, ⟨O.node, O.root, O.current, O.commands, O.commands, O.procChild⟩⟩

theorem acCheckForFinish_own (O : Own S u) : Sim (Same S g) (acCheckForFinish E u) (acCheckForFinish E (over S g u)) := by
  unfold acCheckForFinish
  refine .same _ fun _ _ => ?_
  match h : u.procStage with
  | 0 => exact ⟨rfl, ⟨O.node, O.root, O.current, O.commands, O.current, O.procChild⟩⟩
  | 1 =>
    refine .same _ fun input _ => ?_
    refine .eq_same (getAbsolutePath_over O input) fun abs _ => ?_
    refine Sim.bind (r := fun a b => b = a ∧ PtrIn S a) ?_ ?_
    · split
      · exact ⟨rfl, O.current⟩
      · obtain ⟨h1, h2⟩ := getParentByPath_over (E := E) (g := g) O abs
        refine .eq_same h1 fun r hr => ?_
        cases r with
        | some n => exact ⟨rfl, h2 _ hr⟩
        | none => exact ⟨rfl, O.current⟩
    · rintro a b ⟨rfl, hb⟩
      cases b with
      | none => exact rfl
      | some n =>
        have hS := hb n rfl
        simp only [mix_in hS]
        exact ⟨rfl, ⟨O.node, O.root, O.current, O.commands, (O.node n hS).2.1, O.procChild⟩⟩
  | 2 => exact ⟨rfl, keeps O⟩
  | _ + 3 => exact rfl

theorem acCheckForNext_own (O : Own S u) {n : NodeId} (hn : S n = true) : Sim (SameR S g) (acCheckForNext u n) (acCheckForNext (over S g u) n) := by
  unfold acCheckForNext
  simp only [mix_in hn]
  split
  · split
    · exact ⟨⟨rfl, ⟨O.node, O.root, O.current, O.commands, (O.node n hn).1, O.procChild⟩⟩, rfl⟩
    · exact ⟨⟨rfl, O⟩, rfl⟩
  · split
    · exact ⟨⟨rfl, ⟨O.node, O.root, O.current, O.commands, .none, O.procChild⟩⟩, rfl⟩
    · exact ⟨⟨rfl, O⟩, rfl⟩
  · exact ⟨⟨rfl, O⟩, rfl⟩
  · exact rfl

theorem acFilePrepare_own (O : Own S u) {n : NodeId} (hn : S n = true) : Sim (SameR S g) (acFilePrepare u n) (acFilePrepare (over S g u) n) := by
  unfold acFilePrepare
  refine .same _ fun input _ => ?_
  simp only [mix_in hn]
  have file : Sim (SameR S g) (match (u.nodes n).files[u.procItem]? with
      | none => .error .oob
      | some f => if startsWith f.name input = false then pure ({ u with procItem := u.procItem + 1, procIndex := 0 }, some f, true)
          else pure (u, some f, false)) (match (u.nodes n).files[u.procItem]? with
      | none => .error .oob
      | some f => if startsWith f.name input = false then pure ({ over S g u with procItem := u.procItem + 1, procIndex := 0 }, some f, true)
          else pure (over S g u, some f, false)) := by
    cases (u.nodes n).files[u.procItem]? with
    | none => exact rfl
    | some f =>
      simp only
      split
      · exact ⟨⟨rfl, keeps O⟩, rfl⟩
      · exact ⟨⟨rfl, O⟩, rfl⟩
  split
  · exact file
  · exact file
  · cases (u.nodes n).path with
    | none => exact rfl
    | some p =>
      simp only
      split
      · exact ⟨⟨rfl, ⟨O.node, O.root, O.current, O.commands, (O.node n hn).1, O.procChild⟩⟩, rfl⟩
      · exact ⟨⟨rfl, keeps O⟩, rfl⟩
  · exact rfl

theorem acFileIndex_own (O : Own S u) {n : NodeId} (hn : S n = true) (f : Option FileDesc) : Sim (Same S g) (acFileIndex u n f) (acFileIndex (over S g u) n f) := by
  unfold acFileIndex
  simp only [mix_in hn]
  split
  · refine .same _ fun name _ => ?_
    refine Sim.bind (r := Same S g) ?_ ?_
    · split
      · exact writePointer_own O _ _
      · exact ⟨rfl, O⟩
    · rintro v _ ⟨rfl, O1⟩
      exact ⟨rfl, keeps O1⟩
  · refine Sim.bind (r := Same S g) ?_ ?_
    · split
      · exact writePointer_own O _ _
      · exact ⟨rfl, O⟩
    · rintro v _ ⟨rfl, O1⟩
      exact ⟨rfl, keeps O1⟩
  · split
    · exact ⟨rfl, keeps O⟩
    · exact ⟨rfl, keeps O⟩
    · exact ⟨rfl, ⟨O.node, O.root, O.current, O.commands, (O.node n hn).1, O.procChild⟩⟩
    · exact rfl
  · exact rfl

theorem acRecallSuffix_own (O : Own S u) : Sim (Same S g) (acRecallSuffix u) (acRecallSuffix (over S g u)) := by
  unfold acRecallSuffix
  refine .same _ fun len _ => ?_
  split
  · exact rfl
  · refine .same _ fun slen _ => ?_
    split
    · exact writePointer_own O _ _
    · exact writePointer_own (acPrepareCandidates_own O) _ _

theorem acCandidatesProcess_own (O : Own S u) : Sim (Same S g) (acCandidatesProcess E u) (acCandidatesProcess E (over S g u)) := by
  unfold acCandidatesProcess
  cases hn : u.procNode with
  | none => exact acCheckForFinish_own O
  | some n =>
    have hS := O.procNode n hn
    refine Sim.bind (acCheckForNext_own O hS) ?_
    rintro ⟨v, b⟩ ⟨_, b'⟩ ⟨⟨rfl, O1⟩, ht⟩
    obtain rfl : b' = b := ht
    simp only
    split
    · exact ⟨rfl, O1⟩
    · refine Sim.bind (acFilePrepare_own O1 hS) ?_
      rintro ⟨w, f, b2⟩ ⟨_, f', b2'⟩ ⟨⟨rfl, O2⟩, ht⟩
      obtain ⟨rfl, rfl⟩ : f' = f ∧ b2' = b2 := by simpa using ht
      simp only
      split
      · exact ⟨rfl, O2⟩
      · exact acFileIndex_own O2 hS _

theorem acCandidatesFinish_own (O : Own S u) : Sim (Same S g) (acCandidatesFinish E u) (acCandidatesFinish E (over S g u)) := by
  unfold acCandidatesFinish
  cases hp : u.acPrevState
  case acCandPrint => exact ⟨rfl, keeps O⟩
  case acCandCount =>
    simp only
    split
    · exact ⟨rfl, keeps O⟩
    · refine .same _ fun len _ => ?_
      cases hc : u.acCand with
      | none => exact rfl
      | some cand =>
        refine .same _ fun buf _ => ?_
        refine .same _ fun p _ => ?_
        rw [← hp, ← hc]
        exact writePointer_own (u := { u with inBuf := buf, inPos := p }) (keeps O) _ _
    · rw [← hp]
      exact acOptimizeContinue_own (u := { u with acSuffixLen := 0 }) (keeps O)
  case acCandOptimise =>
    simp only
    split
    · refine .same _ fun buf _ => ?_
      split
      · exact rfl
      · exact ⟨rfl, keeps O⟩
    · exact acOptimizeContinue_own O
  all_goals exact rfl

/-! ## One step -/

theorem innerStep_own (P : Private S E) (O : Own S u) : Sim (Same S g) (innerStep E u) (innerStep E (over S g u)) := by
  unfold innerStep
  cases u.state
  case readPrepare => exact readStart_own O
  case promptPath => exact promptPathStep_own O
  case resetPrompt => exact ⟨rfl, keeps O⟩
  case readChar => exact ⟨rfl, O⟩
  case writeChar => exact ⟨rfl, O⟩
  case parsePrepare => exact ⟨rfl, keeps O⟩
  case parseSearchArg => exact parseChar_own P O
  case parseQuoteArg => exact parseChar_own P O
  case parseStandardArg => exact parseChar_own P O
  case processStart => exact processCall_own P O
  case processService => exact processCall_own P O
  case processFinish => exact processCall_own P O
  case acPrepare =>
    refine .same _ fun s _ => ?_
    exact ⟨rfl, keeps O⟩
  case acCandStart => exact ⟨rfl, ⟨O.node, O.root, O.current, O.commands, O.commands, O.procChild⟩⟩
  case acCandCount => exact acCandidatesProcess_own O
  case acCandOptimise => exact acCandidatesProcess_own O
  case acCandPrint => exact acCandidatesProcess_own O
  case acCandFinish => exact acCandidatesFinish_own O
  case acPrompt => exact ⟨rfl, keeps O⟩
  case acRecallSuffix => exact acRecallSuffix_own O
  all_goals exact writePointer_own O _ _

theorem service_own (P : Private S E) (O : Own S u) (io : Io) : Sim (SameR S g) (service E io u) (service E io (over S g u)) := by
  by_cases hc : u.current.isSome = true
  · rw [service_eq E io u hc, service_eq E io (over S g u) hc]
    have lift : ∀ {m m' : M Ush} (b : Bool), Sim (Same S g) m m' → Sim (SameR S g) (m >>= fun v => .ok (v, b)) (m' >>= fun v => .ok (v, b)) := by
      intro m m' b h
      refine Sim.bind h ?_
      rintro v _ ⟨rfl, O1⟩
      exact ⟨⟨rfl, O1⟩, rfl⟩
    have I := lift true (innerStep_own (g := g) P O)
    cases hs : u.state
    case readChar => exact readChar_own O io
    case readPrepare => exact lift false (readStart_own O)
    case writeChar => exact lift true (writeChar_own O io)
    all_goals exact I
  · have h : u.current.isSome = false := by simpa using hc
    have e1 : ∀ v : Ush, v.current = u.current → service E io v = .error .assert := by
      intro v hv
      unfold service
      rw [hv, h]
      rfl
    rw [e1 u rfl, e1 (over S g u) rfl]
    exact rfl

theorem step_own (h0 : S 0 = true) (P : Private S E) (O : Own S u) (o : Op) (ho : OpIn S o) : Sim (Same S g) (step E u o) (step E (over S g u) o) := by
  cases o with
  | service io =>
    refine Sim.bind (service_own P O io) ?_
    rintro ⟨v, b⟩ ⟨_, b'⟩ ⟨⟨rfl, O1⟩, ht⟩
    obtain rfl : b' = b := ht
    exact ⟨rfl, O1⟩
  | api a => exact runApi_own O a ho
  | init =>
    show Sim _ (ushInit E u) (ushInit E (over S g u))
    unfold ushInit
    refine .same _ fun _ _ => ?_
    refine .same _ fun _ _ => ?_
    refine Sim.bind (r := fun v w => w = over S g v ∧ Own S v) ?_ ?_
    · split
      · refine Sim.bind (commandsAdd_own (u := { u with root := none }) ⟨O.node, .none, O.current, O.commands, O.procNode, O.procChild⟩ h0 (builtinTable E)) ?_
        rintro ⟨v, s⟩ ⟨_, s'⟩ ⟨⟨rfl, O1⟩, ht⟩
        obtain rfl : s' = s := ht
        exact ⟨rfl, O1⟩
      · exact ⟨rfl, O.node, .none, O.current, O.commands, O.procNode, O.procChild⟩
    rintro v _ ⟨rfl, O1⟩
    exact writePointer_own (u := { v with current := v.root }) ⟨O1.node, O1.root, O1.root, O1.commands, O1.procNode, O1.procChild⟩ _ _
  | deinit =>
    show Sim _ (ushDeinit E u) (ushDeinit E (over S g u))
    unfold ushDeinit
    refine Sim.bind (deinitRec_mix E.nodeCount u.nodes u.root O.node O.root) ?_
    rintro b c ⟨rfl, hb⟩
    simp only [mix_set _ h0]
    refine ⟨rfl, ?_, .none, .none, .none, .none, .none⟩
    intro j hj
    simp only [setNode]
    split
    · exact ⟨.none, .none, .none⟩
    · exact hb j hj

end Ush
