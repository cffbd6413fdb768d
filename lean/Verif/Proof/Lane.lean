import Verif.Spec.Loop
import Verif.Proof.Safe
/-!
# Where the shell goes next

`On P u`: the state the shell is in, or will be in when it has printed what it is printing, is one of those in `P`.
-/
namespace Ush
open Spec
variable {E : Env} {P : St → Bool} {u v w : Ush}

/-- The states of completion with TAB, and waiting for a key. -/
def isKeyed : St → Bool
  | .acPrepare | .acCandStart | .acCandCount | .acCandOptimise | .acCandPrint | .acCandFinish | .acPromptPrepare | .acPrompt | .acRecall
  | .acRecallSuffix | .readChar | .writeChar => true
  | _ => false

def On (P : St → Bool) (u : Ush) : Prop := P (next u) = true

theorem On.state (hw : P .writeChar = true) (H : On P u) : P u.state = true := by
  unfold On next at H
  split at H
  · rename_i hs; rw [hs]; exact hw
  · exact H

theorem On.of (hs : P u.state = true) (hw : u.state ≠ .writeChar) : On P u := by
  unfold On next
  rw [if_neg hw]; exact hs

/-! ### Lines -/

theorem writePointer_on {p : Ptr} {st : St} (hst : P st = true) (h : writePointer u p st = .ok v) : On P v := by
  unfold writePointer at h
  mgo h
  cases h; exact hst

theorem printfError_on {m : Str} (H : On P u) (h : printfError E u m = .ok v) : On P v := by
  unfold printfError at h
  mgo h <;> (cases h; exact H)

theorem ushPrintf_on (L : ∀ s, isLine s = true → P s = true) {f : Fmt} (h : ushPrintf E u f = .ok v) : On P v := by
  unfold ushPrintf at h
  obtain ⟨u1, h1, h⟩ := M.bind_eq_ok.mp h
  have e1 : On P u1 := by
    split at h1
    · obtain ⟨o, _, h1⟩ := M.bind_eq_ok.mp h1
      exact writePointer_on (L _ rfl) h1
    · cases h1; exact L _ rfl
  obtain ⟨_, _, h⟩ := M.bind_eq_ok.mp h
  obtain ⟨_, _, h⟩ := M.bind_eq_ok.mp h
  obtain ⟨_, _, h⟩ := M.bind_eq_ok.mp h
  split at h
  · exact printfError_on (by exact e1) h
  · split at h
    · exact printfError_on (by exact e1) h
    · cases h; exact e1

/-- The call puts the shell into no other state. -/
def ApiOn (P : St → Bool) (a : Api) : Prop := ∀ s, a = .setState s → P s = true ∧ s ≠ .writeChar

theorem runApi_on (L : ∀ s, isLine s = true → P s = true) (H : On P u) {a : Api} (ha : ApiOn P a) (h : runApi E u a = .ok v) : On P v := by
  cases a with
  | print p => exact writePointer_on (L _ rfl) h
  | printNoNewline p => exact writePointer_on (L _ rfl) h
  | printStatus s => exact writePointer_on (L _ rfl) h
  | printf f => exact ushPrintf_on L h
  | flush => exact writePointer_on (L _ rfl) h
  | reset => exact writePointer_on (L _ rfl) h
  | mount p i fs =>
    obtain ⟨r, h1, h⟩ := M.bind_eq_ok.mp h
    cases h
    unfold nodeMount at h1
    mgo h1 <;> (cases h1; exact H)
  | unmount p =>
    obtain ⟨r, h1, h⟩ := M.bind_eq_ok.mp h
    cases h
    unfold nodeUnmount at h1
    mgo h1 <;> (cases h1; exact H)
  | setCurrentDir p =>
    obtain ⟨r, h1, h⟩ := M.bind_eq_ok.mp h
    cases h
    unfold setCurrentDir at h1
    mgo h1 <;> (cases h1; exact H)
  | commandsAdd i fs =>
    obtain ⟨r, h1, h⟩ := M.bind_eq_ok.mp h
    cases h
    unfold commandsAdd at h1
    mgo h1
    cases h1; exact H
  | commandsRemove i =>
    obtain ⟨r, h1, h⟩ := M.bind_eq_ok.mp h
    cases h
    unfold commandsRemove at h1
    mgo h1 <;> (cases h1; exact H)
  | processStart f => cases h; exact L _ rfl
  | setState s =>
    cases h
    exact .of (ha s rfl).1 (ha s rfl).2
  | fillOut s =>
    obtain ⟨r, h1, h⟩ := M.bind_eq_ok.mp h
    cases h; exact H

theorem runApis_on (L : ∀ s, isLine s = true → P s = true) : ∀ (as : List Api) {u v : Ush}, On P u → (∀ a ∈ as, ApiOn P a) → runApis E u as = .ok v → On P v := by
  intro as
  induction as with
  | nil => intro u v H _ h; cases h; exact H
  | cons a as ih =>
    intro u v H ha h
    obtain ⟨w, h1, h2⟩ := M.bind_eq_ok.mp h
    exact ih (runApi_on L H (ha a (by simp)) h1) (fun b hb => ha b (by simp [hb])) h2

/-- No callback puts the shell into another state. -/
structure EnvOn (P : St → Bool) (E : Env) : Prop where
  hook : ∀ k, E.hook = some k → ∀ argv u, ∀ a ∈ k argv u, ApiOn P a
  exec : ∀ id argv u, ∀ a ∈ E.userExec id argv u, ApiOn P a
  set : ∀ id d u, ∀ a ∈ E.userSet id d u, ApiOn P a
  proc : ∀ id u, ∀ a ∈ E.userProc id u, ApiOn P a

theorem calls_on (cs : List Call) : ∀ a ∈ cs.flatMap Call.apis, ApiOn P a := by
  intro a ha
  obtain ⟨c, -, ha⟩ := List.mem_flatMap.mp ha
  rintro s rfl
  cases c with
  | fs o => cases o <;> simp [Call.apis, FsOp.api] at ha
  | _ => simp [Call.apis] at ha

theorem helpService_on (L : ∀ s, isLine s = true → P s = true) (H : On P u) (h : helpService E u = .ok v) : On P v := by
  have H' := H.state (L _ rfl)
  unfold helpService at h
  mgo h
  all_goals first
    | (cases h; exact L _ rfl)
    | (cases h; exact H)
    | exact writePointer_on H' h

theorem lsService_on (L : ∀ s, isLine s = true → P s = true) (H : On P u) (h : lsService E u = .ok v) : On P v := by
  have H' := H.state (L _ rfl)
  unfold lsService at h
  mgo h
  all_goals first
    | (cases h; exact L _ rfl)
    | (cases h; exact H)
    | exact writePointer_on H' h
    | (cases h; rename_i hw; have hz := writePointer_on (L _ rfl) hw; exact hz)

theorem catService_on (L : ∀ s, isLine s = true → P s = true) (H : On P u) (h : catService E u = .ok v) : On P v := by
  have H' := H.state (L _ rfl)
  unfold catService at h
  mgo h
  all_goals first
    | (cases h; exact L _ rfl)
    | (cases h; exact H)
    | (rename_i hg; have hg := congrArg Prod.fst hg; cases hg; cases h; exact H')

theorem xxdService_on (L : ∀ s, isLine s = true → P s = true) (H : On P u) (h : xxdService E u = .ok v) : On P v := by
  have H' := H.state (L _ rfl)
  unfold xxdService at h
  mgo h
  all_goals first
    | (cases h; exact L _ rfl)
    | (cases h; exact H)
    | exact writePointer_on H' h

theorem processCall_on (L : ∀ s, isLine s = true → P s = true) (hE : EnvOn P E) (H : On P u) (h : processCall E u = .ok v) : On P v := by
  unfold processCall at h
  split at h
  · cases h
  · split at h
    · cases h; exact L _ rfl
    · exact helpService_on L H h
    · exact lsService_on L H h
    · exact catService_on L H h
    · exact xxdService_on L H h
    · cases h
    · exact runApis_on L _ (u := u.emit _) H (hE.proc _ u) h

theorem echoDecode_on {argv : List Nat} {r : Ush × Nat × Nat} (H : On P u) (h : echoDecode u argv = .ok r) : On P r.1 := by
  unfold echoDecode at h
  obtain ⟨o, _, h⟩ := M.bind_eq_ok.mp h
  obtain ⟨m, hm, h⟩ := M.bind_eq_ok.mp h
  obtain ⟨y, hy, h⟩ := M.bind_eq_ok.mp h
  cases h; exact H

theorem callExec_on (L : ∀ s, isLine s = true → P s = true) (hE : EnvOn P E) (H : On P u) {f : FileDesc} {cb : Cb} {argv : List Nat} {strs : List Str}
    (h : callExec E u f cb argv strs = .ok v) : On P v := by
  unfold callExec at h
  have H' : On P (u.emit (.exec cb strs)) := H
  simp only at h
  generalize u.emit (.exec cb strs) = w at h H'
  split at h
  · unfold helpCallback at h
    mgo h
    all_goals first
      | (cases h; exact L _ rfl)
      | exact writePointer_on (L _ rfl) h
  · unfold lsCallback at h
    mgo h
    all_goals first
      | (cases h; exact L _ rfl)
      | exact writePointer_on (L _ rfl) h
  · unfold cdCallback at h
    split at h
    · exact writePointer_on (L _ rfl) h
    · obtain ⟨_, _, h⟩ := M.bind_eq_ok.mp h
      obtain ⟨_, _, h⟩ := M.bind_eq_ok.mp h
      obtain ⟨r, hr, h⟩ := M.bind_eq_ok.mp h
      have : On P r.1 := by
        unfold setCurrentDir at hr
        mgo hr <;> (cases hr; exact H')
      simp only at h
      split at h
      · exact writePointer_on (L _ rfl) h
      · cases h; exact this
  · unfold pwdCallback at h
    mgo h
    all_goals exact writePointer_on (L _ rfl) h
  · unfold catCallback at h
    mgo h
    all_goals first
      | (cases h; exact L _ rfl)
      | exact writePointer_on (L _ rfl) h
  · unfold xxdCallback at h
    mgo h
    all_goals first
      | (cases h; exact L _ rfl)
      | exact writePointer_on (L _ rfl) h
  · unfold echoCallback at h
    split at h
    · obtain ⟨_, _, h⟩ := M.bind_eq_ok.mp h
      obtain ⟨_, _, h⟩ := M.bind_eq_ok.mp h
      split at h
      · exact writePointer_on (L _ rfl) h
      · obtain ⟨_, _, h⟩ := M.bind_eq_ok.mp h
        obtain ⟨_, _, h⟩ := M.bind_eq_ok.mp h
        obtain ⟨r, hr, h⟩ := M.bind_eq_ok.mp h
        cases r with
        | none => exact writePointer_on (L _ rfl) h
        | some g =>
          simp only at h
          cases hg : g.setData with
          | none => rw [hg] at h; exact writePointer_on (L _ rfl) h
          | some id =>
            rw [hg] at h
            simp only at h
            obtain ⟨r, hd, h⟩ := M.bind_eq_ok.mp h
            unfold callSet at h
            exact runApis_on L _ (u := r.1.emit _) (echoDecode_on H' hd) (hE.set _ _ _) h
    · obtain ⟨r, hr, h⟩ := M.bind_eq_ok.mp h
      exact writePointer_on (L _ rfl) h
    · cases h; exact L _ rfl
    · exact writePointer_on (L _ rfl) h
  · exact runApis_on L _ H' (hE.exec _ _ _) h

theorem parseFinish_on (L : ∀ s, isLine s = true → P s = true) (hE : EnvOn P E) (H : On P u) (h : parseFinish E u = .ok v) : On P v := by
  unfold parseFinish at h
  obtain ⟨argv, hargv, h⟩ := M.bind_eq_ok.mp h
  split at h
  · cases h; exact H
  · obtain ⟨strs, hstrs, h⟩ := M.bind_eq_ok.mp h
    obtain ⟨w, hw, h⟩ := M.bind_eq_ok.mp h
    have h1 : On P w := by
      unfold callHook at hw
      split at hw
      · cases hw; exact H
      · rename_i k hk
        exact runApis_on L _ (u := u.emit _) H (hE.hook k hk strs u) hw
    obtain ⟨_, _, h⟩ := M.bind_eq_ok.mp h
    obtain ⟨_, _, h⟩ := M.bind_eq_ok.mp h
    obtain ⟨r, hr, h⟩ := M.bind_eq_ok.mp h
    cases r with
    | none => exact writePointer_on (L _ rfl) h
    | some f =>
      simp only at h
      cases he : f.exec with
      | none => rw [he] at h; exact writePointer_on (L _ rfl) h
      | some cb => rw [he] at h; exact callExec_on L hE h1 h

theorem putOut_on {c : UInt8} (H : On P u) (h : putOut u c = .ok v) : On P v := by
  unfold putOut at h
  obtain ⟨b, hb, h⟩ := M.bind_eq_ok.mp h
  cases h; exact H

theorem parseEscaped_on {c : UInt8} (H : On P u) (h : parseEscaped u c = .ok v) : On P v := by
  unfold parseEscaped at h
  obtain ⟨a, h1, h⟩ := M.bind_eq_ok.mp h
  obtain ⟨b, h2, h⟩ := M.bind_eq_ok.mp h
  cases h
  have k1 : On P a := by
    split at h1
    · exact putOut_on H h1
    · cases h1; exact H
  have := putOut_on k1 h2
  exact this

theorem parseCharStandard_on (L : ∀ s, isLine s = true → P s = true) {c : UInt8} (H : On P u) (h : parseCharStandard u c = .ok v) : On P v := by
  unfold parseCharStandard at h
  mgo h
  all_goals first
    | (cases h; exact L _ rfl)
    | (cases h; exact H)
    | exact putOut_on H h
    | exact parseEscaped_on H h

theorem parseChar_on (L : ∀ s, isLine s = true → P s = true) (hE : EnvOn P E) (H : On P u) (h : parseChar E u = .ok v) : On P v := by
  unfold parseChar at h
  obtain ⟨ch, _, h⟩ := M.bind_eq_ok.mp h
  simp only at h
  split at h
  · obtain ⟨w, hw, h⟩ := M.bind_eq_ok.mp h
    exact parseFinish_on L hE (by exact L _ rfl) h
  · exact parseCharStandard_on L (u := { u with inPos := u.inPos + 1 }) H h


/-! ### Completion -/

theorem acOptimizeContinue_on (L : ∀ s, isKeyed s = true → P s = true) (h : acOptimizeContinue E u = .ok v) : On P v := by
  unfold acOptimizeContinue at h
  mgo h
  all_goals (cases h; exact L _ rfl)

theorem acCandidatesProcess_on (L : ∀ s, isKeyed s = true → P s = true) (H : On P u) (h : acCandidatesProcess E u = .ok v) : On P v := by
  unfold acCandidatesProcess at h
  split at h
  · unfold acCheckForFinish at h
    mgo h
    all_goals first
      | (cases h; exact L _ rfl)
      | (cases h; exact H)
  · obtain ⟨r, h1, h⟩ := M.bind_eq_ok.mp h
    have e1 : On P r.1 := by
      unfold acCheckForNext at h1
      mgo h1 <;> (cases h1; exact H)
    simp only at h
    split at h
    · cases h; exact e1
    · obtain ⟨q, h2, h⟩ := M.bind_eq_ok.mp h
      have e2 : On P q.1 := by
        unfold acFilePrepare at h2
        mgo h2
        all_goals
          first
            | (cases h2; exact e1)
            | (simp only at h2; split at h2 <;> (cases h2; exact e1))
      split at h
      · cases h; exact e2
      · unfold acFileIndex at h
        split at h
        · obtain ⟨nm, h3, h⟩ := M.bind_eq_ok.mp h
          obtain ⟨w, h4, h⟩ := M.bind_eq_ok.mp h
          cases h
          split at h4
          · have hz := writePointer_on (e2.state (L _ rfl)) h4; exact hz
          · cases h4; exact e2
        · obtain ⟨w, h4, h⟩ := M.bind_eq_ok.mp h
          cases h
          split at h4
          · have hz := writePointer_on (e2.state (L _ rfl)) h4; exact hz
          · cases h4; exact e2
        · mgo h <;> (cases h; exact e2)
        · cases h

theorem acCandidatesFinish_on (L : ∀ s, isKeyed s = true → P s = true) (h : acCandidatesFinish E u = .ok v) : On P v := by
  unfold acCandidatesFinish at h
  mgo h
  all_goals first
    | (cases h; exact L _ rfl)
    | exact acOptimizeContinue_on L h
    | exact writePointer_on (L _ rfl) h

end Ush
