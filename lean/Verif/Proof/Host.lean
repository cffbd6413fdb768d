import Verif.Spec.Host
import Verif.Proof.Contract
import Verif.Proof.Lane
import Verif.Proof.Fair
import Verif.Proof.Session
/-!
# A hostname that changes
-/
namespace Ush
open Spec
variable {E : Env} {u v w : Ush} {h : Str}

/-! ### The hostname is used in one state only -/

theorem getByPathLoop_named (nodes : NodeId → Node) (p : Str) : ∀ n i c, getByPathLoop (E.named h) nodes p n i c = getByPathLoop E nodes p n i c := by
  intro n
  induction n with
  | zero => intros; rfl
  | succ n ih =>
    intro i c
    simp only [getByPathLoop, ih]
    rfl

theorem getByPath_named : getByPath (E.named h) = getByPath E := by
  funext u p
  unfold getByPath
  simp only [getByPathLoop_named]
  rfl

theorem findFileIn_named (d a : Str) : ∀ fs, findFileIn (E.named h) d a fs = findFileIn E d a fs := by
  intro fs
  induction fs with
  | nil => rfl
  | cons f fs ih => simp only [findFileIn, ih]; rfl

theorem findFileNode_named : findFileNode (E.named h) = findFileNode E := by
  funext a b
  unfold findFileNode
  simp only [findFileIn_named]

theorem findFile_named (ns : NodeId → Node) (a : Str) : ∀ n c, findFile (E.named h) ns a n c = findFile E ns a n c := by
  intro n
  induction n with
  | zero => intro c; cases c <;> rfl
  | succ n ih =>
    intro c
    cases c with
    | none => rfl
    | some c => simp only [findFile, ih, findFileNode_named]

theorem getParentByPath_named : getParentByPath (E.named h) = getParentByPath E := by
  funext u p
  unfold getParentByPath
  simp only [getByPath_named]

theorem fileFindByName_named : fileFindByName (E.named h) = fileFindByName E := by
  funext u p
  unfold fileFindByName
  simp only [findFile_named, getParentByPath_named]
  rfl

theorem setCurrentDir_named : setCurrentDir (E.named h) = setCurrentDir E := by
  funext u p
  unfold setCurrentDir
  simp only [getByPath_named]
  rfl

theorem nodeMount_named : nodeMount (E.named h) = nodeMount E := by
  funext u p i fs
  unfold nodeMount
  simp only [getByPath_named, getParentByPath_named]

theorem nodeUnmount_named : nodeUnmount (E.named h) = nodeUnmount E := by
  funext u p
  unfold nodeUnmount
  simp only [getByPath_named, getParentByPath_named]
  rfl

theorem runApi_named : runApi (E.named h) = runApi E := by
  funext u a
  cases a <;> simp only [runApi, nodeMount_named, nodeUnmount_named, setCurrentDir_named] <;> rfl

theorem runApis_named : ∀ (as : List Api) (u : Ush), runApis (E.named h) u as = runApis E u as := by
  intro as
  induction as with
  | nil => intro u; rfl
  | cons a as ih => intro u; simp only [runApis, runApi_named, ih]

theorem callExec_named : callExec (E.named h) = callExec E := by
  funext u f cb argv strs
  have e1 : helpCallback (E.named h) = helpCallback E := by
    funext u f a
    unfold helpCallback
    simp only [fileFindByName_named]
    rfl
  have e2 : lsCallback (E.named h) = lsCallback E := by
    funext u f a
    unfold lsCallback
    simp only [getByPath_named]
    rfl
  have e3 : cdCallback (E.named h) = cdCallback E := by
    funext u a
    unfold cdCallback
    simp only [setCurrentDir_named]
    rfl
  have e4 : catCallback (E.named h) = catCallback E := by
    funext u f a
    have : ∀ os, catCheck (E.named h) u os = catCheck E u os := by
      intro os
      induction os with
      | nil => rfl
      | cons o os ih => simp only [catCheck, fileFindByName_named, ih]
    unfold catCallback
    simp only [this]
    rfl
  have e5 : xxdCallback (E.named h) = xxdCallback E := by
    funext u f a
    unfold xxdCallback
    simp only [fileFindByName_named]
    rfl
  have e6 : echoCallback (E.named h) = echoCallback E := by
    funext u a
    unfold echoCallback callSet
    simp only [fileFindByName_named, runApis_named]
    rfl
  unfold callExec
  simp only [e1, e2, e3, e4, e5, e6, runApis_named]
  rfl

theorem parseChar_named : parseChar (E.named h) = parseChar E := by
  funext u
  unfold parseChar parseFinish callHook
  simp only [fileFindByName_named, runApis_named, callExec_named]
  rfl

theorem catService_named : catService (E.named h) = catService E := by
  funext u
  unfold catService
  simp only [fileFindByName_named]
  rfl

theorem processCall_named : processCall (E.named h) = processCall E := by
  funext u
  unfold processCall
  simp only [catService_named, runApis_named]
  rfl

theorem acCandidatesProcess_named : acCandidatesProcess (E.named h) = acCandidatesProcess E := by
  funext u
  unfold acCandidatesProcess acCheckForFinish
  simp only [getParentByPath_named]
  rfl

theorem innerStep_named (hs : u.state ≠ .promptHost) : innerStep (E.named h) u = innerStep E u := by
  unfold innerStep
  split
  all_goals first
    | rfl
    | (rename_i hu; exact absurd hu hs)
    | rw [parseChar_named]
    | rw [processCall_named]
    | rw [acCandidatesProcess_named]

theorem drive1_named (hs : u.state ≠ .promptHost) (i : List UInt8) (s : Slot) : drive1 (E.named h) u i s = drive1 E u i s := by
  unfold drive1
  congr 1
  cases hc : u.current.isSome with
  | false => rw [service_noroot _ _ _ hc, service_noroot _ _ _ hc]
  | true =>
    rw [service_eq _ _ _ hc, service_eq _ _ _ hc, innerStep_named hs]
    rfl

/-! ### Where the prompt begins -/

/-- The states outside the prompt. -/
def outside (s : St) : Bool := !isPrompt s

theorem outside_line (s : St) (h : isLine s = true) : outside s = true := by cases s <;> first | rfl | cases h

theorem outside_keyed (s : St) (h : isKeyed s = true) : outside s = true := by cases s <;> first | rfl | cases h

/-- The shell is not in the middle of the prompt. -/
abbrev Off (u : Ush) : Prop := On outside u

theorem Spec.App.Describes.off {A : App} (hA : A.Describes E) (hp : NoPrompt E) : EnvOn outside E where
  hook := fun k hk argv u a ha => by
    have := hA.hook u.log argv
    unfold HookSays at this
    rw [hk] at this
    rw [this u rfl] at ha
    exact calls_on _ a ha
  exec := fun id argv u a ha => by
    rw [hA.exec id u.log argv u rfl] at ha
    exact calls_on _ a ha
  set := fun id d u a ha => by
    rw [hA.set id u.log d u rfl] at ha
    exact calls_on _ a ha
  proc := fun id u a ha s hs => by
    obtain ⟨h1, h2⟩ := hp id u s (hs ▸ ha)
    exact ⟨by unfold outside; rw [h1]; rfl, h2⟩


theorem readChar_off (H : Off u) {io : Io} {r : Ush × Bool} (h : readChar E io u = .ok r) : Off r.1 := by
  unfold readChar at h
  cases hrd : io.rd with
  | none => rw [hrd] at h; cases h; exact H
  | some ch =>
    rw [hrd] at h
    simp only at h
    obtain ⟨p, h1, h⟩ := M.bind_eq_ok.mp h
    have e1 : Off p.1 := by
      split at h1
      · obtain ⟨w, hw, h1⟩ := M.bind_eq_ok.mp h1
        cases h1; exact writePointer_on rfl hw
      · split at h1
        · split at h1
          · obtain ⟨w, hw, h1⟩ := M.bind_eq_ok.mp h1
            cases h1; exact H
          · cases h1; exact H
        · split at h1
          · cases h1
            cases E.autocomplete with
            | true => exact rfl
            | false => exact H
          · split at h1
            · cases h1; exact H
            · unfold readCharByEscape at h1
              split at h1
              · obtain ⟨b1, h2, h1⟩ := M.bind_eq_ok.mp h1
                obtain ⟨b2, h3, h1⟩ := M.bind_eq_ok.mp h1
                cases h1; exact H
              · mgo h1 <;> (cases h1; exact H)
    obtain ⟨w, hw, h⟩ := M.bind_eq_ok.mp h
    cases h
    split at hw
    · unfold readEcho at hw
      obtain ⟨o, _, hw⟩ := M.bind_eq_ok.mp hw
      refine writePointer_on ?_ hw
      split <;> rfl
    · cases hw; exact e1

/-- The invariant: a prompt is followed by the start of a line or by the line that is being completed. -/
def Aims (u : Ush) : Prop := isPrompt (next u) = true → u.promptNext = .readPrepare ∨ u.promptNext = .acRecall

theorem Off.aims (H : Off u) : Aims u := fun h => by
  unfold Off On outside at H
  rw [h] at H; cases H

theorem writePointer_next {p : Ptr} {st : St} (h : writePointer u p st = .ok v) : next v = st ∧ v.promptNext = u.promptNext ∧ v.log = u.log ∧ v.state = .writeChar := by
  unfold writePointer at h
  mgo h
  cases h; exact ⟨rfl, rfl, rfl, rfl⟩

theorem promptPathStep_next (h : promptPathStep u = .ok v) : next v = .promptSuffix ∧ v.promptNext = u.promptNext ∧ v.log = u.log ∧ v.state = .writeChar := by
  unfold promptPathStep at h
  split at h
  · cases h
  · split at h
    · cases h
    · exact writePointer_next h

theorem innerStep_aims (hE : EnvOn outside E) (H : Aims u) (hw : u.state ≠ .writeChar) (h : innerStep E u = .ok v) : Aims v := by
  have hn : next u = u.state := by unfold next; rw [if_neg hw]
  have off : outside u.state = true → Off u := fun h => .of h hw
  unfold Aims at H
  rw [hn] at H
  unfold innerStep at h
  split at h <;> rename_i hs <;> rw [hs] at H off
  · exact Off.aims (writePointer_on rfl h)
  · cases h; exact fun _ => .inl rfl
  · obtain ⟨-, e, -⟩ := writePointer_next h; exact fun _ => by rw [e]; exact H rfl
  · obtain ⟨-, e, -⟩ := writePointer_next h; exact fun _ => by rw [e]; exact H rfl
  · obtain ⟨-, e, -⟩ := writePointer_next h; exact fun _ => by rw [e]; exact H rfl
  · obtain ⟨-, e, -⟩ := promptPathStep_next h; exact fun _ => by rw [e]; exact H rfl
  · obtain ⟨-, e, -⟩ := writePointer_next h; exact fun _ => by rw [e]; exact H rfl
  · unfold readStart at h
    obtain ⟨b, hb, h⟩ := M.bind_eq_ok.mp h
    cases h; exact Off.aims rfl
  · cases h; exact (off rfl).aims
  · cases h; exact Off.aims rfl
  · exact Off.aims (parseChar_on outside_line hE (off rfl) h)
  · exact Off.aims (parseChar_on outside_line hE (off rfl) h)
  · exact Off.aims (parseChar_on outside_line hE (off rfl) h)
  · exact absurd hs hw
  · exact Off.aims (processCall_on outside_line hE (off rfl) h)
  · exact Off.aims (processCall_on outside_line hE (off rfl) h)
  · exact Off.aims (processCall_on outside_line hE (off rfl) h)
  · unfold acStatePrepare at h
    mgo h
    cases h; exact Off.aims rfl
  · cases h; exact Off.aims rfl
  · exact Off.aims (acCandidatesProcess_on outside_keyed (off rfl) h)
  · exact Off.aims (acCandidatesProcess_on outside_keyed (off rfl) h)
  · exact Off.aims (acCandidatesProcess_on outside_keyed (off rfl) h)
  · exact Off.aims (acCandidatesFinish_on outside_keyed h)
  · exact Off.aims (writePointer_on rfl h)
  · cases h; exact fun _ => .inr rfl
  · exact Off.aims (writePointer_on rfl h)
  · unfold acRecallSuffix at h
    mgo h
    all_goals exact Off.aims (writePointer_on rfl h)

theorem writeChar_next {io : Io} (hs : u.state = .writeChar) (h : writeChar io u = .ok v) :
    v.promptNext = u.promptNext ∧ next v = next u ∧ (v.log = u.log ∨ ∃ c, v.log = u.log ++ [.out c]) := by
  unfold writeChar at h
  split at h
  · cases h
    refine ⟨rfl, ?_, .inl rfl⟩
    unfold next
    rw [if_pos hs]
    show (if u.writeNext = .writeChar then u.writeNext else u.writeNext) = _
    split <;> rfl
  · obtain ⟨ch, _, h⟩ := M.bind_eq_ok.mp h
    split at h
    · cases h; exact ⟨rfl, rfl, .inr ⟨ch, rfl⟩⟩
    · cases h; exact ⟨rfl, rfl, .inl rfl⟩

theorem drive1_aims (hE : EnvOn outside E) (H : Aims u) {i r : List UInt8} {s : Slot} (h : drive1 E u i s = .ok (v, r)) : Aims v := by
  unfold drive1 at h
  obtain ⟨⟨w, b⟩, hw, h⟩ := M.bind_eq_ok.mp h
  cases h
  cases hc : u.current.isSome with
  | false => rw [service_noroot _ _ _ hc] at hw; cases hw
  | true =>
    rw [service_eq _ _ _ hc] at hw
    split at hw
    · rename_i hs
      exact (readChar_off (.of (by rw [hs]; rfl) (by rw [hs]; simp)) hw).aims
    · rename_i hs
      obtain ⟨x, hx, hw⟩ := M.bind_eq_ok.mp hw
      cases hw
      refine innerStep_aims hE H (by rw [hs]; simp) (E := E) ?_
      unfold innerStep; rw [hs]; exact hx
    · rename_i hs
      obtain ⟨x, hx, hw⟩ := M.bind_eq_ok.mp hw
      cases hw
      obtain ⟨e1, e2, -⟩ := writeChar_next hs hx
      unfold Aims; rw [e1, e2]; exact H
    · rename_i hs
      obtain ⟨x, hx, hw⟩ := M.bind_eq_ok.mp hw
      cases hw
      exact innerStep_aims hE H hs hx

/-- From here on only bytes are printed until the shell waits for a key. -/
def Closing (u : Ush) : Prop := isPrompt (next u) = true ∨ next u = .readPrepare ∨ next u = .acRecall ∨ next u = .readChar

theorem drive1_closing (H : Aims u) (C : Closing u) (hr : u.state ≠ .readChar) {i r : List UInt8} {s : Slot} (h : drive1 E u i s = .ok (v, r)) :
    Closing v ∧ (v.log = u.log ∨ ∃ c, v.log = u.log ++ [.out c]) := by
  unfold drive1 at h
  obtain ⟨⟨w, b⟩, hw, h⟩ := M.bind_eq_ok.mp h
  cases h
  cases hc : u.current.isSome with
  | false => rw [service_noroot _ _ _ hc] at hw; cases hw
  | true =>
    rw [service_eq _ _ _ hc] at hw
    split at hw
    · rename_i hs; exact absurd hs hr
    · obtain ⟨x, hx, hw⟩ := M.bind_eq_ok.mp hw
      cases hw
      unfold readStart at hx
      obtain ⟨b, hb, hx⟩ := M.bind_eq_ok.mp hx
      cases hx
      exact ⟨.inr (.inr (.inr rfl)), .inl rfl⟩
    · rename_i hs
      obtain ⟨x, hx, hw⟩ := M.bind_eq_ok.mp hw
      cases hw
      obtain ⟨e1, e2, e3⟩ := writeChar_next hs hx
      exact ⟨by unfold Closing; rw [e2]; exact C, e3⟩
    · rename_i hw2 hs
      obtain ⟨x, hx, hw⟩ := M.bind_eq_ok.mp hw
      cases hw
      have hn : next u = u.state := by unfold next; rw [if_neg hs]
      unfold Closing at C
      unfold Aims at H
      rw [hn] at C H
      unfold innerStep at hx
      split at hx <;> rename_i hu <;> rw [hu] at C H hr hs
      all_goals try (exfalso; rcases C with h | h | h | h <;> (cases h; done))
      · obtain ⟨e1, -, e3, -⟩ := writePointer_next hx
        exact ⟨by unfold Closing; rw [e1]; exact .inl rfl, .inl e3⟩
      · obtain ⟨e1, -, e3, -⟩ := writePointer_next hx
        exact ⟨by unfold Closing; rw [e1]; exact .inl rfl, .inl e3⟩
      · obtain ⟨e1, -, e3, -⟩ := writePointer_next hx
        exact ⟨by unfold Closing; rw [e1]; exact .inl rfl, .inl e3⟩
      · obtain ⟨e1, -, e3, -⟩ := promptPathStep_next hx
        exact ⟨by unfold Closing; rw [e1]; exact .inl rfl, .inl e3⟩
      · obtain ⟨e1, -, e3, -⟩ := writePointer_next hx
        refine ⟨?_, .inl e3⟩
        unfold Closing
        rw [e1]
        rcases H rfl with h | h
        · exact .inr (.inl h)
        · exact .inr (.inr (.inl h))
      · exact absurd hu hw2
      · exact absurd rfl hr
      · obtain ⟨e1, -, e3, -⟩ := writePointer_next hx
        exact ⟨by unfold Closing; rw [e1]; exact .inr (.inr (.inr rfl)), .inl e3⟩

theorem drive1_pending {i r : List UInt8} {s : Slot} (h : drive1 E u i s = .ok (v, r)) : r = i ∨ (u.state = .readChar ∧ s.ready = true ∧ r = i.tail) := by
  unfold drive1 at h
  obtain ⟨⟨w, b⟩, hw, h⟩ := M.bind_eq_ok.mp h
  cases h
  split
  · rename_i hs; exact .inr ⟨hs.1, hs.2, rfl⟩
  · exact .inl rfl

theorem chain_pending : ∀ (n : Nat) {u v : Ush} {i r : List UInt8}, chain E u i n = .ok (v, r) → r.length ≤ i.length := by
  intro n
  induction n with
  | zero => intro u v i r h; cases h; exact Nat.le_refl _
  | succ n ih =>
    intro u v i r h
    rw [chain_succ] at h
    obtain ⟨⟨w, q⟩, h1, h⟩ := M.bind_eq_ok.mp h
    have := ih h
    rcases drive1_pending h1 with rfl | ⟨-, -, rfl⟩
    · exact this
    · rw [List.length_tail] at this; omega

/-- While the shell does not consume input it changes only by steps that are not waiting. -/
theorem chain_cases {n : Nat} {i : List UInt8} (h : chain E u i n = .ok (v, i)) (hi : u.state = .readChar) : v = u := by
  cases n with
  | zero => cases h; rfl
  | succ n =>
    cases i with
    | nil =>
      cases hc : u.current.isSome with
      | false => rw [chain_succ, drive1_noroot E u _ _ hc] at h; cases h
      | true => rw [chain_idle E u [] ⟨hi, rfl⟩ hc] at h; cases h; rfl
    | cons c i =>
      rw [chain_succ] at h
      obtain ⟨⟨w, q⟩, h1, h⟩ := M.bind_eq_ok.mp h
      have h2 := chain_pending _ h
      have : q = i := by
        unfold drive1 at h1
        obtain ⟨⟨w, b⟩, hw, h1⟩ := M.bind_eq_ok.mp h1
        cases h1
        rw [if_pos ⟨hi, rfl⟩]; rfl
      subst this
      simp at h2
      omega

theorem chain_closing (hE : EnvOn outside E) {host : Host} (hh : host.Ok) : ∀ (n : Nat) {u v : Ush} {i : List UInt8}, Aims u → Closing u → v.state = .readChar →
    chain E u i n = .ok (v, i) → host v.log = host u.log := by
  intro n
  induction n with
  | zero => intro u v i _ _ _ h; cases h; rfl
  | succ n ih =>
    intro u v i H C hv h
    by_cases hs : u.state = .readChar
    · rw [chain_cases h hs]
    · rw [chain_succ] at h
      obtain ⟨⟨w, q⟩, h1, h⟩ := M.bind_eq_ok.mp h
      have hq : q = i := by
        rcases drive1_pending h1 with h2 | ⟨h2, -⟩
        · exact h2
        · exact absurd h2 hs
      subst hq
      obtain ⟨c1, c2⟩ := drive1_closing H C hs h1
      rw [ih (drive1_aims hE H h1) c1 hv h]
      rcases c2 with e | ⟨c, e⟩
      · rw [e]
      · rw [e, hh.quiet]

/-! ### The dynamic chain -/

theorem driveH_append (E : Env) (host : Host) : ∀ (s1 s2 : List Slot) (u : Ush) (inp : List UInt8),
    driveH E host u inp (s1 ++ s2) = driveH E host u inp s1 >>= fun p => driveH E host p.1 p.2 s2 := by
  intro s1
  induction s1 with
  | nil => intro s2 u inp; rfl
  | cons s s1 ih =>
    intro s2 u inp
    simp only [List.cons_append, driveH]
    cases drive1 (host.now E u) u inp s with
    | error e => rfl
    | ok p => exact ih s2 p.1 p.2

abbrev chainH (E : Env) (host : Host) (u : Ush) (inp : List UInt8) (n : Nat) : M (Ush × List UInt8) :=
  driveH E host u inp (List.replicate n Slot.full)

theorem chainH_succ (E : Env) (host : Host) (u : Ush) (inp : List UInt8) (n : Nat) :
    chainH E host u inp (n + 1) = drive1 (host.now E u) u inp .full >>= fun p => chainH E host p.1 p.2 n := by
  show driveH E host u inp (List.replicate (n + 1) Slot.full) = _
  rw [List.replicate_succ]; rfl

theorem EnvOn.named (hE : EnvOn outside E) (h : Str) : EnvOn outside (E.named h) := ⟨hE.hook, hE.exec, hE.set, hE.proc⟩

/-- Until the shell waits for a key again the hostname may be taken to be the final one all the time. -/
theorem chain_dynamic (hE : EnvOn outside E) {host : Host} (hh : host.Ok) : ∀ (n : Nat) {u v : Ush} {i : List UInt8}, Aims u → v.state = .readChar →
    chain (E.named (host v.log)) u i n = .ok (v, i) → chainH E host u i n = .ok (v, i) := by
  intro n
  induction n with
  | zero => intro u v i _ _ h; cases h; rfl
  | succ n ih =>
    intro u v i H hv h
    have hw : chain (E.named (host v.log)) u i (n + 1) = .ok (v, i) := h
    rw [chain_succ] at h
    obtain ⟨⟨w, q⟩, h1, h⟩ := M.bind_eq_ok.mp h
    have e : drive1 (host.now E u) u i .full = .ok (w, q) := by
      rw [← h1]
      by_cases hs : u.state = .promptHost
      · have := chain_closing (hE.named _) hh _ H (.inl (by unfold next; rw [hs]; rfl)) hv hw
        unfold Host.now
        rw [this]
      · unfold Host.now
        rw [drive1_named hs, drive1_named hs]
    rw [chainH_succ, e, M.ok_bind]
    have hq : q = i := by
      rcases drive1_pending h1 with h2 | ⟨-, -, h3⟩
      · exact h2
      · have h4 := chain_pending _ h
        cases i with
        | nil => exact h3
        | cons c i => rw [h3] at h4; simp at h4; omega
    subst hq
    exact ih (drive1_aims (hE.named _) H h1) hv h

/-- The same when one key is consumed. -/
theorem chain_dynamic_key (hE : EnvOn outside E) {host : Host} (hh : host.Ok) {n : Nat} {c : UInt8} {i : List UInt8} (hu : u.state = .readChar) (hv : v.state = .readChar)
    (h : chain (E.named (host v.log)) u (c :: i) n = .ok (v, i)) : chainH E host u (c :: i) n = .ok (v, i) := by
  cases n with
  | zero =>
    have := congrArg List.length (congrArg Prod.snd (Except.ok.inj h))
    simp at this
  | succ n =>
    rw [chain_succ] at h
    obtain ⟨⟨w, q⟩, h1, h⟩ := M.bind_eq_ok.mp h
    have hs : u.state ≠ .promptHost := by rw [hu]; simp
    have hq : q = i := by
      have h1' := h1
      unfold drive1 at h1
      obtain ⟨⟨w, b⟩, hw, h1⟩ := M.bind_eq_ok.mp h1
      cases h1
      rw [if_pos ⟨hu, rfl⟩]; rfl
    subst hq
    rw [chainH_succ]
    unfold Host.now
    rw [drive1_named hs, ← drive1_named (h := host v.log) hs, h1, M.ok_bind]
    exact chain_dynamic hE hh n (drive1_aims (hE.named _) (Off.aims (.of (by rw [hu]; rfl) (by rw [hu]; simp))) h1) hv h

theorem Spec.StepsH.trans {host : Host} {a b c : List UInt8} (h1 : StepsH E host u a v b) (h2 : StepsH E host v b w c) : StepsH E host u a w c := by
  obtain ⟨m, h1⟩ := h1
  obtain ⟨n, h2⟩ := h2
  refine ⟨m + n, ?_⟩
  rw [← List.replicate_append_replicate, driveH_append, h1, M.ok_bind]
  exact h2

/-! ### Fair schedules -/

theorem driveNH_succ (E : Env) (host : Host) (f : Nat → Slot) (u : Ush) (inp : List UInt8) (n : Nat) :
    driveNH E host f u inp (n + 1) = driveNH E host f u inp n >>= fun p => drive1 (host.now E p.1) p.1 p.2 (f n) := by
  unfold driveNH
  rw [List.range_succ, List.map_append, driveH_append]
  congr 1
  funext p
  simp only [List.map_cons, List.map_nil, driveH]
  cases drive1 (host.now E p.1) p.1 p.2 (f n) <;> rfl

theorem fairH_step (E : Env) (host : Host) (f : Nat → Slot) (hf : Fair f) (u : Ush) (inp : List UInt8) (t : Nat) (v : Ush) (r : List UInt8)
    (h : driveNH E host f u inp t = .ok (v, r)) (q : Ush × List UInt8) (hq : drive1 (host.now E v) v r .full = .ok q) (hi : ¬ Idle v r) :
    ∃ t' ≥ t, driveNH E host f u inp t' = .ok q := by
  have hex : ∃ d, ¬ Blocked v r (f (t + d)) := by
    by_cases hs : v.state = .readChar
    · obtain ⟨m, hm, hr⟩ := hf.1 t
      refine ⟨m - t, ?_⟩
      rw [show t + (m - t) = m by omega]
      rintro (⟨-, h2⟩ | ⟨h2, -⟩)
      · rcases h2 with h2 | h2
        · rw [hr] at h2; cases h2
        · exact hi ⟨hs, h2⟩
      · rw [hs] at h2; cases h2
    · obtain ⟨m, hm, hr⟩ := hf.2 t
      refine ⟨m - t, ?_⟩
      rw [show t + (m - t) = m by omega]
      rintro (⟨h2, -⟩ | ⟨-, -, h2⟩)
      · exact hs h2
      · rw [hr] at h2; cases h2
  have hmin := Nat.find_spec hex
  have hlt : ∀ d < Nat.find hex, Blocked v r (f (t + d)) := fun d hd => Classical.not_not.mp (Nat.find_min hex hd)
  generalize Nat.find hex = d at hmin hlt
  have stay : ∀ e ≤ d, driveNH E host f u inp (t + e) = .ok (v, r) := by
    intro e
    induction e with
    | zero => intro _; exact h
    | succ e ih =>
      intro he
      rw [← Nat.add_assoc, driveNH_succ, ih (by omega), M.ok_bind]
      rcases drive1_blocked (host.now E v) v r (f (t + e)) (hlt e (by omega)) with h3 | ⟨x, h3, h4⟩
      · exact h3
      · rw [hq] at h4; cases h4
  refine ⟨t + d + 1, by omega, ?_⟩
  rw [driveNH_succ, stay d (Nat.le_refl _), M.ok_bind, drive1_unblocked (host.now E v) v r _ hmin, hq]

theorem fairH_reaches (E : Env) (host : Host) (f : Nat → Slot) (hf : Fair f) (u : Ush) (inp : List UInt8) (v : Ush)
    (h : StepsH E host u inp v []) (hi : Idle v []) (hc : v.current.isSome = true) :
    ∃ N, ∀ n ≥ N, driveNH E host f u inp n = .ok (v, []) := by
  obtain ⟨n, hn⟩ := h
  have idle : ∀ (w : Ush) (r : List UInt8), Idle w r → w.current.isSome = true → ∀ s, drive1 (host.now E w) w r s = .ok (w, r) := by
    intro w r hw hcw s
    rcases drive1_blocked (host.now E w) w r s (Or.inl ⟨hw.1, Or.inr hw.2⟩) with h3 | ⟨x, -, h4⟩
    · exact h3
    · have := chain_idle (host.now E w) w r hw hcw 1
      rw [chain_succ, h4] at this; cases this
  have key : ∀ (n : Nat) (w : Ush) (r : List UInt8) (t : Nat), chainH E host w r n = .ok (v, []) → driveNH E host f u inp t = .ok (w, r) →
      ∃ t', driveNH E host f u inp t' = .ok (v, []) := by
    intro n
    induction n with
    | zero => intro w r t h1 h2; cases h1; exact ⟨t, h2⟩
    | succ n ih =>
      intro w r t h1 h2
      rw [chainH_succ] at h1
      obtain ⟨q, hq, h3⟩ := M.bind_eq_ok.mp h1
      by_cases hw : Idle w r
      · have hcw : w.current.isSome = true := by
          cases hcw : w.current.isSome with
          | true => rfl
          | false => rw [drive1_noroot _ w r _ hcw] at hq; cases hq
        rw [idle w r hw hcw] at hq
        cases hq
        exact ih w r t h3 h2
      · obtain ⟨t', -, h4⟩ := fairH_step E host f hf u inp t w r h2 q hq hw
        exact ih q.1 q.2 t' h3 h4
  obtain ⟨N, hN⟩ := key n u inp 0 hn rfl
  refine ⟨N, fun m hm => ?_⟩
  obtain ⟨d, rfl⟩ := Nat.exists_eq_add_of_le hm
  clear hm
  induction d with
  | zero => exact hN
  | succ d ih =>
    rw [← Nat.add_assoc, driveNH_succ, ih, M.ok_bind]
    exact idle v [] hi hc _

end Ush
