import Verif.Proof.SafeRun
import Verif.Proof.Contract
import Verif.Spec.Unseen
/-!
# Two runs of the service, with and without new directories
-/
namespace Ush
open Spec

variable {E : Env} {L : Nat} {W : World} {u v w : Ush} {k : Nat}

theorem happened_append (a b : List Event) : happened (a ++ b) = happened a ++ happened b := List.filter_append ..

/-- The same shell but for the node objects. -/
structure Twin (u v : Ush) : Prop where
  eq : ∃ N R C l, v = { u with nodes := N, root := R, commands := C, log := l }
  log : happened v.log = happened u.log
  cur : ∀ c, u.current = some c → (v.nodes c).path = (u.nodes c).path

/-- What `help`, `ls` and `cat` are going to look at is the same. -/
def Sees (E : Env) (u v : Ush) (s : St) : Builtin → Prop
  | .help => s = .processStart ∧ ∃ is, IsChain u.nodes u.procNode is ∧ IsChain v.nodes u.procNode is ∧ ∀ i ∈ is, (v.nodes i).files = (u.nodes i).files
  | .ls => (∀ i, u.procNode = some i → (v.nodes i).files = (u.nodes i).files) ∧
      (s = .processService ∧ (∃ is, IsChain u.nodes u.procChild is ∧ IsChain v.nodes u.procChild is ∧ ∀ i ∈ is, (v.nodes i).path = (u.nodes i).path) ∨ s = .processFinish)
  | .cat => (s = .processService → 1 ≤ u.procItem) ∧
      (s ≠ .processFinish → ∀ argv o a, getArgs u = .ok argv → o ∈ argv.tail → cstrAt u.inBuf o = .ok a → ∃ f, fileFindByName E u a = .ok (some f) ∧ fileFindByName E v a = .ok (some f))
  | .xxd => True
  | _ => False

def Work (E : Env) (b : Builtin) (u v : Ush) : St → Prop
  | .reset | .resetPrompt | .readPrepare | .readChar => True
  | .promptPrefix | .promptHost | .promptSpace | .promptPath | .promptSuffix => u.promptNext = .readPrepare
  | .processStart => (∃ f, u.procFile = some f ∧ f.process = some (.builtin b)) ∧ Sees E u v .processStart b
  | .processService => (∃ f, u.procFile = some f ∧ f.process = some (.builtin b)) ∧ Sees E u v .processService b
  | .processFinish => (∃ f, u.procFile = some f ∧ f.process = some (.builtin b)) ∧ Sees E u v .processFinish b
  | _ => False

/-- The shell with new directories `u`, and without them `v`. -/
structure Beside (E : Env) (b : Builtin) (u v : Ush) : Prop extends Twin u v where
  work : Work E b u v (next u)

theorem Twin.wp {p : Ptr} {nx : St} (T : Twin u v) (h : writePointer u p nx = .ok w) :
    ∃ n, w = writePointerBin u p n nx ∧ writePointer v p nx = .ok (writePointerBin v p n nx) := by
  unfold writePointer at h ⊢
  obtain ⟨x, h1, h⟩ := M.bind_eq_ok.mp h
  obtain ⟨s, h2, h⟩ := M.bind_eq_ok.mp h
  cases h
  refine ⟨s.length, rfl, ?_⟩
  have e : ptrStr v p = ptrStr u p := by
    obtain ⟨N, R, C, l, rfl⟩ := T.eq
    cases p <;> rfl
  rw [h1, e, M.ok_bind, h2]
  rfl

theorem Twin.say {p : Ptr} {nx : St} {n : Nat} (T : Twin u v) : Twin (writePointerBin u p n nx) (writePointerBin v p n nx) := by
  obtain ⟨⟨N, R, C, l, rfl⟩, h2, h3⟩ := T
  exact ⟨⟨N, R, C, l, rfl⟩, h2, h3⟩

theorem next_say {p : Ptr} {nx : St} {n : Nat} : next (writePointerBin u p n nx) = nx := by
  unfold next writePointerBin; simp

/-- What is looked at does not depend on the rest of the shell. -/
theorem Work.nodes {b : Builtin} {s : St} {p : Ptr} {nx : St} {n : Nat} (h : Work E b u v s) : Work E b (writePointerBin u p n nx) (writePointerBin v p n nx) s := by
  cases s <;> exact h

theorem Beside.print {b : Builtin} {p : Ptr} {nx : St} (T : Twin u v) (hw : Work E b u v nx) (h : writePointer u p nx = .ok w) :
    ∃ v', writePointer v p nx = .ok v' ∧ Beside E b w v' := by
  obtain ⟨n, rfl, e⟩ := T.wp h
  exact ⟨_, e, { toTwin := T.say, work := by rw [next_say]; exact hw.nodes }⟩

theorem chain_next {n : NodeId} {is : List NodeId} {N M : NodeId → Node} {s : Option NodeId} (h1 : IsChain N s (n :: is)) (h2 : IsChain M s (n :: is)) : (M n).next = (N n).next := by
  have e1 := h1.2
  have e2 := h2.2
  cases is with
  | nil => exact e2.trans e1.symm
  | cons j js => exact e2.1.trans e1.1.symm

theorem help_beside (T : Twin u v) (hf : ∃ f, u.procFile = some f ∧ f.process = some (.builtin .help)) (hs : u.state = .processStart)
    (S : Sees E u v .processStart .help) (h : helpService E u = .ok w) : ∃ v', helpService E v = .ok v' ∧ Beside E .help w v' := by
  obtain ⟨-, is, c1, c2, hfs⟩ := S
  unfold helpService at h ⊢
  obtain ⟨⟨N, R, C, l, rfl⟩, h2, h3⟩ := T
  simp only [hs] at h ⊢
  cases hn : u.procNode with
  | none =>
    simp only [hn] at h ⊢
    cases h
    exact ⟨_, rfl, ⟨⟨N, R, C, l, rfl⟩, h2, h3⟩, trivial⟩
  | some n =>
    simp only [hn] at h ⊢
    cases is with
    | nil => rw [hn] at c1; cases c1
    | cons i is =>
      have en : n = i := by have := hn.symm.trans c1.1; cases this; rfl
      subst en
      have ef : (N n).files = (u.nodes n).files := hfs n (by simp)
      have ex : (N n).next = (u.nodes n).next := chain_next c1 c2
      rw [ef]
      by_cases hg : u.procItem ≥ (u.nodes n).files.length
      · simp only [if_pos hg] at h ⊢
        cases h
        refine ⟨_, rfl, ⟨⟨N, R, C, l, by simp [ex]⟩, h2, h3⟩, ?_⟩
        refine ⟨hf, rfl, is, c1.2, ?_, fun i hi => hfs i (by simp [hi])⟩
        rw [← ex]; exact c2.2
      · simp only [if_neg hg] at h ⊢
        have fin : ∀ (o : List UInt8) (i j : Nat) (p : Ptr) {x : Ush},
            writePointer { u with outBuf := o, procIndex := i, procItem := j, state := .processStart, procNode := some n } p .processStart = .ok x →
            ∃ v', writePointer { u with nodes := N, root := R, commands := C, log := l, outBuf := o, procIndex := i, procItem := j, state := .processStart, procNode := some n } p .processStart = .ok v' ∧
              Beside E .help x v' := by
          intro o i j p x hx
          exact Beside.print (u := { u with outBuf := o, procIndex := i, procItem := j, state := .processStart, procNode := some n }) ⟨⟨N, R, C, l, rfl⟩, h2, h3⟩ ⟨hf, rfl, n :: is, hn ▸ c1, hn ▸ c2, hfs⟩ hx
        cases hi : (u.nodes n).files[u.procItem]? with
        | none => simp only [hi] at h; cases h
        | some f =>
          simp only [hi] at h ⊢
          rcases hx : u.procIndex with _ | _ | _ | j
          · simp only [hx] at h ⊢
            cases hd : f.description with
            | some d =>
              simp only [hd] at h ⊢
              obtain ⟨o, e1, h⟩ := M.bind_eq_ok.mp h
              rw [e1]
              exact fin o _ _ _ h
            | none =>
              simp only [hd] at h ⊢
              obtain ⟨o, e1, h⟩ := M.bind_eq_ok.mp h
              rw [e1]
              exact fin o _ _ _ h
          · simp only [hx] at h ⊢
            cases hd : f.description with
            | some d =>
              simp only [hd] at h ⊢
              exact fin _ _ _ _ h
            | none => simp only [hd] at h; cases h
          · simp only [hx] at h ⊢
            exact fin _ _ _ _ h
          · simp only [hx] at h; cases h

theorem ls_beside (T : Twin u v) (hf : ∃ f, u.procFile = some f ∧ f.process = some (.builtin .ls)) (S : Sees E u v u.state .ls) (h : lsService E u = .ok w) :
    ∃ v', lsService E v = .ok v' ∧ Beside E .ls w v' := by
  obtain ⟨hfs, S⟩ := S
  unfold lsService at h ⊢
  obtain ⟨⟨N, R, C, l, rfl⟩, h2, h3⟩ := T
  rcases S with ⟨hs, is, c1, c2, hps⟩ | hs
  · simp only [hs] at h ⊢
    cases hn : u.procChild with
    | none =>
      simp only [hn] at h ⊢
      cases h
      exact ⟨_, rfl, ⟨⟨N, R, C, l, rfl⟩, h2, h3⟩, hf, hfs, .inr rfl⟩
    | some n =>
      simp only [hn] at h ⊢
      cases is with
      | nil => rw [hn] at c1; cases c1
      | cons i is =>
        have en : n = i := by have := hn.symm.trans c1.1; cases this; rfl
        subst en
        have ep : (N n).path = (u.nodes n).path := hps n (by simp)
        have ex : (N n).next = (u.nodes n).next := chain_next c1 c2
        have fin : ∀ (i : Nat) (p : Ptr) {x : Ush},
            writePointer { u with procIndex := i, state := .processService, procChild := some n } p .processService = .ok x →
            ∃ v', writePointer { u with nodes := N, root := R, commands := C, log := l, procIndex := i, state := .processService, procChild := some n } p .processService = .ok v' ∧
              Beside E .ls x v' := by
          intro i p x hx
          exact Beside.print (u := { u with procIndex := i, state := .processService, procChild := some n }) ⟨⟨N, R, C, l, rfl⟩, h2, h3⟩
            ⟨hf, hfs, .inl ⟨rfl, n :: is, hn ▸ c1, hn ▸ c2, hps⟩⟩ hx
        rcases hx : u.procIndex with _ | _ | _ | _ | j
        · simp only [hx] at h ⊢
          exact fin _ _ h
        · simp only [hx] at h ⊢
          rw [ep]
          cases hp : (u.nodes n).path with
          | none => simp only [hp] at h; cases h
          | some p =>
            simp only [hp] at h ⊢
            exact fin _ _ h
        · simp only [hx] at h ⊢
          exact fin _ _ h
        · simp only [hx] at h ⊢
          cases h
          refine ⟨_, rfl, ⟨⟨N, R, C, l, by simp [ex]⟩, h2, h3⟩, hf, hfs, .inl ⟨rfl, is, c1.2, ?_, fun i hi => hps i (by simp [hi])⟩⟩
          rw [← ex]; exact c2.2
        · simp only [hx] at h; cases h
  · simp only [hs] at h ⊢
    cases hn : u.procNode with
    | none => simp only [hn] at h; cases h
    | some n =>
      simp only [hn] at h ⊢
      have ef : (N n).files = (u.nodes n).files := hfs n hn
      rw [ef]
      by_cases hg : u.procItem ≥ (u.nodes n).files.length
      · simp only [if_pos hg] at h ⊢
        cases h
        exact ⟨_, rfl, ⟨⟨N, R, C, l, rfl⟩, h2, h3⟩, trivial⟩
      · simp only [if_neg hg] at h ⊢
        have fin : ∀ (o : List UInt8) (i j : Nat) (p : Ptr) {x : Ush},
            writePointer { u with outBuf := o, procIndex := i, procItem := j, state := .processFinish, procNode := some n } p .processFinish = .ok x →
            ∃ v', writePointer { u with nodes := N, root := R, commands := C, log := l, outBuf := o, procIndex := i, procItem := j, state := .processFinish, procNode := some n } p .processFinish = .ok v' ∧
              Beside E .ls x v' := by
          intro o i j p x hx
          exact Beside.print (u := { u with outBuf := o, procIndex := i, procItem := j, state := .processFinish, procNode := some n }) ⟨⟨N, R, C, l, rfl⟩, h2, h3⟩
            ⟨hf, hn ▸ hfs, .inr rfl⟩ hx
        cases hi : (u.nodes n).files[u.procItem]? with
        | none => simp only [hi] at h; cases h
        | some f =>
          simp only [hi] at h ⊢
          rcases hx : u.procIndex with _ | _ | _ | _ | j
          · simp only [hx] at h ⊢
            obtain ⟨o, e1, h⟩ := M.bind_eq_ok.mp h
            rw [e1]
            exact fin o _ _ _ h
          · simp only [hx] at h ⊢
            cases hd : f.description with
            | some d =>
              simp only [hd] at h ⊢
              obtain ⟨o, e1, h⟩ := M.bind_eq_ok.mp h
              rw [e1]
              exact fin o _ _ _ h
            | none =>
              simp only [hd] at h ⊢
              obtain ⟨o, e1, h⟩ := M.bind_eq_ok.mp h
              rw [e1]
              exact fin o _ _ _ h
          · simp only [hx] at h ⊢
            cases hd : f.description with
            | some d =>
              simp only [hd] at h ⊢
              exact fin _ _ _ _ h
            | none => simp only [hd] at h; cases h
          · simp only [hx] at h ⊢
            exact fin _ _ _ _ h
          · simp only [hx] at h; cases h

theorem getArgs_twin (T : Twin u v) : getArgs v = getArgs u := by
  obtain ⟨⟨N, R, C, l, rfl⟩, h2, h3⟩ := T
  rfl

theorem cat_beside (T : Twin u v) (g : Unaware E) (hf : ∃ f, u.procFile = some f ∧ f.process = some (.builtin .cat)) (S : Sees E u v u.state .cat)
    (hs : u.state = .processStart ∨ u.state = .processService ∨ u.state = .processFinish) (h : catService E u = .ok w) :
    ∃ v', catService E v = .ok v' ∧ Beside E .cat w v' := by
  obtain ⟨hi, hc⟩ := S
  have ga := getArgs_twin T
  unfold catService at h ⊢
  have T' := T
  obtain ⟨⟨N, R, C, l, e⟩, h2, h3⟩ := T'
  have es : v.state = u.state := by rw [e]
  have ei : v.procItem = u.procItem := by rw [e]
  have ea : v.argsCount = u.argsCount := by rw [e]
  have eb : v.inBuf = u.inBuf := by rw [e]
  rw [es, ei, ea, eb]
  rcases hs with hs | hs | hs
  · simp only [hs] at h ⊢
    cases h
    exact ⟨_, rfl, ⟨⟨N, R, C, l, by rw [e]⟩, h2, h3⟩, hf, fun _ => Nat.le_refl 1, fun _ => hc (by rw [hs]; simp)⟩
  · simp only [hs] at h ⊢
    by_cases hg : u.procItem ≥ u.argsCount
    · simp only [if_pos hg] at h ⊢
      cases h
      exact ⟨_, rfl, ⟨⟨N, R, C, l, by rw [e]⟩, h2, h3⟩, hf, (fun e => by cases e), fun e => absurd rfl e⟩
    · simp only [if_neg hg] at h ⊢
      obtain ⟨argv, e1, h⟩ := M.bind_eq_ok.mp h
      obtain ⟨o, e2, h⟩ := M.bind_eq_ok.mp h
      obtain ⟨a, e3, h⟩ := M.bind_eq_ok.mp h
      have ho : o ∈ argv.tail := by
        have h1 := hi hs
        unfold argAt at e2
        split at e2
        · rename_i o' ho
          cases e2
          cases argv with
          | nil => cases ho
          | cons x xs =>
            obtain ⟨j, hj⟩ : ∃ j, u.procItem = j + 1 := ⟨u.procItem - 1, by omega⟩
            rw [hj, List.getElem?_cons_succ] at ho
            exact List.mem_of_getElem? ho
        · cases e2
      obtain ⟨f, e4, e5⟩ := hc (by rw [hs]; simp) argv o a e1 ho e3
      rw [ga, e1, M.ok_bind, e2, M.ok_bind, e3, M.ok_bind, e5, M.ok_bind]
      rw [e4, M.ok_bind] at h
      cases hd : f.getData with
      | none => simp only [hd] at h; cases h
      | some id =>
        simp only [hd, callGet] at h ⊢
        rw [g id u _ h2]
        cases hu : E.userGet id u with
        | none => simp only [hu] at h; cases h
        | some d =>
          simp only [hu] at h ⊢
          cases h
          refine ⟨_, rfl, ⟨⟨N, R, C, l ++ [.getData id], by rw [e]; rfl⟩, ?_, h3⟩, ?_⟩
          · show happened (v.log ++ _) = happened (u.log ++ _)
            rw [happened_append, happened_append, h2]
          · have en : ∀ x : Ush, x.state = .writeChar → x.writeNext = u.state → next x = .processService := by
              intro x h1 h2
              unfold next
              rw [if_pos h1, h2, hs]
            rw [en _ rfl rfl]
            exact ⟨hf, fun _ => Nat.le_add_left 1 _, fun _ => hc (by rw [hs]; simp)⟩
  · simp only [hs] at h ⊢
    cases h
    exact ⟨_, rfl, ⟨⟨N, R, C, l, by rw [e]⟩, h2, h3⟩, trivial⟩

theorem xxdHex_twin (T : Twin u v) (n : Nat) : ∀ (off : Nat) (buf : List UInt8), xxdHexLoop v n off buf = xxdHexLoop u n off buf := by
  obtain ⟨⟨N, R, C, l, rfl⟩, -, -⟩ := T
  induction n with
  | zero => intro off buf; rfl
  | succ n ih => intro off buf; unfold xxdHexLoop; simp only [ih]; rfl

theorem xxdText_twin (T : Twin u v) (n : Nat) : ∀ (off : Nat) (buf : List UInt8), xxdTextLoop v n off buf = xxdTextLoop u n off buf := by
  obtain ⟨⟨N, R, C, l, rfl⟩, -, -⟩ := T
  induction n with
  | zero => intro off buf; rfl
  | succ n ih => intro off buf; unfold xxdTextLoop; simp only [ih]; rfl

theorem xxd_beside (T : Twin u v) (hf : ∃ f, u.procFile = some f ∧ f.process = some (.builtin .xxd))
    (hs : u.state = .processStart ∨ u.state = .processService ∨ u.state = .processFinish) (h : xxdService E u = .ok w) :
    ∃ v', xxdService E v = .ok v' ∧ Beside E .xxd w v' := by
  have t1 := xxdHex_twin T E.xxdColumns
  have t2 := xxdText_twin T E.xxdColumns
  unfold xxdService at h ⊢
  obtain ⟨⟨N, R, C, l, rfl⟩, h2, h3⟩ := T
  simp only [t1, t2]
  rcases hs with hs | hs | hs
  · simp only [hs] at h ⊢
    cases h
    exact ⟨_, rfl, ⟨⟨N, R, C, l, rfl⟩, h2, h3⟩, hf, trivial⟩
  · simp only [hs] at h ⊢
    have fin : ∀ (o : List UInt8) (i j : Nat) (p : Ptr) {nx : St} {x : Ush}, (nx = .processService ∨ nx = .processFinish) →
        writePointer { u with outBuf := o, procIndex := i, procItem := j, state := .processService } p nx = .ok x →
        ∃ v', writePointer { u with nodes := N, root := R, commands := C, log := l, outBuf := o, procIndex := i, procItem := j, state := .processService } p nx = .ok v' ∧
          Beside E .xxd x v' := by
      intro o i j p nx x hnx hx
      refine Beside.print (u := { u with outBuf := o, procIndex := i, procItem := j, state := .processService }) ⟨⟨N, R, C, l, rfl⟩, h2, h3⟩ ?_ hx
      rcases hnx with rfl | rfl <;> exact ⟨hf, trivial⟩
    rcases hx : u.procIndex with _ | _ | _ | _ | j
    · simp only [hx] at h ⊢
      obtain ⟨o, e1, h⟩ := M.bind_eq_ok.mp h
      rw [e1]
      exact fin o _ _ _ (.inl rfl) h
    · simp only [hx] at h ⊢
      obtain ⟨o, e1, h⟩ := M.bind_eq_ok.mp h
      obtain ⟨o2, e2, h⟩ := M.bind_eq_ok.mp h
      obtain ⟨o3, e3, h⟩ := M.bind_eq_ok.mp h
      rw [e1, M.ok_bind, e2, M.ok_bind, e3, M.ok_bind]
      exact fin o3 _ _ _ (.inl rfl) h
    · simp only [hx] at h ⊢
      obtain ⟨o, e1, h⟩ := M.bind_eq_ok.mp h
      obtain ⟨o2, e2, h⟩ := M.bind_eq_ok.mp h
      rw [e1, M.ok_bind, e2, M.ok_bind]
      exact fin _ _ _ _ (.inl rfl) h
    · simp only [hx] at h ⊢
      split at h
      · rename_i hg
        rw [if_pos hg]
        exact Beside.print ⟨⟨N, R, C, l, by simp [hs, hx]⟩, h2, h3⟩ ⟨hf, trivial⟩ h
      · rename_i hg
        rw [if_neg hg]
        exact fin _ _ _ _ (.inl rfl) h
    · simp only [hx] at h; cases h
  · simp only [hs] at h ⊢
    cases h
    exact ⟨_, rfl, ⟨⟨N, R, C, l, rfl⟩, h2, h3⟩, trivial⟩

theorem writeChar_beside {b : Builtin} {io : Io} (S : Beside E b u v) (hs : u.state = .writeChar) (h1 : writeChar io u = .ok w) :
    ∃ v', writeChar io v = .ok v' ∧ Beside E b w v' := by
  have T := S.toTwin
  obtain ⟨N, R, C, l, e⟩ := T.eq
  have ep : v.writePos = u.writePos := by rw [e]
  have ez : v.writeSize = u.writeSize := by rw [e]
  have ew : v.writeBuf = u.writeBuf := by rw [e]
  have en : v.writeNext = u.writeNext := by rw [e]
  have er : ptrRead v u.writeBuf u.writePos = ptrRead u u.writeBuf u.writePos := by rw [e]; cases u.writeBuf <;> rfl
  unfold writeChar at h1 ⊢
  rw [ep, ez, ew, en, er]
  have hw' : Work E b u v u.writeNext := by
    have : next u = u.writeNext := by unfold next; rw [if_pos hs]
    rw [← this]; exact S.work
  split at h1
  · rename_i hg
    cases h1
    rw [if_pos hg]
    refine ⟨_, rfl, ⟨⟨N, R, C, l, by rw [e]⟩, T.log, T.cur⟩, ?_⟩
    have : ∀ s, Work E b u v s → Work E b { u with state := s } { v with state := s } (next { u with state := s }) := by
      intro s hs
      cases s <;> first | exact hs | exact hs.elim
    exact this _ hw'
  · rename_i hg
    rw [if_neg hg]
    obtain ⟨ch, h3, h1⟩ := M.bind_eq_ok.mp h1
    rw [h3, M.ok_bind]
    split at h1
    · rename_i hw
      cases h1
      rw [if_pos hw]
      refine ⟨_, rfl, ⟨⟨N, R, C, v.log ++ [.out ch], ?_⟩, ?_, T.cur⟩, ?_⟩
      · conv => lhs; rw [e]
        rw [show v.log = l by rw [e]]
        rfl
      · show happened (v.log ++ _) = happened (u.log ++ _)
        rw [happened_append, happened_append, T.log]
      · have : next { u.emit (.out ch) with writePos := u.writePos + 1 } = u.writeNext := by unfold next; exact if_pos hs
        rw [this]
        generalize u.writeNext = s at hw'
        cases s <;> exact hw'
    · rename_i hw
      cases h1
      rw [if_neg hw]
      exact ⟨_, rfl, S⟩

/-- One service call. -/
theorem Beside.service {b : Builtin} {io : Io} {r : Ush × Bool} (g : Unaware E) (S : Beside E b u v) (hr : u.state ≠ .readChar) (h : service E io u = .ok r) :
    ∃ v', service E io v = .ok (v', r.2) ∧ Beside E b r.1 v' := by
  have T := S.toTwin
  have hw := S.work
  obtain ⟨N, R, C, l, e⟩ := T.eq
  have es : v.state = u.state := by rw [e]
  have ec : v.current = u.current := by rw [e]
  have hc : u.current.isSome = true := by
    cases hc : u.current.isSome with
    | true => rfl
    | false => rw [service_noroot E io u hc] at h; cases h
  rw [service_eq E io u hc] at h
  rw [service_eq E io v (by rw [ec]; exact hc), es]
  have fin : ∀ {x y : M Ush}, (∀ w, x = .ok w → ∃ v', y = .ok v' ∧ Beside E b w v') → (x >>= fun v => .ok (v, true)) = .ok r →
      ∃ v', (y >>= fun v => .ok (v, true)) = .ok (v', r.2) ∧ Beside E b r.1 v' := by
    intro x y hx hh
    obtain ⟨w, h1, h2⟩ := M.bind_eq_ok.mp hh
    cases h2
    obtain ⟨v', h3, h4⟩ := hx w h1
    exact ⟨v', by rw [h3]; rfl, h4⟩
  have proc : (u.state = .processStart ∨ u.state = .processService ∨ u.state = .processFinish) → (∃ f, u.procFile = some f ∧ f.process = some (.builtin b)) →
      Sees E u v u.state b → ∀ w, processCall E u = .ok w → ∃ v', processCall E v = .ok v' ∧ Beside E b w v' := by
    intro hs hf hh w hw
    have ep : v.procFile = u.procFile := by rw [e]
    unfold processCall at hw ⊢
    rw [ep]
    obtain ⟨f, h1, h2⟩ := hf
    rw [h1] at hw ⊢
    simp only [h2] at hw ⊢
    cases b with
    | help =>
      have : u.state = .processStart := hh.1
      exact help_beside T ⟨f, h1, h2⟩ this (by rw [← this]; exact hh) hw
    | ls => exact ls_beside T ⟨f, h1, h2⟩ hh hw
    | cat => exact cat_beside T g ⟨f, h1, h2⟩ hh hs hw
    | xxd => exact xxd_beside T ⟨f, h1, h2⟩ hs hw
    | _ => exact hh.elim
  have nx : ∀ s, u.state = s → s ≠ .writeChar → next u = s := fun s h1 h2 => by unfold next; rw [h1, if_neg h2]
  unfold innerStep at h ⊢
  rw [es]
  cases hs : u.state
  case writeChar =>
    simp only [hs] at h ⊢
    refine fin (fun w h => writeChar_beside S hs h) h
  case readChar => exact absurd hs hr
  all_goals
    simp only [hs] at h ⊢
    rw [nx _ hs (by simp)] at hw
  case reset => exact fin (fun w h => Beside.print T (by exact trivial) h) h
  case resetPrompt =>
    refine fin (fun w h => ?_) h
    cases h
    exact ⟨_, rfl, ⟨⟨N, R, C, l, by rw [e]; rfl⟩, T.log, T.cur⟩, rfl⟩
  case promptPrefix => exact fin (fun w h => Beside.print T (by exact hw) h) h
  case promptHost => exact fin (fun w h => Beside.print T (by exact hw) h) h
  case promptSpace => exact fin (fun w h => Beside.print T (by exact hw) h) h
  case promptPath =>
    refine fin (fun w h => ?_) h
    unfold promptPathStep at h ⊢
    rw [ec]
    cases hcu : u.current with
    | none => rw [hcu] at h; cases h
    | some c =>
      simp only [hcu] at h ⊢
      rw [T.cur c hcu]
      cases hp : (u.nodes c).path with
      | none => simp only [hp] at h; cases h
      | some p =>
        simp only [hp] at h ⊢
        exact Beside.print T (by exact hw) h
  case promptSuffix =>
    have : v.promptNext = u.promptNext := by rw [e]
    rw [this]
    have hw : u.promptNext = .readPrepare := hw
    rw [hw] at h ⊢
    exact fin (fun w h => Beside.print T (by exact trivial) h) h
  case readPrepare =>
    obtain ⟨w, h1, h2⟩ := M.bind_eq_ok.mp h
    cases h2
    unfold readStart at h1 ⊢
    obtain ⟨x, h3, h1⟩ := M.bind_eq_ok.mp h1
    cases h1
    have : v.inBuf = u.inBuf := by rw [e]
    rw [this, h3]
    exact ⟨_, rfl, ⟨⟨N, R, C, l, by rw [e]⟩, T.log, T.cur⟩, trivial⟩
  case processStart => exact fin (proc (.inl hs) hw.1 (by rw [hs]; exact hw.2)) h
  case processService => exact fin (proc (.inr (.inl hs)) hw.1 (by rw [hs]; exact hw.2)) h
  case processFinish => exact fin (proc (.inr (.inr hs)) hw.1 (by rw [hs]; exact hw.2)) h
  all_goals exact hw.elim

/-! ## New directories and commands -/

theorem nodeMount_keeps {p : Str} {id : NodeId} {files : List FileDesc} {r : Ush × Status} (h : nodeMount E u p id files = .ok r) (i : NodeId) (hi : i ≠ id) :
    (r.1.nodes i).path = (u.nodes i).path ∧ (r.1.nodes i).files = (u.nodes i).files := by
  unfold nodeMount at h
  mgo h
  all_goals
    cases h
    grind [setNode]

theorem commandsAdd_keeps {id : NodeId} {files : List FileDesc} {r : Ush × Status} (h : commandsAdd u id files = .ok r) (i : NodeId) (hi : i ≠ id) :
    (r.1.nodes i).path = (u.nodes i).path ∧ (r.1.nodes i).files = (u.nodes i).files := by
  unfold commandsAdd at h
  mgo h
  all_goals
    cases h
    grind [setNode]

/-- Nothing changed but the node `i`, which nothing referred to. -/
structure Touched (E : Env) (W : World) (i : NodeId) (u w : Ush) : Prop where
  frame : FsFrame u w
  cur : w.current = u.current
  log : happened w.log = happened u.log
  same : ∀ j, j ≠ i → (w.nodes j).path = (u.nodes j).path ∧ (w.nodes j).files = (u.nodes j).files ∧ (w.nodes j).next = (u.nodes j).next
  free : W.Unlinked i
  notCur : u.current ≠ some i

theorem Touched.dir {i : NodeId} (T : Touched E W i u w) (H : WInv E u W) {m : Mount} (hm : m ∈ W.dirs) : m.id ≠ i := by
  rcases mem_dirs.mp hm with h | h
  · exact T.free.1 m h
  · intro e
    exact T.notCur (by rw [(H.cwd m h).cur, e])

theorem Touched.beside {i : NodeId} {b : Builtin} (T : Touched E W i u w) (H : WInv E u W) (l : Live E L W u k (next u)) (S : Beside E b u v)
    (hc : b = .cat → CatArgs L W u → ∀ argv o a f, getArgs u = .ok argv → o ∈ argv.tail → cstrAt u.inBuf o = .ok a → fileFindByName E u a = .ok (some f) →
      fileFindByName E w a = .ok (some f)) : Beside E b w v := by
  have F := T.frame
  obtain ⟨⟨N, R, C, l', e⟩, h2, h3⟩ := S.toTwin
  have e1 : w.procNode = u.procNode := by rw [F]
  have e2 : w.procChild = u.procChild := by rw [F]
  have e3 : w.procItem = u.procItem := by rw [F]
  have e4 : w.procFile = u.procFile := by rw [F]
  have e5 : w.inBuf = u.inBuf := by rw [F]
  have e6 : getArgs w = getArgs u := by rw [F]; rfl
  refine ⟨⟨⟨N, R, C, l', ?_⟩, h2.trans T.log.symm, fun c hcu => ?_⟩, ?_⟩
  · have := T.cur
    rw [e, F]
    cases w
    simp_all
  · rw [T.cur] at hcu
    rw [h3 c hcu, (T.same c (fun e => T.notCur (by rw [hcu, e]))).1]
  · rw [F.next]
    have hw := S.work
    generalize next u = s at l hw
    have sees : (s = .processStart ∨ s = .processService ∨ s = .processFinish) → (∃ f, u.procFile = some f ∧ f.process = some (.builtin b)) → Sees E u v s b →
        ProcLive E L W u k s → Sees E w v s b := by
      rintro hs ⟨f, p1, p2⟩ h ⟨f', p3, hl⟩
      cases p1.symm.trans p3
      rw [p2] at hl
      cases b with
      | help =>
        obtain ⟨h1, is, c1, c2, c3⟩ := h
        obtain ⟨gs, g1, g2, -⟩ := hl.2.at'
        have ne : ∀ j ∈ is, j ≠ i := by
          intro j hj
          rw [c1.det g2] at hj
          obtain ⟨g, hg, rfl⟩ := List.mem_map.mp hj
          exact T.free.2 g (g1.subset hg)
        refine ⟨h1, is, ?_, by rw [e1]; exact c2, fun j hj => ?_⟩
        · rw [e1]; exact c1.congr fun j hj => (T.same j (ne j hj)).2.2
        · rw [c3 j hj, (T.same j (ne j hj)).2.1]
      | ls =>
        obtain ⟨h1, h4⟩ := h
        have hd : ∃ m ∈ W.dirs, u.procNode = some m.id := by
          rcases hs with rfl | rfl | rfl
          · obtain ⟨m, m1, m2, -⟩ := hl; exact ⟨m, m1, m2⟩
          · obtain ⟨m, m1, m2, -⟩ := hl; exact ⟨m, m1, m2⟩
          · obtain ⟨m, m1, m2, -⟩ := hl; exact ⟨m, m1, m2⟩
        obtain ⟨m, m1, m2⟩ := hd
        refine ⟨fun j hj => ?_, h4.imp ?_ id⟩
        · rw [e1] at hj
          have : j = m.id := Option.some.inj (hj.symm.trans m2)
          rw [h1 j hj, (T.same j (by rw [this]; exact T.dir H m1)).2.1]
        · rintro ⟨rfl, is, c1, c2, c3⟩
          obtain ⟨m, m1, m2, m3, ms, m4, m5, -⟩ := hl
          have ne : ∀ j ∈ is, j ≠ i := by
            intro j hj
            rw [c1.det m5] at hj
            obtain ⟨x, hx, rfl⟩ := List.mem_map.mp hj
            exact T.free.1 x (under_mem (m4.subset hx)).1
          refine ⟨rfl, is, ?_, by rw [e2]; exact c2, fun j hj => ?_⟩
          · rw [e2]; exact c1.congr fun j hj => (T.same j (ne j hj)).2.2
          · rw [c3 j hj, (T.same j (ne j hj)).1]
      | cat =>
        obtain ⟨h1, h4⟩ := h
        refine ⟨by rw [e3]; exact h1, fun hne argv o a q1 q2 q3 => ?_⟩
        rw [e6] at q1
        rw [e5] at q3
        obtain ⟨f, q4, q5⟩ := h4 hne argv o a q1 q2 q3
        have ca : CatArgs L W u := by
          rcases hs with rfl | rfl | rfl
          · exact hl.1
          · exact hl.1
          · exact absurd rfl hne
        exact ⟨f, hc rfl ca argv o a f q1 q2 q3 q4, q5⟩
      | xxd => trivial
      | _ => exact h.elim
    have pf : (∃ f, u.procFile = some f ∧ f.process = some (.builtin b)) → ∃ f, w.procFile = some f ∧ f.process = some (.builtin b) := by rw [e4]; exact id
    cases s
    case processStart => exact ⟨pf hw.1, sees (by simp) hw.1 hw.2 l⟩
    case processService => exact ⟨pf hw.1, sees (by simp) hw.1 hw.2 l⟩
    case processFinish => exact ⟨pf hw.1, sees (by simp) hw.1 hw.2 l⟩
    all_goals first | exact hw.elim | trivial | (show w.promptNext = _; rw [F]; exact hw)

/-- A call that brings something new. -/
theorem Beside.comes {b : Builtin} {a : Api} (S : Beside E b u v) (I : Inv E L W k u) (ha : Allowed E L u a) (hc : Comes b u a) (h : runApi E u a = .ok w) :
    Beside E b w v := by
  cases a with
  | mount p i fs =>
    obtain ⟨cs, rfl, W2, r2, o2, f2, hs, h1, h2, h3⟩ := ha
    obtain ⟨hp, hcu⟩ := hc
    obtain ⟨w', e, r, lg⟩ := fsStep_sim r2 (.mount cs i fs) h1
    have e' : runApi E u (FsOp.mount cs i fs).api = .ok w := h
    cases e.symm.trans e'
    have F := fsApi_frame _ e
    have hne : cs ≠ [] := fun h => hp (by rw [h]; rfl)
    have hnc : W2.NotCwd i := fun d hd he => hcu (by rw [(r2.cwd d hd).cur, he])
    have MM := mount_more r2 o2 h1 hne hnc e r
    obtain ⟨j, l⟩ := I.live.same (I.rep.uniq r2 I.ok o2) I.rep r2 o2
    have T : Touched E W2 i u w := by
      refine ⟨F, MM.cur, by rw [lg, happened_append]; exact List.append_nil _, fun j hj => ?_, h1.2.2.2, hcu⟩
      obtain ⟨r, q1, q2⟩ := M.bind_eq_ok.mp e
      cases q2
      exact ⟨(nodeMount_keeps q1 j hj).1, (nodeMount_keeps q1 j hj).2, nodeMount_next q1 j hj⟩
    refine T.beside r2 l S fun hb ca argv o a f q1 q2 q3 q4 => ?_
    obtain ⟨argv', c1, c2, c3⟩ := ca
    cases q1.symm.trans c1
    obtain ⟨a', f', id, c4, c5, c6, c7⟩ := c3 o q2
    cases q3.symm.trans c4
    have B := I.toBase.frame F r h2 h3
    have hn := (cstrAt_fits q3).1
    have B2 := I.toBase.frame (FsFrame.refl u) r2 o2 f2
    rw [B2.toHolds.find hn (B2.near c5)] at q4
    have q5 : W2.file? a = some f := by injection q4
    rw [B.toHolds.find hn (B.near c5), file_more r h2 (W := W2) rfl MM.cwd MM.mem q5]
  | commandsAdd i fs =>
    obtain ⟨W2, r2, o2, f2, hs, h1, h2, h3⟩ := ha
    obtain ⟨hb, hcu⟩ := hc
    obtain ⟨w', e, r, lg⟩ := fsStep_sim r2 (.addGroup i fs) h1
    have e' : runApi E u (FsOp.addGroup i fs).api = .ok w := h
    cases e.symm.trans e'
    have F := fsApi_frame _ e
    have hnc : W2.NotCwd i := fun d hd he => hcu (by rw [(r2.cwd d hd).cur, he])
    have MM := add_more r2 o2 h1 hnc e r
    obtain ⟨j, l⟩ := I.live.same (I.rep.uniq r2 I.ok o2) I.rep r2 o2
    have T : Touched E W2 i u w := by
      refine ⟨F, MM.cur, by rw [lg, happened_append]; exact List.append_nil _, fun j hj => ?_, h1.2.2, hcu⟩
      obtain ⟨r, q1, q2⟩ := M.bind_eq_ok.mp e
      cases q2
      exact ⟨(commandsAdd_keeps q1 j hj).1, (commandsAdd_keeps q1 j hj).2, commandsAdd_next q1 j hj⟩
    exact T.beside r2 l S fun h => absurd h hb
  | _ => exact hc.elim

/-! ## From the start of the command -/

theorem Inv.beside {b : Builtin} (I : Inv E L W k u) (h : Started u b) : Beside E b u u := by
  refine ⟨⟨⟨u.nodes, u.root, u.commands, u.log, rfl⟩, rfl, fun _ _ => rfl⟩, ?_⟩
  obtain ⟨f, h1, h2, h3⟩ := h
  have l := I.live
  have sees : ∀ s, (s = .processService ∨ s = .processFinish ∨ s = .processStart ∧ b ≠ .ls) → ProcLive E L W u k s → Sees E u u s b := by
    rintro s hs ⟨f', p1, hl⟩
    cases h1.symm.trans p1
    rw [h2] at hl
    cases b with
    | help =>
      obtain ⟨gs, g1, g2, -⟩ := hl.2.at'
      exact ⟨hl.1, _, g2, g2, fun _ _ => rfl⟩
    | ls =>
      refine ⟨fun _ _ => rfl, ?_⟩
      rcases hs with rfl | rfl | hs
      · obtain ⟨m, m1, m2, m3, ms, m4, m5, -⟩ := hl
        exact .inl ⟨rfl, _, m5, m5, fun _ _ => rfl⟩
      · exact .inr rfl
      · exact absurd rfl hs.2
    | cat =>
      have ca : s ≠ .processFinish → CatArgs L W u := by
        rcases hs with rfl | rfl | ⟨rfl, -⟩
        · exact fun _ => hl.1
        · exact fun h => absurd rfl h
        · exact fun _ => hl.1
      refine ⟨fun h => ?_, fun hne argv o a q1 q2 q3 => ?_⟩
      · subst h; exact hl.2.1
      · obtain ⟨argv', c1, c2, c3⟩ := ca hne
        cases q1.symm.trans c1
        obtain ⟨a', f', id, c4, c5, c6, c7⟩ := c3 o q2
        cases q3.symm.trans c4
        have := I.toHolds.find (cstrAt_fits q3).1 (I.toBase.near c5)
        rw [c6] at this
        exact ⟨f', this, this⟩
    | xxd => trivial
    | _ => exact hl.elim
  generalize next u = s at h3 l
  rcases h3 with rfl | rfl | ⟨rfl, h4⟩
  · exact ⟨⟨f, h1, h2⟩, sees _ (.inl rfl) l⟩
  · exact ⟨⟨f, h1, h2⟩, sees _ (.inr (.inl rfl)) l⟩
  · exact ⟨⟨f, h1, h2⟩, sees _ (.inr (.inr ⟨rfl, h4⟩)) l⟩

theorem unseen_run {b : Builtin} (cfg : Roomy E) (H : Behaves E L) (g : Unaware E) : ∀ (ns : List Move) {u v : Ush} {W : World} {k : Nat}, Inv E L W k u → Beside E b u v →
    Legal E L u ns → Meanwhile E b u ns → ∃ w x, run E u (ns.flatMap Move.ops) = .ok w ∧ run E v ((services ns).flatMap Move.ops) = .ok x ∧ Beside E b w x := by
  intro ns
  induction ns with
  | nil => intro u v W k _ S _ _; exact ⟨u, v, rfl, rfl, S⟩
  | cons m ms ih =>
    intro u v W k I S hl hm
    obtain ⟨u', W', j, e, I'⟩ := move_inv cfg H I hl.1
    obtain ⟨h1, h2, h3⟩ := hm
    cases m with
    | service io =>
      have e' : (service E io u >>= fun p => (pure p.1 : M Ush)) = .ok u' := by
        have : run E u (Move.service io).ops = service E io u >>= fun p => (pure p.1 : M Ush) := by
          show ((service E io u >>= fun p => (pure p.1 : M Ush)) >>= fun w => run E w []) = _
          cases service E io u <;> rfl
        rw [← this]; exact e
      obtain ⟨r, q1, q2⟩ := M.bind_eq_ok.mp e'
      cases q2
      obtain ⟨v', q3, S'⟩ := S.service g h1 q1
      obtain ⟨w, x, q4, q5, q6⟩ := ih I' S' (hl.2 _ e) (h3 _ e)
      refine ⟨w, x, by rw [List.flatMap_cons, run_append, e, M.ok_bind, q4], ?_, q6⟩
      show run E v ((Move.service io :: services ms).flatMap Move.ops) = _
      rw [List.flatMap_cons, run_append]
      have : run E v (Move.service io).ops = .ok v' := by
        show ((service E io v >>= fun p => (pure p.1 : M Ush)) >>= fun w => run E w []) = _
        rw [q3]; rfl
      rw [this, M.ok_bind, q5]
    | calls as =>
      obtain ⟨a, rfl, hc⟩ := h2
      have hc' : Calls E L u [a] := hl.1
      have ha : Allowed E L u a := by
        cases a <;> first | exact hc.elim | exact hc'.1
      have e' : runApi E u a = .ok u' := by
        have := run_apis E [a] u
        rw [show run E u ([a].map Op.api) = .ok u' from e] at this
        unfold runApis at this
        obtain ⟨y, q1, q2⟩ := M.bind_eq_ok.mp this.symm
        cases q2
        exact q1
      obtain ⟨w, x, q4, q5, q6⟩ := ih I' (S.comes I ha hc e') (hl.2 _ e) (h3 _ e)
      exact ⟨w, x, by rw [List.flatMap_cons, run_append, e, M.ok_bind, q4], q5, q6⟩

end Ush
