import Verif.Spec.Scribble
import Verif.Proof.Nested
import Verif.Proof.Fair
/-!
# Callbacks that write to their arguments: from the end of the line to the prompt nobody reads the input buffer
-/
namespace Ush
open Spec

variable {E : Env} {u v : Ush}

/-! ## Nobody is going to read the input buffer -/

def deadSt (u : Ush) : St → Prop
  | .reset | .resetPrompt | .readPrepare => True
  | .promptPrefix | .promptHost | .promptSpace | .promptPath | .promptSuffix => u.promptNext = .readPrepare
  | _ => False

def Parked (u : Ush) : Prop := if u.state = .writeChar then deadSt u u.writeNext ∧ ∀ o, u.writeBuf ≠ .inBuf o else deadSt u u.state

theorem Parked.of (hs : u.state ≠ .writeChar) (h : deadSt u u.state) : Parked u := by unfold Parked; rw [if_neg hs]; exact h

theorem Parked.write (hs : u.state = .writeChar) (h : deadSt u u.writeNext) (hb : ∀ o, u.writeBuf ≠ .inBuf o) : Parked u := by unfold Parked; rw [if_pos hs]; exact ⟨h, hb⟩

theorem Parked.same (h : Parked u) (h1 : v.state = u.state) (h2 : v.writeNext = u.writeNext) (h3 : v.writeBuf = u.writeBuf) (h4 : v.promptNext = u.promptNext) : Parked v := by
  have : ∀ s, deadSt u s → deadSt v s := by
    intro s hs
    cases s <;> first | exact hs | exact h4.trans hs
  unfold Parked at h ⊢
  rw [h1, h2, h3]
  split at h
  · rename_i hw; rw [if_pos hw]; exact ⟨this _ h.1, h.2⟩
  · rename_i hw; rw [if_neg hw]; exact this _ h

theorem writePointer_dead {p : Ptr} {s : St} (hs : s = .reset ∨ s = .resetPrompt) (hp : ∀ o, p ≠ .inBuf o) (h : writePointer u p s = .ok v) : Parked v := by
  unfold writePointer at h
  mgo h
  cases h
  refine Parked.write rfl ?_ hp
  rcases hs with rfl | rfl <;> trivial

theorem printfError_dead {m : Str} (hd : Parked u) (h : printfError E u m = .ok v) : Parked v := by
  unfold printfError at h
  mgo h <;> (cases h; exact hd.same rfl rfl rfl rfl)

theorem ushPrintf_dead {f : Fmt} (h : ushPrintf E u f = .ok v) : Parked v := by
  unfold ushPrintf at h
  obtain ⟨u1, h1, h⟩ := M.bind_eq_ok.mp h
  have e1 : Parked u1 := by
    split at h1
    · obtain ⟨o, _, h1⟩ := M.bind_eq_ok.mp h1
      exact writePointer_dead (.inr rfl) (by simp) h1
    · rename_i hb
      have hb : u.writeBuf = .outBuf := Classical.not_not.mp hb
      cases h1
      exact Parked.write rfl trivial (by intro o; show u.writeBuf ≠ _; rw [hb]; exact nofun)
  obtain ⟨_, _, h⟩ := M.bind_eq_ok.mp h
  obtain ⟨o, _, h⟩ := M.bind_eq_ok.mp h
  obtain ⟨n, _, h⟩ := M.bind_eq_ok.mp h
  have e2 : Parked { u1 with outBuf := o, writeSize := u1.writeSize + n } := e1.same rfl rfl rfl rfl
  split at h
  · exact printfError_dead e2 h
  · split at h
    · exact printfError_dead e2 h
    · cases h; exact e2

theorem FsFrame.dead (h : FsFrame u v) (hd : Parked u) : Parked v := by
  unfold FsFrame at h
  exact hd.same (by rw [h]) (by rw [h]) (by rw [h]) (by rw [h])

theorem runApi_dead {a : Api} (hm : Mild a) (hd : Parked u) (h : runApi E u a = .ok v) : Parked v := by
  cases a with
  | print p => exact writePointer_dead (.inl rfl) hm h
  | printNoNewline p => exact writePointer_dead (.inr rfl) hm h
  | printStatus s => exact writePointer_dead (.inl rfl) (by simp) h
  | printf f => exact ushPrintf_dead h
  | flush => exact writePointer_dead (.inr rfl) (by simp) h
  | reset => exact writePointer_dead (.inr rfl) (by simp) h
  | mount p i fs =>
    obtain ⟨r, h1, h⟩ := M.bind_eq_ok.mp h
    cases h; exact ((nodeMount_frame h1).emit _).dead hd
  | unmount p =>
    obtain ⟨r, h1, h⟩ := M.bind_eq_ok.mp h
    cases h; exact ((nodeUnmount_frame h1).emit _).dead hd
  | setCurrentDir p =>
    obtain ⟨r, h1, h⟩ := M.bind_eq_ok.mp h
    cases h; exact ((setCurrentDir_frame h1).emit _).dead hd
  | commandsAdd i fs =>
    obtain ⟨r, h1, h⟩ := M.bind_eq_ok.mp h
    cases h; exact ((commandsAdd_frame h1).emit _).dead hd
  | commandsRemove i =>
    obtain ⟨r, h1, h⟩ := M.bind_eq_ok.mp h
    cases h; exact ((commandsRemove_frame h1).emit _).dead hd
  | processStart f => exact hm.elim
  | setState s => exact hm.elim
  | fillOut s =>
    obtain ⟨r, h1, h⟩ := M.bind_eq_ok.mp h
    cases h; exact hd.same rfl rfl rfl rfl

theorem runApis_dead : ∀ (as : List Api) {u v : Ush}, (∀ a ∈ as, Mild a) → Parked u → runApis E u as = .ok v → Parked v := by
  intro as
  induction as with
  | nil => intro u v _ hd h; cases h; exact hd
  | cons a as ih =>
    intro u v hm hd h
    obtain ⟨w, h1, h2⟩ := M.bind_eq_ok.mp h
    exact ih (fun b hb => hm b (by simp [hb])) (runApi_dead (hm a (by simp)) hd h1) h2

theorem call_mild (cs : List Call) : ∀ a ∈ cs.flatMap Call.apis, Mild a := by
  intro a ha
  obtain ⟨k, -, h⟩ := List.mem_flatMap.mp ha
  cases k with
  | fs o =>
    have : a = o.api := by simpa [Call.apis] using h
    subst this
    cases o <;> trivial
  | print s => obtain rfl : a = _ := by simpa [Call.apis] using h
               exact nofun
  | printNoNewline s => obtain rfl : a = _ := by simpa [Call.apis] using h
                        exact nofun
  | «show» s => rcases (by simpa [Call.apis] using h : a = _ ∨ a = _) with rfl | rfl <;> trivial
  | _ => obtain rfl : a = _ := by simpa [Call.apis] using h
         trivial

/-- From the end of the line on, with callbacks that make such calls. -/
theorem kept_dead (hh : ∀ h, E.hook = some h → ∀ argv u, ∀ a ∈ h argv u, Mild a) (he : ∀ id argv u, ∀ a ∈ E.userExec id argv u, Mild a)
    (hs : ∀ id d u, ∀ a ∈ E.userSet id d u, Mild a) : Kept E Parked where
  start u h := .of (by rw [h]; simp) (by rw [h]; trivial)
  store u b h := h.same rfl rfl rfl rfl
  emit u e h := h.same rfl rfl rfl rfl
  hook u strs v hd h := by
    unfold callHook at h
    split at h
    · cases h; exact hd
    · rename_i f hf
      exact runApis_dead _ (hh f hf _ _) (u := u.emit _) (hd.same rfl rfl rfl rfl) h
  exec u cb id strs w hd h := runApis_dead _ (he _ _ _) (u := u.emit _) (hd.same rfl rfl rfl rfl) h
  set u id d w hd h := runApis_dead _ (hs _ _ _) (u := u.emit _) (hd.same rfl rfl rfl rfl) h

/-- A new line has begun. -/
def Fresh (p : Ush) (b : List UInt8) : Prop := p.state = .readChar ∧ p.inPos = 0 ∧ p.inBuf[0]? = some cNul ∧ b[0]? = some cNul

theorem writePointer_swap (p : Ush) (b : List UInt8) (q : Ptr) (s : St) (hq : ∀ o, q ≠ .inBuf o) :
    writePointer { p with inBuf := b } q s = (writePointer p q s >>= fun v => .ok { v with inBuf := b }) := by
  unfold writePointer
  have : ptrStr { p with inBuf := b } q = ptrStr p q := by cases q <;> first | rfl | exact absurd rfl (hq _)
  rw [this]
  generalize ptrStr p q = x
  generalize assertM (q ≠ .null) = y
  cases y <;> cases x <;> rfl

/-- The same service call with other contents of the input buffer. -/
theorem dead_step (p : Ush) (hd : Parked p) (hc : p.current.isSome = true) (b : List UInt8) (hb : b.length = p.inBuf.length) (io : Io) (p' : Ush) (x : Bool) (h : service E io p = .ok (p', x)) :
    ∃ b', b'.length = p'.inBuf.length ∧ service E io { p with inBuf := b } = .ok ({ p' with inBuf := b' }, x) ∧ (Parked p' ∨ Fresh p' b') := by
  rw [service_eq E io p hc] at h
  rw [service_eq E io { p with inBuf := b } hc]
  have wp : ∀ (q : Ptr) (s : St), (∀ o, q ≠ .inBuf o) → deadSt p s → (writePointer p q s >>= fun v => .ok (v, true)) = .ok (p', x) →
      ∃ b', b'.length = p'.inBuf.length ∧ (writePointer { p with inBuf := b } q s >>= fun v => .ok (v, true)) = .ok ({ p' with inBuf := b' }, x) ∧ (Parked p' ∨ Fresh p' b') := by
    intro q s hq hs h
    obtain ⟨w, h1, h2⟩ := M.bind_eq_ok.mp h
    cases h2
    refine ⟨b, by rw [(writePointer_frame h1).inBuf]; exact hb, by rw [writePointer_swap p b q s hq, h1]; rfl, .inl ?_⟩
    unfold writePointer at h1
    mgo h1
    cases h1
    refine Parked.write rfl ?_ hq
    cases s <;> exact hs
  unfold Parked at hd
  generalize hq : ({ p with inBuf := b } : Ush) = q
  have hqs : q.state = p.state := by rw [← hq]
  cases hs : p.state <;> rw [hs] at hd h hqs <;> simp only [reduceCtorEq, if_false, if_true] at hd <;> (try exact hd.elim) <;> rw [hqs] <;> simp only at h ⊢
  case writeChar =>
    subst hq
    unfold writeChar at h ⊢
    by_cases hp : p.writePos ≥ p.writeSize
    · rw [if_pos hp] at h
      rw [if_pos hp]
      cases h
      refine ⟨b, hb, rfl, .inl ?_⟩
      have hn : p.writeNext ≠ .writeChar := fun e => by rw [e] at hd; exact hd.1
      refine Parked.of hn ?_
      have := hd.1
      show deadSt _ p.writeNext
      generalize p.writeNext = s at this
      cases s <;> exact this
    · rw [if_neg hp] at h
      rw [if_neg hp]
      have hr : ptrRead { p with inBuf := b } p.writeBuf p.writePos = ptrRead p p.writeBuf p.writePos := by
        have := hd.2
        generalize p.writeBuf = q at this
        cases q <;> first | rfl | exact absurd rfl (this _)
      show ∃ b', _ ∧ ((ptrRead { p with inBuf := b } p.writeBuf p.writePos >>= _) >>= _) = _ ∧ _
      rw [hr]
      cases hx : ptrRead p p.writeBuf p.writePos with
      | error e => rw [hx] at h; cases h
      | ok c =>
        rw [hx] at h
        simp only [M.ok_bind, M.pure_eq] at h ⊢
        cases hw : io.wr with
        | true =>
          rw [hw] at h
          cases h
          refine ⟨b, hb, rfl, .inl (Parked.write hs ?_ hd.2)⟩
          have := hd.1
          show deadSt _ p.writeNext
          generalize p.writeNext = s at this
          cases s <;> exact this
        | false =>
          rw [hw] at h
          cases h
          exact ⟨b, hb, rfl, .inl (Parked.write hs hd.1 hd.2)⟩
  case readPrepare =>
    subst hq
    obtain ⟨w, h1, h2⟩ := M.bind_eq_ok.mp h
    cases h2
    unfold readStart at h1
    obtain ⟨o, ho, h1⟩ := M.bind_eq_ok.mp h1
    cases h1
    unfold wr at ho
    split at ho
    · rename_i hl
      cases ho
      refine ⟨b.set 0 cNul, by simp [hb], ?_, .inr ⟨rfl, rfl, ?_, ?_⟩⟩
      · unfold readStart wr
        rw [if_pos (show 0 < ({ p with inBuf := b } : Ush).inBuf.length by show 0 < b.length; omega)]
        rfl
      · show (p.inBuf.set 0 cNul)[0]? = _; simp [hl]
      · exact List.getElem?_set_self (by omega)
    · cases ho
  case promptPath =>
    have i1 : innerStep E p = promptPathStep p := by unfold innerStep; rw [hs]
    have i2 : innerStep E q = promptPathStep q := by unfold innerStep; rw [hqs]
    rw [i1] at h
    rw [i2]
    subst hq
    cases hcur : p.current with
    | none => rw [hcur] at hc; cases hc
    | some c =>
      cases hpa : (p.nodes c).path with
      | none => unfold promptPathStep at h; simp only [hcur, hpa] at h; cases h
      | some pa =>
        have j1 : promptPathStep p = writePointer p (.str (pathLast pa)) .promptSuffix := by unfold promptPathStep; simp only [hcur, hpa]
        have j2 : promptPathStep { p with inBuf := b } = writePointer { p with inBuf := b } (.str (pathLast pa)) .promptSuffix := by unfold promptPathStep; simp only [hcur, hpa]
        rw [j1] at h
        obtain ⟨b', e1, e2, e3⟩ := wp (.str (pathLast pa)) .promptSuffix (by simp) hd h
        exact ⟨b', e1, by rw [← e2, ← j2, hcur], e3⟩
  case resetPrompt =>
    subst hq
    unfold innerStep at h ⊢
    simp only [hs] at h ⊢
    cases h
    exact ⟨b, hb, rfl, .inl (Parked.of (by simp [promptStart]) rfl)⟩
  case reset =>
    subst hq
    unfold innerStep at h ⊢
    simp only [hs] at h ⊢
    exact wp _ _ (by simp) trivial h
  all_goals
    subst hq
    unfold innerStep at h ⊢
    simp only [hs] at h ⊢
    first
      | exact wp _ _ (by simp) hd h
      | exact wp _ _ (by simp) (by rw [hd]; trivial) h

/-! ## Schedules -/

variable {K : Rest}

theorem serviceK_noroot (io : Io) (hc : u.current.isSome = false) : serviceK E K io u = .error .assert := by
  unfold serviceK; rw [hc]; rfl

/-- In the states in which the terminal is asked no callback is called. -/
theorem serviceK_io (io : Io) (hs : u.state = .readChar ∨ u.state = .writeChar) : serviceK E K io u = service E io u := by
  unfold serviceK service parseServiceK parseService processServiceK processService
  rcases hs with hs | hs <;> simp only [hs] <;> rfl

/-- In the others its answer does not matter. -/
theorem serviceK_any (io io' : Io) (h1 : u.state ≠ .readChar) (h2 : u.state ≠ .writeChar) : serviceK E K io u = serviceK E K io' u := by
  unfold serviceK
  have e1 : readService E io u = readService E io' u := by
    unfold readService
    cases hs : u.state <;> first | rfl | exact absurd hs h1
  have e2 : writeService io u = writeService io' u := by
    unfold writeService
    cases hs : u.state <;> first | rfl | exact absurd hs h2
  rw [e1, e2]

/-- From the end of the line to the prompt no callback is called. -/
theorem dead_serviceK (io : Io) (hd : Parked u) : serviceK E K io u = service E io u := by
  have e1 : parseServiceK E K u = parseService E u := by
    unfold parseServiceK parseService
    unfold Parked at hd
    cases hs : u.state <;> first | rfl | (rw [hs] at hd; exact hd.elim)
  have e2 : processServiceK E K u = processService E u := by
    unfold processServiceK processService
    unfold Parked at hd
    cases hs : u.state <;> first | rfl | (rw [hs] at hd; exact hd.elim)
  unfold serviceK service
  rw [e1, e2]
  rfl

theorem drive1K_io (inp : List UInt8) (s : Slot) (hs : u.state = .readChar ∨ u.state = .writeChar) : drive1K E K u inp s = drive1 E u inp s := by
  unfold drive1K drive1
  rw [serviceK_io _ hs]

theorem drive1K_blocked (inp : List UInt8) (s : Slot) (hb : Blocked u inp s) :
    drive1K E K u inp s = .ok (u, inp) ∨ ∃ e, drive1K E K u inp s = .error e ∧ drive1K E K u inp .full = .error e := by
  have hs : u.state = .readChar ∨ u.state = .writeChar := hb.imp (·.1) (·.1)
  rw [drive1K_io inp s hs, drive1K_io inp _ hs]
  exact drive1_blocked E u inp s hb

theorem drive1K_unblocked (inp : List UInt8) (s : Slot) (hb : ¬ Blocked u inp s) : drive1K E K u inp s = drive1K E K u inp .full := by
  by_cases hs : u.state = .readChar ∨ u.state = .writeChar
  · rw [drive1K_io inp s hs, drive1K_io inp _ hs]
    exact drive1_unblocked E u inp s hb
  · have h1 : u.state ≠ .readChar := fun h => hs (.inl h)
    have h2 : u.state ≠ .writeChar := fun h => hs (.inr h)
    unfold drive1K
    rw [serviceK_any _ ⟨if Slot.full.ready then inp.head? else none, Slot.full.accept⟩ h1 h2]
    simp only [h1, false_and, if_false]

theorem driveK_append : ∀ (s1 s2 : List Slot) (u : Ush) (inp : List UInt8), driveK E K u inp (s1 ++ s2) = driveK E K u inp s1 >>= fun p => driveK E K p.1 p.2 s2 := by
  intro s1
  induction s1 with
  | nil => intro s2 u inp; rfl
  | cons s s1 ih =>
    intro s2 u inp
    simp only [List.cons_append, driveK]
    cases drive1K E K u inp s with
    | error e => rfl
    | ok p => exact ih s2 p.1 p.2

theorem Spec.StepsK.trans {u v w : Ush} {i j k : List UInt8} (h1 : StepsK E K u i v j) (h2 : StepsK E K v j w k) : StepsK E K u i w k := by
  obtain ⟨m, h1⟩ := h1
  obtain ⟨n, h2⟩ := h2
  exact ⟨m + n, by rw [← List.replicate_append_replicate, driveK_append, h1]; exact h2⟩

theorem driveNK_succ (f : Nat → Slot) (inp : List UInt8) (n : Nat) : driveNK E K f u inp (n + 1) = driveNK E K f u inp n >>= fun p => drive1K E K p.1 p.2 (f n) := by
  unfold driveNK
  rw [List.range_succ, List.map_append, driveK_append]
  congr 1
  funext p
  simp only [List.map_cons, List.map_nil, driveK]
  cases drive1K E K p.1 p.2 (f n) <;> rfl

theorem chainK_succ (inp : List UInt8) (n : Nat) :
    driveK E K u inp (List.replicate (n + 1) Slot.full) = drive1K E K u inp .full >>= fun p => driveK E K p.1 p.2 (List.replicate n Slot.full) := by
  rw [List.replicate_succ]; rfl

theorem idleK (inp : List UInt8) (hi : Idle u inp) (hc : u.current.isSome = true) (s : Slot) : drive1K E K u inp s = .ok (u, inp) := by
  rw [drive1K_io inp s (.inl hi.1)]
  rcases drive1_blocked E u inp s (.inl ⟨hi.1, .inr hi.2⟩) with h | ⟨x, -, h⟩
  · exact h
  · have := chain_idle E u inp hi hc 1
    rw [chain_succ, h] at this; cases this

theorem fairK_step (f : Nat → Slot) (hf : Fair f) (u : Ush) (inp : List UInt8) (t : Nat) (v : Ush) (r : List UInt8)
    (h : driveNK E K f u inp t = .ok (v, r)) (q : Ush × List UInt8) (hq : drive1K E K v r .full = .ok q) (hi : ¬ Idle v r) :
    ∃ t' ≥ t, driveNK E K f u inp t' = .ok q := by
  have hex : ∃ d, ¬ Blocked v r (f (t + d)) := by
    by_cases hs : v.state = .readChar
    · obtain ⟨m, hm, hr⟩ := hf.1 t
      refine ⟨m - t, ?_⟩
      rw [show t + (m - t) = m by omega]
      rintro (⟨-, h2⟩ | ⟨h2, -⟩)
      · rcases h2 with h2 | h2
        · rw [hr] at h2; cases h2
        · exact hi ⟨hs, h2⟩
      · rw [hs] at h2; cases h2
    · obtain ⟨m, hm, hr⟩ := hf.2 t
      refine ⟨m - t, ?_⟩
      rw [show t + (m - t) = m by omega]
      rintro (⟨h2, -⟩ | ⟨-, -, h2⟩)
      · exact hs h2
      · rw [hr] at h2; cases h2
  have hmin := Nat.find_spec hex
  have hlt : ∀ d < Nat.find hex, Blocked v r (f (t + d)) := fun d hd => Classical.not_not.mp (Nat.find_min hex hd)
  generalize Nat.find hex = d at hmin hlt
  have stay : ∀ e ≤ d, driveNK E K f u inp (t + e) = .ok (v, r) := by
    intro e
    induction e with
    | zero => intro _; exact h
    | succ e ih =>
      intro he
      rw [← Nat.add_assoc, driveNK_succ, ih (by omega), M.ok_bind]
      rcases drive1K_blocked r (f (t + e)) (hlt e (by omega)) with h3 | ⟨x, h3, h4⟩
      · exact h3
      · rw [hq] at h4; cases h4
  refine ⟨t + d + 1, by omega, ?_⟩
  rw [driveNK_succ, stay d (Nat.le_refl _), M.ok_bind, drive1K_unblocked r _ hmin, hq]

theorem fairK_reaches (f : Nat → Slot) (hf : Fair f) (u : Ush) (inp : List UInt8) (v : Ush) (h : StepsK E K u inp v []) (hi : Idle v []) (hc : v.current.isSome = true) :
    ∃ N, ∀ n ≥ N, driveNK E K f u inp n = .ok (v, []) := by
  obtain ⟨n, hn⟩ := h
  have key : ∀ (n : Nat) (w : Ush) (r : List UInt8) (t : Nat), driveK E K w r (List.replicate n Slot.full) = .ok (v, []) → driveNK E K f u inp t = .ok (w, r) →
      ∃ t', driveNK E K f u inp t' = .ok (v, []) := by
    intro n
    induction n with
    | zero => intro w r t h1 h2; cases h1; exact ⟨t, h2⟩
    | succ n ih =>
      intro w r t h1 h2
      rw [chainK_succ] at h1
      obtain ⟨q, hq, h3⟩ := M.bind_eq_ok.mp h1
      by_cases hw : Idle w r
      · have hcw : w.current.isSome = true := by
          cases hcw : w.current.isSome with
          | true => rfl
          | false => unfold drive1K at hq; rw [serviceK_noroot _ hcw] at hq; cases hq
        rw [idleK r hw hcw] at hq
        cases hq
        exact ih w r t h3 h2
      · obtain ⟨t', -, h4⟩ := fairK_step f hf u inp t w r h2 q hq hw
        exact ih q.1 q.2 t' h3 h4
  obtain ⟨N, hN⟩ := key n u inp 0 hn rfl
  refine ⟨N, fun m hm => ?_⟩
  obtain ⟨d, rfl⟩ := Nat.exists_eq_add_of_le hm
  clear hm
  induction d with
  | zero => exact hN
  | succ d ih => rw [← Nat.add_assoc, driveNK_succ, ih, M.ok_bind, idleK [] hi hc]

/-! ## One key -/

/-- The shell, and the one whose callbacks have written to the input buffer. -/
def Unread (p q : Ush) : Prop := p = q ∨ ∃ b, q = { p with inBuf := b } ∧ b.length = p.inBuf.length ∧ (Parked p ∨ Fresh p b)

theorem drive_len : ∀ (ss : List Slot) (u : Ush) (inp : List UInt8) (v : Ush) (r : List UInt8), drive E u inp ss = .ok (v, r) → r.length ≤ inp.length := by
  intro ss
  induction ss with
  | nil => intro u inp v r h; cases h; exact Nat.le_refl _
  | cons s ss ih =>
    intro u inp v r h
    obtain ⟨⟨w, q⟩, h1, h2⟩ := M.bind_eq_ok.mp h
    have := ih _ _ _ _ h2
    unfold drive1 at h1
    obtain ⟨⟨w', x⟩, -, h1⟩ := M.bind_eq_ok.mp h1
    cases h1
    refine Nat.le_trans this ?_
    split
    · simp
    · exact Nat.le_refl _

/-- One service call of the two, if no key is read. -/
theorem unread_step {g : Writer} (hg : g.Within) (kept : Kept E Parked) {p q p' : Ush} {r r' : List UInt8} (A : Unread p q) (h : drive1 E p r .full = .ok (p', r'))
    (hr : p.state = .readChar → r = []) : ∃ q', drive1K E (scribble g) q r .full = .ok (q', r') ∧ Unread p' q' := by
  have hK : PlainHook (scribble g) := fun _ _ => rfl
  unfold drive1 at h
  obtain ⟨⟨w', x⟩, h1, h2⟩ := M.bind_eq_ok.mp h
  cases h2
  have hc : p.current.isSome = true := by
    cases hc : p.current.isSome with
    | true => rfl
    | false => rw [service_noroot E _ p hc] at h1; cases h1
  unfold drive1K
  rcases A with rfl | ⟨b, rfl, hb, hd | hf⟩
  · rcases service_tail_kept kept ⟨if Slot.full.ready then r.head? else none, Slot.full.accept⟩ p with e | ⟨c, w, ⟨hh, hd⟩, e, ek⟩
    · exact ⟨p', by rw [e _ hK, h1]; rfl, .inl rfl⟩
    · rw [e] at h1
      cases h1
      rw [ek _ hK]
      cases c with
      | exec id argv => exact ⟨_, rfl, .inr ⟨_, rfl, hg _ _, .inl (hd nofun)⟩⟩
      | set id d => exact ⟨_, rfl, .inr ⟨_, rfl, hg _ _, .inl (hd nofun)⟩⟩
      | proc id => exact ⟨_, rfl, .inl rfl⟩
      | hook argv => exact absurd rfl (hh argv)
  · obtain ⟨b', e1, e2, e3⟩ := dead_step p hd hc b hb _ p' x h1
    refine ⟨{ p' with inBuf := b' }, ?_, .inr ⟨b', rfl, e1, e3⟩⟩
    have e4 : serviceK E (scribble g) ⟨if Slot.full.ready then r.head? else none, Slot.full.accept⟩ { p with inBuf := b } = .ok ({ p' with inBuf := b' }, x) := by
      rw [dead_serviceK (u := { p with inBuf := b }) _ (hd.same rfl rfl rfl rfl)]; exact e2
    rw [e4]
    rfl
  · have hr := hr hf.1
    subst hr
    have e : ∀ y : Ush, y.state = .readChar → y.current.isSome = true → service E ⟨none, true⟩ y = .ok (y, false) := fun y h1 h2 => by
      rw [service_eq E _ y h2, h1]; rfl
    rw [serviceK_io (u := { p with inBuf := b }) _ (.inl hf.1)]
    rw [show (⟨if Slot.full.ready then ([] : List UInt8).head? else none, Slot.full.accept⟩ : Io) = ⟨none, true⟩ from rfl] at h1 ⊢
    rw [e p hf.1 hc] at h1
    cases h1
    rw [e { p with inBuf := b } hf.1 hc]
    exact ⟨_, rfl, .inr ⟨b, rfl, hb, .inr hf⟩⟩

/-- As many service calls as one likes, if no key is read. -/
theorem unread_steps {g : Writer} (hg : g.Within) (kept : Kept E Parked) (r : List UInt8) (v : Ush) : ∀ (n : Nat) {p q : Ush}, Unread p q →
    drive E p r (List.replicate n Slot.full) = .ok (v, r) → ∃ q', driveK E (scribble g) q r (List.replicate n Slot.full) = .ok (q', r) ∧ Unread v q' := by
  intro n
  induction n with
  | zero => intro p q A h; cases h; exact ⟨q, rfl, A⟩
  | succ n ih =>
    intro p q A h
    rw [List.replicate_succ] at h ⊢
    obtain ⟨⟨p', r'⟩, h1, h2⟩ := M.bind_eq_ok.mp h
    have hl := drive_len _ _ _ _ _ h2
    have hr : p.state = .readChar → r = [] := by
      intro hs
      unfold drive1 at h1
      obtain ⟨⟨w', x⟩, -, h1⟩ := M.bind_eq_ok.mp h1
      cases h1
      rw [if_pos ⟨hs, rfl⟩] at hl
      cases r with
      | nil => rfl
      | cons c r => simp only [List.tail_cons, List.length_cons] at hl; omega
    obtain ⟨q', e1, A'⟩ := unread_step hg kept A h1 hr
    have er : r' = r := by
      unfold drive1 at h1
      obtain ⟨⟨w', x⟩, -, h1⟩ := M.bind_eq_ok.mp h1
      cases h1
      split
      · rename_i hs; rw [hr hs.1]; rfl
      · rfl
    subst er
    obtain ⟨q2, e2, A2⟩ := ih A' h2
    exact ⟨q2, by rw [driveK, e1]; exact e2, A2⟩

/-- One key. -/
theorem unread_key {g : Writer} (hg : g.Within) (kept : Kept E Parked) {p v : Ush} {c : UInt8} {r : List UInt8} (hs : p.state = .readChar) (h : Steps E p (c :: r) v r) :
    ∃ q, StepsK E (scribble g) p (c :: r) q r ∧ Unread v q := by
  obtain ⟨n, h⟩ := h
  cases n with
  | zero => exact absurd (congrArg (fun x : M (Ush × List UInt8) => match x with | .ok y => y.2.length | .error _ => 0) h) (by simp [drive])
  | succ n =>
    rw [List.replicate_succ] at h
    obtain ⟨⟨p', r'⟩, h1, h2⟩ := M.bind_eq_ok.mp h
    have er : r' = r := by
      unfold drive1 at h1
      obtain ⟨⟨w', x⟩, -, h1⟩ := M.bind_eq_ok.mp h1
      cases h1
      rw [if_pos ⟨hs, rfl⟩]; rfl
    subst er
    obtain ⟨q, e, A⟩ := unread_steps hg kept r' v n (.inl rfl) h2
    refine ⟨q, ⟨n + 1, ?_⟩, A⟩
    rw [chainK_succ, drive1K_io _ _ (.inl hs), h1]
    exact e

/-! ## Safety -/

def restSt (u : Ush) : St → Prop
  | .reset | .resetPrompt | .readPrepare => True
  | .processStart | .processService | .processFinish => ∃ f, u.procFile = some f ∧ ∀ b, f.process ≠ some (.builtin b)
  | _ => False

def Rested (u : Ush) : Prop := restSt u (next u)

theorem Rested.same (h : Rested u) (h1 : v.state = u.state) (h2 : v.writeNext = u.writeNext) (h3 : v.procFile = u.procFile) : Rested v := by
  have hn : next v = next u := by unfold next; rw [h1, h2]
  unfold Rested at h ⊢
  rw [hn]
  generalize next u = s at h
  cases s <;> first | exact h | (obtain ⟨f, k⟩ := h; exact ⟨f, by rw [h3]; exact k⟩)

theorem writePointer_rest {p : Ptr} {s : St} (hs : s = .reset ∨ s = .resetPrompt) (h : writePointer u p s = .ok v) : Rested v := by
  unfold writePointer at h
  mgo h
  cases h
  rcases hs with rfl | rfl <;> trivial

theorem printfError_rest {m : Str} (hd : Rested u) (h : printfError E u m = .ok v) : Rested v := by
  unfold printfError at h
  mgo h <;> (cases h; exact hd.same rfl rfl rfl)

theorem ushPrintf_rest {f : Fmt} (h : ushPrintf E u f = .ok v) : Rested v := by
  unfold ushPrintf at h
  obtain ⟨u1, h1, h⟩ := M.bind_eq_ok.mp h
  have e1 : Rested u1 := by
    split at h1
    · obtain ⟨o, _, h1⟩ := M.bind_eq_ok.mp h1
      exact writePointer_rest (.inr rfl) h1
    · cases h1; trivial
  obtain ⟨_, _, h⟩ := M.bind_eq_ok.mp h
  obtain ⟨o, _, h⟩ := M.bind_eq_ok.mp h
  obtain ⟨n, _, h⟩ := M.bind_eq_ok.mp h
  have e2 : Rested { u1 with outBuf := o, writeSize := u1.writeSize + n } := e1.same rfl rfl rfl
  split at h
  · exact printfError_rest e2 h
  · split at h
    · exact printfError_rest e2 h
    · cases h; exact e2

theorem FsFrame.rest (h : FsFrame u v) (hd : Rested u) : Rested v := by
  unfold FsFrame at h
  exact hd.same (by rw [h]) (by rw [h]) (by rw [h])

theorem runApi_rest {a : Api} (hm : Harmless a) (hd : Rested u) (h : runApi E u a = .ok v) : Rested v := by
  cases a with
  | print p => exact writePointer_rest (.inl rfl) h
  | printNoNewline p => exact writePointer_rest (.inr rfl) h
  | printStatus s => exact writePointer_rest (.inl rfl) h
  | printf f => exact ushPrintf_rest h
  | flush => exact writePointer_rest (.inr rfl) h
  | reset => exact writePointer_rest (.inr rfl) h
  | mount p i fs =>
    obtain ⟨r, h1, h⟩ := M.bind_eq_ok.mp h
    cases h; exact ((nodeMount_frame h1).emit _).rest hd
  | unmount p =>
    obtain ⟨r, h1, h⟩ := M.bind_eq_ok.mp h
    cases h; exact ((nodeUnmount_frame h1).emit _).rest hd
  | setCurrentDir p =>
    obtain ⟨r, h1, h⟩ := M.bind_eq_ok.mp h
    cases h; exact ((setCurrentDir_frame h1).emit _).rest hd
  | commandsAdd i fs =>
    obtain ⟨r, h1, h⟩ := M.bind_eq_ok.mp h
    cases h; exact ((commandsAdd_frame h1).emit _).rest hd
  | commandsRemove i =>
    obtain ⟨r, h1, h⟩ := M.bind_eq_ok.mp h
    cases h; exact ((commandsRemove_frame h1).emit _).rest hd
  | processStart f => cases h; exact ⟨f, rfl, hm⟩
  | setState s => cases h; cases s <;> first | exact hm.elim | trivial
  | fillOut s =>
    obtain ⟨r, h1, h⟩ := M.bind_eq_ok.mp h
    cases h; exact hd.same rfl rfl rfl

theorem runApis_rest : ∀ (as : List Api) {u v : Ush}, (∀ a ∈ as, Harmless a) → Rested u → runApis E u as = .ok v → Rested v := by
  intro as
  induction as with
  | nil => intro u v _ hd h; cases h; exact hd
  | cons a as ih =>
    intro u v hm hd h
    obtain ⟨w, h1, h2⟩ := M.bind_eq_ok.mp h
    exact ih (fun b hb => hm b (by simp [hb])) (runApi_rest (hm a (by simp)) hd h1) h2

theorem kept_rest (hh : ∀ h, E.hook = some h → ∀ argv u, ∀ a ∈ h argv u, Harmless a) (he : ∀ id argv u, ∀ a ∈ E.userExec id argv u, Harmless a)
    (hs : ∀ id d u, ∀ a ∈ E.userSet id d u, Harmless a) : Kept E Rested where
  start u h := by unfold Rested next; rw [h]; trivial
  store u b h := h.same rfl rfl rfl
  emit u e h := h.same rfl rfl rfl
  hook u strs v hd h := by
    unfold callHook at h
    split at h
    · cases h; exact hd
    · rename_i f hf
      exact runApis_rest _ (hh f hf _ _) (u := u.emit _) (hd.same rfl rfl rfl) h
  exec u cb id strs w hd h := runApis_rest _ (he _ _ _) (u := u.emit _) (hd.same rfl rfl rfl) h
  set u id d w hd h := runApis_rest _ (hs _ _ _) (u := u.emit _) (hd.same rfl rfl rfl) h

theorem Inv.scribble {L : Nat} {W : World} {k : Nat} {p : Ush} (I : Inv E L W k p) (hd : Rested p) (b : List UInt8) (hb : b.length = p.inBuf.length) : Inv E L W k { p with inBuf := b } := by
  refine { toBase := I.toBase.keep ⟨rfl, rfl, rfl, rfl⟩ hb rfl rfl rfl, live := ?_ }
  have l := I.live
  have hn : next ({ p with inBuf := b } : Ush) = next p := rfl
  rw [hn]
  unfold Rested at hd
  generalize next p = s at hd l
  cases s <;> first | exact hd.elim | exact l | skip
  all_goals
    obtain ⟨f, hf, hb'⟩ := hd
    obtain ⟨g, hg, l⟩ := l
    refine ⟨g, hg, ?_⟩
    rw [hf] at hg
    cases hg
    cases hp : f.process with
    | none => rw [hp] at l; exact l
    | some cb =>
      cases cb with
      | user id => rw [hp] at l; exact l
      | builtin b => exact absurd hp (hb' b)

theorem legalK_inv {L : Nat} (cfg : Roomy E) (H : Behaves E L) {g : Writer} (hg : g.Within) (kept : Kept E Rested) : ∀ (ms : List Move) {u : Ush} {W : World} {k : Nat}, Inv E L W k u →
    LegalK E L (scribble g) u ms → ∃ v W' j, runK E (scribble g) u ms = .ok v ∧ Inv E L W' j v := by
  have hK : PlainHook (scribble g) := fun _ _ => rfl
  intro ms
  induction ms with
  | nil => intro u W k I _; exact ⟨u, W, k, rfl, I⟩
  | cons m ms ih =>
    intro u W k I hl
    cases m with
    | service io =>
      obtain ⟨v, x, W', j, e, i, -⟩ := service_inv cfg H I io hl.1
      have key : ∃ v' W' j, serviceK E (scribble g) io u = .ok (v', x) ∧ Inv E L W' j v' := by
        rcases service_tail_kept kept io u with h | ⟨c, w, ⟨hh, hd⟩, e', ek⟩
        · exact ⟨v, W', j, by rw [h _ hK, e], i⟩
        · rw [e] at e'
          cases e'
          rw [ek _ hK]
          cases c with
          | exec id argv => exact ⟨_, W', j, rfl, i.scribble (hd nofun) _ (hg _ _)⟩
          | set id d => exact ⟨_, W', j, rfl, i.scribble (hd nofun) _ (hg _ _)⟩
          | proc id => exact ⟨_, W', j, rfl, i⟩
          | hook argv => exact absurd rfl (hh argv)
      obtain ⟨v', W2, j2, e2, i2⟩ := key
      have e0 : ∀ ms', runK E (scribble g) u (.service io :: ms') = serviceK E (scribble g) io u >>= fun p => runK E (scribble g) p.1 ms' := fun _ => rfl
      obtain ⟨w, W3, j3, e3, i3⟩ := ih i2 (hl.2 v' (by rw [e0, e2]; rfl))
      exact ⟨w, W3, j3, by rw [e0, e2]; exact e3, i3⟩
    | calls as =>
      obtain ⟨v, W', j, e, i, -⟩ := calls_inv cfg as.length as W k u (Nat.le_refl _) I hl.1
      have e0 : ∀ ms', runK E (scribble g) u (.calls as :: ms') = runApis E u as >>= fun v => runK E (scribble g) v ms' := fun _ => rfl
      obtain ⟨w, W3, j3, e3, i3⟩ := ih i (hl.2 v (by rw [e0, e]; rfl))
      exact ⟨w, W3, j3, by rw [e0, e]; exact e3, i3⟩

end Ush
