import Verif.Spec.Sched
import Verif.Proof.Log
/-!
# Schedules: stuttering and determinism
-/
namespace Ush
open Spec

/-- The call can do nothing: the shell wants to read and there is nothing, or wants to write and the output is busy. -/
def Blocked (u : Ush) (inp : List UInt8) (s : Slot) : Prop :=
  (u.state = .readChar ∧ (s.ready = false ∨ inp = [])) ∨
  (u.state = .writeChar ∧ u.writePos < u.writeSize ∧ s.accept = false)

instance (u : Ush) (inp : List UInt8) (s : Slot) : Decidable (Blocked u inp s) := by unfold Blocked; infer_instance

theorem drive1_noroot (E : Env) (u : Ush) (inp : List UInt8) (s : Slot) (hc : u.current.isSome = false) :
    drive1 E u inp s = .error .assert := by
  unfold drive1; rw [service_noroot E _ u hc]; rfl

/-- A blocked call changes nothing (or faults for reasons that have nothing to do with the schedule). -/
theorem drive1_blocked (E : Env) (u : Ush) (inp : List UInt8) (s : Slot) (hb : Blocked u inp s) :
    drive1 E u inp s = .ok (u, inp) ∨ ∃ e, drive1 E u inp s = .error e ∧ drive1 E u inp .full = .error e := by
  cases hc : u.current.isSome with
  | false => right; exact ⟨_, drive1_noroot E u inp s hc, drive1_noroot E u inp _ hc⟩
  | true =>
    unfold drive1
    rw [service_eq E _ u hc, service_eq E _ u hc]
    rcases hb with ⟨h1, h2⟩ | ⟨h1, h2, h3⟩
    · left
      rw [h1]
      simp only
      have hrd : (if s.ready = true then inp.head? else none) = none := by
        rcases h2 with h2 | h2
        · simp [h2]
        · simp [h2]
      unfold readChar
      simp only [hrd, M.ok_bind, M.pure_eq, true_and]
      rcases h2 with h2 | h2
      · simp [h2]
      · simp [h2]
    · rw [h1]
      simp only [reduceCtorEq, false_and, if_false]
      unfold writeChar
      have hp : ¬ u.writePos ≥ u.writeSize := by omega
      rw [if_neg hp, if_neg hp, h3]
      cases hr : ptrRead u u.writeBuf u.writePos with
      | error e => right; exact ⟨e, rfl, rfl⟩
      | ok c => left; rfl

/-- A call that is not blocked does the same under every schedule. -/
theorem drive1_unblocked (E : Env) (u : Ush) (inp : List UInt8) (s : Slot) (hb : ¬ Blocked u inp s) :
    drive1 E u inp s = drive1 E u inp .full := by
  cases hc : u.current.isSome with
  | false => rw [drive1_noroot E u inp s hc, drive1_noroot E u inp _ hc]
  | true =>
    unfold drive1
    rw [service_eq E _ u hc, service_eq E _ u hc]
    cases hs : u.state <;> simp only [reduceCtorEq, false_and, if_false]
    case readChar =>
      have : s.ready = true := by
        cases hr : s.ready with
        | true => rfl
        | false => exact absurd (Or.inl ⟨hs, Or.inl hr⟩) hb
      simp only [this, if_true, true_and]
      rfl
    case writeChar =>
      unfold writeChar
      by_cases hp : u.writePos ≥ u.writeSize
      · rw [if_pos hp, if_pos hp]
      · have : s.accept = true := by
          cases hr : s.accept with
          | true => rfl
          | false => exact absurd (Or.inr ⟨hs, by omega, hr⟩) hb
        rw [if_neg hp, if_neg hp, this]

theorem drive_append (E : Env) : ∀ (s1 s2 : List Slot) (u : Ush) (inp : List UInt8),
    drive E u inp (s1 ++ s2) = drive E u inp s1 >>= fun p => drive E p.1 p.2 s2 := by
  intro s1
  induction s1 with
  | nil => intro s2 u inp; rfl
  | cons s s1 ih =>
    intro s2 u inp
    simp only [List.cons_append, drive]
    cases drive1 E u inp s with
    | error e => rfl
    | ok p => exact ih s2 p.1 p.2

/-- The fixed sequence of configurations all schedules walk along. -/
abbrev chain (E : Env) (u : Ush) (inp : List UInt8) (n : Nat) : M (Ush × List UInt8) :=
  drive E u inp (List.replicate n Slot.full)

theorem chain_succ (E : Env) (u : Ush) (inp : List UInt8) (n : Nat) :
    chain E u inp (n + 1) = drive1 E u inp .full >>= fun p => chain E p.1 p.2 n := by
  show drive E u inp (List.replicate (n + 1) Slot.full) = _
  rw [List.replicate_succ]; rfl

theorem chain_add (E : Env) (u : Ush) (inp : List UInt8) (m n : Nat) :
    chain E u inp (m + n) = chain E u inp m >>= fun p => chain E p.1 p.2 n := by
  show drive E u inp (List.replicate (m + n) Slot.full) = _
  rw [← List.replicate_append_replicate, drive_append]

/-- Every schedule reaches a point of the chain. -/
theorem drive_chain (E : Env) : ∀ (ss : List Slot) (u : Ush) (inp : List UInt8) (v : Ush) (r : List UInt8),
    drive E u inp ss = .ok (v, r) → ∃ k ≤ ss.length, chain E u inp k = .ok (v, r) := by
  intro ss
  induction ss with
  | nil => intro u inp v r h; exact ⟨0, Nat.le_refl _, h⟩
  | cons s ss ih =>
    intro u inp v r h
    unfold drive at h
    obtain ⟨⟨w, q⟩, h1, h2⟩ := M.bind_eq_ok.mp h
    by_cases hb : Blocked u inp s
    · rcases drive1_blocked E u inp s hb with h3 | ⟨e, h3, -⟩
      · rw [h3] at h1; cases h1
        obtain ⟨k, hk, e⟩ := ih _ _ v r h2
        exact ⟨k, Nat.le_succ_of_le hk, e⟩
      · rw [h3] at h1; cases h1
    · rw [drive1_unblocked E u inp s hb] at h1
      obtain ⟨k, hk, e⟩ := ih _ _ v r h2
      refine ⟨k + 1, Nat.succ_le_succ hk, ?_⟩
      rw [chain_succ, h1]; exact e

theorem drive_fault (E : Env) : ∀ (ss : List Slot) (u : Ush) (inp : List UInt8) (f : Fault),
    drive E u inp ss = .error f → ∃ k ≤ ss.length, chain E u inp k = .error f := by
  intro ss
  induction ss with
  | nil => intro u inp f h; cases h
  | cons s ss ih =>
    intro u inp f h
    unfold drive at h
    cases h1 : drive1 E u inp s with
    | error e =>
      rw [h1] at h; cases h
      refine ⟨1, by simp, ?_⟩
      rw [chain_succ]
      by_cases hb : Blocked u inp s
      · rcases drive1_blocked E u inp s hb with h3 | ⟨e, h3, h4⟩
        · rw [h3] at h1; cases h1
        · rw [h3] at h1; cases h1; rw [h4]; rfl
      · rw [← drive1_unblocked E u inp s hb, h1]; rfl
    | ok p =>
      rw [h1] at h
      obtain ⟨k, hk, e⟩ := ih p.1 p.2 f h
      by_cases hb : Blocked u inp s
      · rcases drive1_blocked E u inp s hb with h3 | ⟨e, h3, -⟩
        · rw [h3] at h1; cases h1
          exact ⟨k, Nat.le_succ_of_le hk, e⟩
        · rw [h3] at h1; cases h1
      · rw [drive1_unblocked E u inp s hb] at h1
        refine ⟨k + 1, Nat.succ_le_succ hk, ?_⟩
        rw [chain_succ, h1]; exact e

/-- An idle shell stays where it is. -/
theorem chain_idle (E : Env) (u : Ush) (inp : List UInt8) (hi : Idle u inp) (hc : u.current.isSome = true) (n : Nat) :
    chain E u inp n = .ok (u, inp) := by
  have hb : Blocked u inp .full := Or.inl ⟨hi.1, Or.inr hi.2⟩
  have h1 : drive1 E u inp .full = .ok (u, inp) := by
    obtain ⟨h1, rfl⟩ := hi
    unfold drive1
    rw [service_eq E _ u hc, h1]
    rfl
  induction n with
  | zero => rfl
  | succ n ih => rw [chain_succ, h1]; exact ih

/-- A schedule with `n` slots in which everything is ready gets at least as far as the `n`-th point of the chain. -/
theorem drive_progress (E : Env) : ∀ (ss : List Slot) (u : Ush) (inp : List UInt8) (n : Nat) (v : Ush) (r : List UInt8),
    chain E u inp n = .ok (v, r) → (∀ k, ∃ p, chain E u inp k = .ok p) →
    n ≤ ss.countP (fun s => s.ready && s.accept) →
    ∃ k, n ≤ k ∧ drive E u inp ss = chain E u inp k := by
  intro ss
  induction ss with
  | nil => intro u inp n v r h _ hn; simp at hn; subst hn; exact ⟨0, Nat.le_refl _, rfl⟩
  | cons s ss ih =>
    intro u inp n v r h hall hn
    by_cases hb : Blocked u inp s
    · have hd : drive1 E u inp s = .ok (u, inp) := by
        rcases drive1_blocked E u inp s hb with h3 | ⟨e, h3, h4⟩
        · exact h3
        · obtain ⟨p, hp⟩ := hall 1
          rw [chain_succ, h4] at hp; cases hp
      have hdr : drive E u inp (s :: ss) = drive E u inp ss := by rw [drive, hd]; rfl
      rw [hdr]
      by_cases hf : (s.ready && s.accept) = true
      · -- only possible when idle
        rcases hb with ⟨h1, h2⟩ | ⟨h1, h2, h3⟩
        · have hi : Idle u inp := ⟨h1, by
            rcases h2 with h2 | h2
            · simp [h2] at hf
            · exact h2⟩
          obtain ⟨p, hp⟩ := hall 1
          have hc : u.current.isSome = true := by
            cases hc : u.current.isSome with
            | true => rfl
            | false => rw [chain_succ, drive1_noroot E u inp _ hc] at hp; cases hp
          have hci := chain_idle E u inp hi hc
          cases n with
          | zero =>
            obtain ⟨k, hk, e⟩ := ih u inp 0 u inp (hci 0) hall (Nat.zero_le _)
            exact ⟨k, hk, e⟩
          | succ n =>
            rw [List.countP_cons_of_pos (by simpa using hf)] at hn
            obtain ⟨k, hk, e⟩ := ih u inp n u inp (hci n) hall (by omega)
            refine ⟨k + 1, by omega, ?_⟩
            rw [e, hci k, hci (k + 1)]
        · simp [h3] at hf
      · rw [List.countP_cons_of_neg (by simpa using hf)] at hn
        exact ih u inp n v r h hall hn
    · have hd := drive1_unblocked E u inp s hb
      obtain ⟨p, hp⟩ := hall 1
      have hd1 : ∃ p, drive1 E u inp .full = .ok p := by
        rw [chain_succ] at hp
        obtain ⟨q, hq, -⟩ := M.bind_eq_ok.mp hp
        exact ⟨q, hq⟩
      obtain ⟨q, hq⟩ := hd1
      have hdr : drive E u inp (s :: ss) = drive E q.1 q.2 ss := by rw [drive, hd, hq]; rfl
      have hch : ∀ k, chain E u inp (k + 1) = chain E q.1 q.2 k := by
        intro k; rw [chain_succ, hq]; rfl
      have hall' : ∀ k, ∃ p, chain E q.1 q.2 k = .ok p := fun k => by rw [← hch]; exact hall (k + 1)
      rw [hdr]
      cases n with
      | zero =>
        obtain ⟨k, hk, e⟩ := ih q.1 q.2 0 q.1 q.2 rfl hall' (Nat.zero_le _)
        exact ⟨k + 1, Nat.zero_le _, by rw [e, hch]⟩
      | succ n =>
        have hn' : n ≤ ss.countP (fun s => s.ready && s.accept) := by
          by_cases hf : (s.ready && s.accept) = true
          · rw [List.countP_cons_of_pos (by simpa using hf)] at hn; omega
          · rw [List.countP_cons_of_neg (by simpa using hf)] at hn; omega
        rw [hch] at h
        obtain ⟨k, hk, e⟩ := ih q.1 q.2 n v r h hall' hn'
        exact ⟨k + 1, by omega, by rw [e, hch]⟩

/-! ## Log growth -/

theorem writeChar_log {io : Io} {u v : Ush} (h : writeChar io u = .ok v) :
    v.log = u.log ∨ ∃ c, v.log = u.log ++ [.out c] := by
  unfold writeChar at h
  split at h
  · cases h; exact Or.inl rfl
  · obtain ⟨c, -, h⟩ := M.bind_eq_ok.mp h
    split at h
    · cases h; exact Or.inr ⟨c, rfl⟩
    · cases h; exact Or.inl rfl

/-- What one service call adds to the log. -/
theorem service_log {E : Env} {io : Io} {u v : Ush} {b : Bool} (h : service E io u = .ok (v, b)) :
    ∃ l, v.log = u.log ++ l ∧ (l.countP Event.isIo ≤ 1) := by
  have hn : ∀ l : List Event, (∀ e ∈ l, e.isIo = false) → l.countP Event.isIo ≤ 1 := by
    intro l hl
    rw [List.countP_eq_zero.mpr (by intro e he; rw [hl e he]; simp)]; omega
  cases hc : u.current.isSome with
  | false => rw [service_noroot E io u hc] at h; cases h
  | true =>
    rw [service_eq E io u hc] at h
    have inner : ∀ {b : Bool}, (innerStep E u >>= fun v => (.ok (v, b) : M (Ush × Bool))) = .ok (v, b) →
        ∃ l, v.log = u.log ++ l ∧ (l.countP Event.isIo ≤ 1) := by
      intro b h
      obtain ⟨w, h1, h2⟩ := M.bind_eq_ok.mp h
      cases h2
      obtain ⟨l, e, hl⟩ := innerStep_log h1
      exact ⟨l, e, hn l hl⟩
    split at h
    · have := readChar_log h
      refine ⟨_, this, ?_⟩
      cases io.rd <;> simp [Event.isIo]
    · rename_i hs
      have : innerStep E u = readStart u := by unfold innerStep; rw [hs]
      obtain ⟨w, h1, h2⟩ := M.bind_eq_ok.mp h
      cases h2
      rw [← this] at h1
      obtain ⟨l, e, hl⟩ := innerStep_log h1
      exact ⟨l, e, hn l hl⟩
    · obtain ⟨w, h1, h2⟩ := M.bind_eq_ok.mp h
      cases h2
      rcases writeChar_log h1 with h1 | ⟨c, h1⟩
      · exact ⟨[], by simp [h1], by simp⟩
      · exact ⟨_, h1, by simp [Event.isIo]⟩
    · obtain ⟨w, h1, h2⟩ := M.bind_eq_ok.mp h
      cases h2
      obtain ⟨l, e, hl⟩ := innerStep_log h1
      exact ⟨l, e, hn l hl⟩

theorem drive_log {E : Env} : ∀ (ss : List Slot) {u : Ush} {inp : List UInt8} {p : Ush × List UInt8},
    drive E u inp ss = .ok p → u.log <+: p.1.log := by
  intro ss
  induction ss with
  | nil => intro u inp p h; cases h; exact List.prefix_rfl
  | cons s ss ih =>
    intro u inp p h
    unfold drive at h
    obtain ⟨q, h1, h2⟩ := M.bind_eq_ok.mp h
    unfold drive1 at h1
    obtain ⟨⟨v, b⟩, h3, h4⟩ := M.bind_eq_ok.mp h1
    cases h4
    obtain ⟨l, e, -⟩ := service_log h3
    exact List.IsPrefix.trans ⟨l, e.symm⟩ (ih h2)

/-! ## Composition of runs -/

theorem Spec.Steps.refl (E : Env) (u : Ush) (inp : List UInt8) : Steps E u inp u inp := ⟨0, rfl⟩

theorem Spec.Steps.trans {E : Env} {u v w : Ush} {i j k : List UInt8} (h1 : Steps E u i v j) (h2 : Steps E v j w k) :
    Steps E u i w k := by
  obtain ⟨n, h1⟩ := h1
  obtain ⟨m, h2⟩ := h2
  refine ⟨n + m, ?_⟩
  have := chain_add E u i n m
  unfold chain at this
  rw [this, h1]; exact h2

theorem Spec.Steps.one {E : Env} {u v : Ush} {i j : List UInt8} (h : drive1 E u i .full = .ok (v, j)) : Steps E u i v j :=
  ⟨1, by
    have := chain_succ E u i 0
    unfold chain at this
    rw [this, h]; rfl⟩

/-- A step that needs no I/O. -/
theorem Spec.Steps.inner {E : Env} {u v : Ush} (i : List UInt8) (hc : u.current.isSome = true)
    (h1 : u.state ≠ .readChar) (h2 : u.state ≠ .writeChar) (h : innerStep E u = .ok v) : Steps E u i v i := by
  apply Steps.one
  unfold drive1
  rw [service_eq E _ u hc]
  cases hs : u.state <;> simp only [hs, ne_eq, not_true, reduceCtorEq, not_false_eq_true] at h1 h2 <;>
    simp only [reduceCtorEq, false_and, if_false, h, M.ok_bind, M.pure_eq]
  unfold innerStep at h
  rw [hs] at h
  simp only at h
  rw [h]; rfl

end Ush
