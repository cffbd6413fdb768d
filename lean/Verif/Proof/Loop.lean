import Verif.Proof.Host
/-!
# Calling `ush_service` until it returns `false`
-/
namespace Ush
open Spec
variable {E : Env} {u v w : Ush}

/-- A line is executed; then a new line begins. -/
def OnLine (u : Ush) : Prop := On isLine u ∨ (isPrompt (next u) = true ∧ u.promptNext = .readPrepare)

/-- A key is handled that does not end the line. -/
def OnKey (u : Ush) : Prop := On isKeyed u ∨ (isPrompt (next u) = true ∧ u.promptNext = .acRecall)

theorem writePointer_line {p : Ptr} {st : St} (hs : isLine st = true) (h : writePointer u p st = .ok v) : OnLine v := .inl (writePointer_on hs h)

theorem writePointer_keyed {p : Ptr} {st : St} (hs : isKeyed st = true) (h : writePointer u p st = .ok v) : OnKey v := .inl (writePointer_on hs h)

theorem innerStep_line (hE : EnvOn isLine E) (H : OnLine u) (hw : u.state ≠ .writeChar) (hr : u.state ≠ .readPrepare) (h : innerStep E u = .ok v) : OnLine v := by
  have hn : next u = u.state := by unfold next; rw [if_neg hw]
  have on : isLine u.state = true → On isLine u := fun h => .of h hw
  unfold OnLine On at H
  rw [hn] at H
  unfold innerStep at h
  split at h <;> rename_i hs <;> rw [hs] at H on
  all_goals try (exfalso; rcases H with h | ⟨h, -⟩ <;> (cases h; done))
  · exact writePointer_line rfl h
  · cases h; exact .inr ⟨rfl, rfl⟩
  · obtain ⟨e1, e2, -⟩ := writePointer_next h
    exact .inr ⟨by rw [e1]; rfl, by rw [e2]; exact (H.resolve_left (fun h => nomatch h)).2⟩
  · obtain ⟨e1, e2, -⟩ := writePointer_next h
    exact .inr ⟨by rw [e1]; rfl, by rw [e2]; exact (H.resolve_left (fun h => nomatch h)).2⟩
  · obtain ⟨e1, e2, -⟩ := writePointer_next h
    exact .inr ⟨by rw [e1]; rfl, by rw [e2]; exact (H.resolve_left (fun h => nomatch h)).2⟩
  · obtain ⟨e1, e2, -⟩ := promptPathStep_next h
    exact .inr ⟨by rw [e1]; rfl, by rw [e2]; exact (H.resolve_left (fun h => nomatch h)).2⟩
  · rw [(H.resolve_left (fun h => nomatch h)).2] at h
    exact writePointer_line rfl h
  · exact absurd hs hr
  · cases h; exact .inl rfl
  · exact .inl (parseChar_on (fun _ h => h) hE (on rfl) h)
  · exact .inl (parseChar_on (fun _ h => h) hE (on rfl) h)
  · exact .inl (parseChar_on (fun _ h => h) hE (on rfl) h)
  · exact absurd hs hw
  · exact .inl (processCall_on (fun _ h => h) hE (on rfl) h)
  · exact .inl (processCall_on (fun _ h => h) hE (on rfl) h)
  · exact .inl (processCall_on (fun _ h => h) hE (on rfl) h)

theorem innerStep_keyed (H : OnKey u) (hw : u.state ≠ .writeChar) (hr : u.state ≠ .readChar) (h : innerStep E u = .ok v) : OnKey v := by
  have hn : next u = u.state := by unfold next; rw [if_neg hw]
  have on : isKeyed u.state = true → On isKeyed u := fun h => .of h hw
  unfold OnKey On at H
  rw [hn] at H
  unfold innerStep at h
  split at h <;> rename_i hs <;> rw [hs] at H on
  all_goals try (exfalso; rcases H with h | ⟨h, -⟩ <;> (cases h; done))
  · obtain ⟨e1, e2, -⟩ := writePointer_next h
    exact .inr ⟨by rw [e1]; rfl, by rw [e2]; exact (H.resolve_left (fun h => nomatch h)).2⟩
  · obtain ⟨e1, e2, -⟩ := writePointer_next h
    exact .inr ⟨by rw [e1]; rfl, by rw [e2]; exact (H.resolve_left (fun h => nomatch h)).2⟩
  · obtain ⟨e1, e2, -⟩ := writePointer_next h
    exact .inr ⟨by rw [e1]; rfl, by rw [e2]; exact (H.resolve_left (fun h => nomatch h)).2⟩
  · obtain ⟨e1, e2, -⟩ := promptPathStep_next h
    exact .inr ⟨by rw [e1]; rfl, by rw [e2]; exact (H.resolve_left (fun h => nomatch h)).2⟩
  · rw [(H.resolve_left (fun h => nomatch h)).2] at h
    exact writePointer_keyed rfl h
  · exact absurd hs hr
  · exact absurd hs hw
  · unfold acStatePrepare at h
    mgo h
    cases h; exact .inl rfl
  · cases h; exact .inl rfl
  · exact .inl (acCandidatesProcess_on (fun _ h => h) (on rfl) h)
  · exact .inl (acCandidatesProcess_on (fun _ h => h) (on rfl) h)
  · exact .inl (acCandidatesProcess_on (fun _ h => h) (on rfl) h)
  · exact .inl (acCandidatesFinish_on (fun _ h => h) h)
  · exact writePointer_keyed rfl h
  · cases h; exact .inr ⟨rfl, rfl⟩
  · exact writePointer_keyed rfl h
  · unfold acRecallSuffix at h
    mgo h
    all_goals exact writePointer_keyed rfl h

theorem service_line (hE : EnvOn isLine E) (H : OnLine u) (hr : u.state ≠ .readPrepare) {io : Io} {b : Bool} (h : service E io u = .ok (v, b)) :
    b = true ∧ OnLine v := by
  cases hc : u.current.isSome with
  | false => rw [service_noroot _ _ _ hc] at h; cases h
  | true =>
    rw [service_eq _ _ _ hc] at h
    split at h
    · rename_i hs
      exfalso
      unfold OnLine On next at H
      rw [hs] at H
      rcases H with h | ⟨h, -⟩ <;> cases h
    · rename_i hs; exact absurd hs hr
    · rename_i hs
      obtain ⟨x, hx, h⟩ := M.bind_eq_ok.mp h
      cases h
      obtain ⟨e1, e2, -⟩ := writeChar_next hs hx
      exact ⟨rfl, by unfold OnLine On; rw [e1, e2]; exact H⟩
    · rename_i hs
      obtain ⟨x, hx, h⟩ := M.bind_eq_ok.mp h
      cases h
      exact ⟨rfl, innerStep_line hE H hs hr hx⟩

theorem service_keyed (H : OnKey u) (hr : u.state ≠ .readChar) {io : Io} {b : Bool} (h : service E io u = .ok (v, b)) :
    b = true ∧ OnKey v := by
  cases hc : u.current.isSome with
  | false => rw [service_noroot _ _ _ hc] at h; cases h
  | true =>
    rw [service_eq _ _ _ hc] at h
    split at h
    · rename_i hs; exact absurd hs hr
    · rename_i hs
      exfalso
      unfold OnKey On next at H
      rw [hs] at H
      rcases H with h | ⟨h, -⟩ <;> cases h
    · rename_i hs
      obtain ⟨x, hx, h⟩ := M.bind_eq_ok.mp h
      cases h
      obtain ⟨e1, e2, -⟩ := writeChar_next hs hx
      exact ⟨rfl, by unfold OnKey On; rw [e1, e2]; exact H⟩
    · rename_i hs
      obtain ⟨x, hx, h⟩ := M.bind_eq_ok.mp h
      cases h
      exact ⟨rfl, innerStep_keyed H hs hr hx⟩

/-- Handling a key begins. -/
theorem service_key (hs : u.state = .readChar) (ha : u.ansiEsc ≤ 2) {c : UInt8} {a b : Bool} (h : service E ⟨some c, a⟩ u = .ok (v, b)) :
    b = true ∧ if c = cEtx ∨ isEnter c = true ∧ u.ansiEsc = 0 then OnLine v else OnKey v := by
  cases hc : u.current.isSome with
  | false => rw [service_noroot _ _ _ hc] at h; cases h
  | true =>
    rw [service_eq _ _ _ hc, hs] at h
    simp only [readChar] at h
    have K : ∀ {w : Ush}, w.state = .readChar → OnKey w := fun h => .inl (.of (by rw [h]; rfl) (by rw [h]; simp))
    obtain ⟨⟨x, e⟩, h1, h⟩ := M.bind_eq_ok.mp h
    obtain ⟨y, h2, h⟩ := M.bind_eq_ok.mp h
    cases h
    refine ⟨rfl, ?_⟩
    by_cases c1 : c = cEtx
    · rw [if_pos c1] at h1
      rw [if_pos (.inl c1)]
      obtain ⟨w, hw, h1⟩ := M.bind_eq_ok.mp h1
      cases h1; cases h2
      exact writePointer_line rfl hw
    rw [if_neg c1] at h1
    have echo : ∀ {x : Ush}, readEcho x c = .ok v → isEnter c = false → OnKey v := by
      intro x h2 hn
      unfold readEcho at h2
      obtain ⟨o, _, h2⟩ := M.bind_eq_ok.mp h2
      refine writePointer_keyed ?_ h2
      rw [if_neg (by rintro (rfl | rfl) <;> cases hn)]; rfl
    split at h1
    · rename_i c2
      have hn : isEnter c = false := by rcases c2 with rfl | rfl <;> rfl
      rw [if_neg (by rintro (h | ⟨h, -⟩); exacts [c1 h, by rw [hn] at h; cases h])]
      split at h1
      · obtain ⟨w, hw, h1⟩ := M.bind_eq_ok.mp h1
        cases h1
        exact echo h2 hn
      · cases h1; cases h2; exact K hs
    · split at h1
      · rename_i c3
        have hn : isEnter c = false := by rw [c3]; rfl
        rw [if_neg (by rintro (h | ⟨h, -⟩); exacts [c1 h, by rw [hn] at h; cases h])]
        cases h1; cases h2
        cases E.autocomplete with
        | true => exact .inl rfl
        | false => exact K hs
      · split at h1
        · rename_i c4
          have hn : isEnter c = false := by rw [c4]; rfl
          rw [if_neg (by rintro (h | ⟨h, -⟩); exacts [c1 h, by rw [hn] at h; cases h])]
          cases h1; cases h2; exact K hs
        · unfold readCharByEscape at h1
          split at h1
          · rename_i he
            obtain ⟨b1, h3, h1⟩ := M.bind_eq_ok.mp h1
            obtain ⟨b2, h4, h1⟩ := M.bind_eq_ok.mp h1
            cases h1
            simp only [if_true] at h2
            cases hn : isEnter c with
            | false =>
              rw [if_neg (by rintro (h | ⟨h, -⟩); exacts [c1 h, by cases h])]
              exact echo h2 hn
            | true =>
              rw [if_pos (.inr ⟨rfl, he⟩)]
              unfold readEcho at h2
              obtain ⟨o, _, h2⟩ := M.bind_eq_ok.mp h2
              refine writePointer_line ?_ h2
              rw [if_pos (by simpa [isEnter, or_comm] using hn)]; rfl
          · rename_i he
            rw [if_neg (by rintro (h | ⟨-, h⟩); exacts [c1 h, he h])]
            split at h1
            · mgo h1 <;> (cases h1; cases h2; exact K hs)
            · rename_i h1'
              split at h1
              · cases h1; cases h2; exact K hs
              · rename_i h2'
                exfalso
                have := he
                have : u.ansiEsc ≠ 0 := he
                have : u.ansiEsc ≠ 1 := h1'
                have : u.ansiEsc ≠ 2 := h2'
                omega

/-! ### Loops with an output that is always ready -/

theorem drive1_service {i q : List UInt8} (h : drive1 E u i .full = .ok (v, q)) :
    ∃ b, service E ⟨i.head?, true⟩ u = .ok (v, b) ∧ q = if u.state = .readChar then i.tail else i := by
  unfold drive1 at h
  obtain ⟨⟨w, b⟩, hw, h⟩ := M.bind_eq_ok.mp h
  cases h
  exact ⟨b, hw, by simp⟩

theorem OnLine.busy (H : OnLine u) : u.state ≠ .readChar := by
  intro hs
  unfold OnLine On next at H
  rw [hs] at H
  rcases H with h | ⟨h, -⟩ <;> cases h

theorem service_start {io : Io} (hs : u.state = .readPrepare) {b : Bool} (h : service E io u = .ok (v, b)) : b = false ∧ v.state = .readChar := by
  cases hc : u.current.isSome with
  | false => rw [service_noroot _ _ _ hc] at h; cases h
  | true =>
    rw [service_eq _ _ _ hc, hs] at h
    obtain ⟨x, hx, h⟩ := M.bind_eq_ok.mp h
    cases h
    unfold readStart at hx
    obtain ⟨o, _, hx⟩ := M.bind_eq_ok.mp hx
    cases hx; exact ⟨rfl, rfl⟩

theorem loop_line (hE : EnvOn isLine E) : ∀ (n : Nat) {u v : Ush} {i : List UInt8}, OnLine u → chain E u i n = .ok (v, i) → v.state = .readChar →
    ∃ k, Loop E u i (List.replicate k true) v i := by
  intro n
  induction n with
  | zero => intro u v i H h hv; cases h; exact absurd hv H.busy
  | succ n ih =>
    intro u v i H h hv
    rw [chain_succ] at h
    obtain ⟨⟨w, q⟩, h1, h⟩ := M.bind_eq_ok.mp h
    obtain ⟨b, hs, hq⟩ := drive1_service h1
    rw [if_neg H.busy] at hq
    subst hq
    by_cases hr : u.state = .readPrepare
    · obtain ⟨rfl, hw⟩ := service_start hr hs
      cases chain_cases h hw
      have := Loop.stop hs
      rw [if_neg H.busy] at this
      exact ⟨1, this⟩
    · obtain ⟨rfl, hw⟩ := service_line hE H hr hs
      obtain ⟨k, l⟩ := ih hw h hv
      exact ⟨k + 1, .again hs (by rw [if_neg H.busy]; exact l)⟩

theorem loop_keyed : ∀ (n : Nat) {u v : Ush} {i : List UInt8}, OnKey u → chain E u i n = .ok (v, i) → v.state = .readChar →
    ∀ {k : Nat} {w : Ush} {r : List UInt8}, Loop E v i (List.replicate k true) w r → ∃ k', Loop E u i (List.replicate k' true) w r := by
  intro n
  induction n with
  | zero => intro u v i H h hv k w r l; cases h; exact ⟨k, l⟩
  | succ n ih =>
    intro u v i H h hv k w r l
    by_cases hr : u.state = .readChar
    · cases chain_cases h hr; exact ⟨k, l⟩
    rw [chain_succ] at h
    obtain ⟨⟨x, q⟩, h1, h⟩ := M.bind_eq_ok.mp h
    obtain ⟨b, hs, hq⟩ := drive1_service h1
    rw [if_neg hr] at hq
    subst hq
    obtain ⟨rfl, hx⟩ := service_keyed H hr hs
    obtain ⟨k', l⟩ := ih hx h hv l
    exact ⟨k' + 1, .again hs (by rw [if_neg hr]; exact l)⟩

/-- A key. -/
theorem loop_key (hE : EnvOn isLine E) (hs : u.state = .readChar) (ha : u.ansiEsc ≤ 2) {c : UInt8} {i : List UInt8} (h : Steps E u (c :: i) v i)
    (hv : v.state = .readChar) :
    if c = cEtx ∨ isEnter c = true ∧ u.ansiEsc = 0 then ∃ k, Loop E u (c :: i) (List.replicate k true) v i
    else ∀ {k : Nat} {w : Ush} {r : List UInt8}, Loop E v i (List.replicate k true) w r → ∃ k', Loop E u (c :: i) (List.replicate k' true) w r := by
  obtain ⟨n, hn⟩ := h
  cases n with
  | zero =>
    exfalso
    have := congrArg List.length (congrArg Prod.snd (Except.ok.inj hn))
    simp at this
  | succ n =>
    change chain E u (c :: i) (n + 1) = _ at hn
    rw [chain_succ] at hn
    obtain ⟨⟨x, q⟩, h1, hn⟩ := M.bind_eq_ok.mp hn
    obtain ⟨b, h2, hq⟩ := drive1_service h1
    rw [if_pos hs] at hq
    subst hq
    obtain ⟨rfl, h3⟩ := service_key hs ha h2
    split at h3
    · rename_i hc
      rw [if_pos hc]
      obtain ⟨k, l⟩ := loop_line hE n h3 hn hv
      exact ⟨k + 1, .again h2 (by rw [if_pos hs]; exact l)⟩
    · rename_i hc
      rw [if_neg hc]
      intro k w r l
      obtain ⟨k, l⟩ := loop_keyed n h3 hn hv l
      exact ⟨k + 1, .again h2 (by rw [if_pos hs]; exact l)⟩

/-! ### Any output -/

/-- A call in which a byte is not taken. -/
theorem service_refused {x : Option UInt8} {p : Ush × Bool} (h : service E ⟨x, false⟩ u = .ok p) :
    service E ⟨x, true⟩ u = .ok p ∨ u.state = .writeChar ∧ p = (u, true) := by
  cases hc : u.current.isSome with
  | false => rw [service_noroot _ _ _ hc] at h; cases h
  | true =>
    rw [service_eq _ _ _ hc] at h ⊢
    split at h
    · exact .inl h
    · exact .inl h
    · rename_i hs
      obtain ⟨y, hy, h⟩ := M.bind_eq_ok.mp h
      cases h
      unfold writeChar at hy ⊢
      split at hy
      · rename_i hp; rw [if_pos hp]; cases hy; exact .inl rfl
      · obtain ⟨ch, _, hy⟩ := M.bind_eq_ok.mp hy
        cases hy; exact .inr ⟨hs, rfl⟩
    · exact .inl h

theorem service_refuse {x : Option UInt8} {p : Ush × Bool} (h : service E ⟨x, true⟩ u = .ok p) :
    service E ⟨x, false⟩ u = .ok p ∨ u.state = .writeChar ∧ service E ⟨x, false⟩ u = .ok (u, true) := by
  cases hc : u.current.isSome with
  | false => rw [service_noroot _ _ _ hc] at h; cases h
  | true =>
    rw [service_eq _ _ _ hc] at h ⊢
    split at h
    · exact .inl h
    · exact .inl h
    · rename_i hs
      obtain ⟨y, hy, h⟩ := M.bind_eq_ok.mp h
      cases h
      unfold writeChar at hy ⊢
      split at hy
      · rename_i hp; rw [if_pos hp]; cases hy; exact .inl rfl
      · rename_i hp
        obtain ⟨ch, hch, hy⟩ := M.bind_eq_ok.mp hy
        rw [if_neg hp, hch]; exact .inr ⟨hs, rfl⟩
    · exact .inl h

theorem loop_ready {i r : List UInt8} {as : List Bool} (h : Loop E u i as v r) : ∃ k, Loop E u i (List.replicate k true) v r := by
  induction h with
  | @stop u i a v hs =>
    cases a with
    | true => exact ⟨1, .stop hs⟩
    | false =>
      rcases service_refused hs with h | ⟨-, h⟩
      · exact ⟨1, .stop h⟩
      · cases h
  | @again u i a v as w r hs l ih =>
    obtain ⟨k, l⟩ := ih
    cases a with
    | true => exact ⟨k + 1, .again hs l⟩
    | false =>
      rcases service_refused hs with h | ⟨hw, h⟩
      · exact ⟨k + 1, .again h l⟩
      · cases h
        rw [if_neg (by rw [hw]; simp)] at l
        exact ⟨k, l⟩

theorem loop_ready_unique : ∀ {k : Nat} {u : Ush} {i : List UInt8} {k' : Nat} {v w : Ush} {q r : List UInt8}, Loop E u i (List.replicate k true) v q →
    Loop E u i (List.replicate k' true) w r → v = w ∧ q = r := by
  intro k
  induction k with
  | zero => intro u i k' v w q r h; cases h
  | succ k ih =>
    intro u i k' v w q r h h'
    rw [List.replicate_succ] at h
    cases k' with
    | zero => cases h'
    | succ k' =>
      rw [List.replicate_succ] at h'
      generalize hk : List.replicate k true = as at h
      generalize hk' : List.replicate k' true = as' at h'
      cases h with
      | stop h1 =>
        cases h' with
        | stop h2 => rw [h1] at h2; cases h2; exact ⟨rfl, rfl⟩
        | again h2 _ => rw [h1] at h2; cases h2
      | again h1 l1 =>
        cases h' with
        | stop h2 => rw [h1] at h2; cases h2
        | again h2 l2 =>
          rw [h1] at h2; cases h2
          subst hk hk'
          exact ih l1 l2

theorem range_map_succ (f : Nat → Bool) (n : Nat) : (List.range (n + 1)).map f = f 0 :: (List.range n).map (fun k => f (k + 1)) := by
  rw [List.range_succ_eq_map]; simp [Function.comp_def]

theorem loop_any {i r : List UInt8} {as : List Bool} (h : Loop E u i as v r) : (∀ a ∈ as, a = true) → ∀ f : Nat → Bool, (∀ n, ∃ m ≥ n, f m = true) →
    ∃ n, Loop E u i ((List.range n).map f) v r := by
  induction h with
  | @stop u i a v hs =>
    intro ha f _
    cases ha a (by simp)
    refine ⟨1, ?_⟩
    show Loop E u i [f 0] v _
    cases hf : f 0 with
    | true => exact .stop hs
    | false =>
      rcases service_refuse hs with h | ⟨hw, -⟩
      · exact .stop h
      · exfalso
        cases hc : u.current.isSome with
        | false => rw [service_noroot _ _ _ hc] at hs; cases hs
        | true =>
          rw [service_eq _ _ _ hc, hw] at hs
          obtain ⟨y, _, hs⟩ := M.bind_eq_ok.mp hs
          cases hs
  | @again u i a v as w r hs l ih =>
    intro ha f hf
    cases ha a (by simp)
    have ih := ih (fun b hb => ha b (by simp [hb]))
    obtain ⟨m, -, hm⟩ := hf 0
    induction m generalizing f with
    | zero =>
      obtain ⟨n, l⟩ := ih (fun k => f (k + 1)) (fun n => by
        obtain ⟨m, h1, h2⟩ := hf (n + 1)
        exact ⟨m - 1, by omega, by show f (m - 1 + 1) = true; rw [Nat.sub_add_cancel (by omega)]; exact h2⟩)
      exact ⟨n + 1, by rw [range_map_succ, hm]; exact .again hs l⟩
    | succ m ihm =>
      have hf' : ∀ n, ∃ m ≥ n, f (m + 1) = true := fun n => by
        obtain ⟨m, h1, h2⟩ := hf (n + 1)
        exact ⟨m - 1, by omega, by rw [Nat.sub_add_cancel (by omega)]; exact h2⟩
      cases h0 : f 0 with
      | true =>
        obtain ⟨n, l⟩ := ih (fun k => f (k + 1)) hf'
        exact ⟨n + 1, by rw [range_map_succ, h0]; exact .again hs l⟩
      | false =>
        rcases service_refuse hs with h | ⟨hw, h⟩
        · obtain ⟨n, l⟩ := ih (fun k => f (k + 1)) hf'
          exact ⟨n + 1, by rw [range_map_succ, h0]; exact .again h l⟩
        · obtain ⟨n, l⟩ := ihm (fun k => f (k + 1)) hf' hm
          exact ⟨n + 1, by rw [range_map_succ, h0]; exact .again h (by rw [if_neg (by rw [hw]; simp)]; exact l)⟩

end Ush
