import Verif.Spec.Effort
import Verif.Proof.SafeRun
/-!
# Counting service calls
-/
namespace Ush
open Spec

variable {E : Env} {L D : Nat} {W : World} {u v : Ush} {k : Nat}

/-! ## How many steps are left at most -/

theorem IsChain.nodup {nodes : NodeId → Node} : ∀ {as : List NodeId} {s : Option NodeId}, IsChain nodes s as → as.Nodup := by
  intro as
  induction as with
  | nil => intro s _; exact List.nodup_nil
  | cons a as ih =>
    intro s h
    refine List.nodup_cons.mpr ⟨fun hm => ?_, ih h.2⟩
    obtain ⟨xs, ys, rfl⟩ := List.append_of_mem hm
    have h1 : IsChain nodes (some a) (a :: ys) := IsChain.tail _ _ _ _ h.2
    have h2 : IsChain nodes (some a) (a :: (xs ++ a :: ys)) := ⟨rfl, h.2⟩
    have := congrArg List.length (IsChain.det h1 h2)
    simp at this
    omega

theorem chain_length {nodes : NodeId → Node} {s : Option NodeId} {ms : List Mount} (h : IsChain nodes s (ms.map Mount.id)) (hm : ∀ m ∈ ms, m ∈ W.tree) :
    ms.length ≤ W.tree.length :=
  (List.Nodup.of_map _ h.nodup).length_le_of_subset hm

theorem cost_eq (gs : Groups) : cost gs = 3 * gs.files.length + gs.length := by
  induction gs with
  | nil => rfl
  | cons g gs ih =>
    unfold cost
    rw [ih]
    simp only [Groups.files, List.flatMap_cons, List.length_append, List.length_cons]
    omega

theorem left_cost (gs : Groups) (item i : Nat) : left gs item i ≤ cost gs := by
  cases gs with
  | nil => exact Nat.le_refl _
  | cons g gs =>
    rw [left_cons, show cost (g :: gs) = 3 * g.files.length + 1 + cost gs from rfl]
    omega

theorem files_length {m : Mount} (h : m ∈ W.dirs) : m.files.length ≤ (W.dirs.flatMap (·.files)).length := by
  obtain ⟨xs, ys, e⟩ := List.append_of_mem h
  rw [e]
  simp only [List.flatMap_append, List.flatMap_cons, List.length_append]
  omega

theorem scanCost_le (H : Holds E W u) : scanCost W ≤ 3 * W.entries + 4 := by
  obtain ⟨m, h0, -, -, -, -, h5⟩ := H.cwd
  have := files_length h5
  unfold scanCost World.entries cwdFiles
  rw [h0, cost_eq]
  simp only [Option.map_some, Option.getD_some]
  omega

theorem ScanAt.le {c : Nat} (h : ScanAt W u c) : c ≤ scanCost W := Nat.le_trans (Nat.le_add_left _ _) h.2.1

theorem getArgsLoop_le (b : List UInt8) : ∀ (n ptr : Nat) {argv : List Nat}, getArgsLoop b n ptr = .ok argv → n = 0 ∨ ptr + n ≤ b.length := by
  intro n
  induction n with
  | zero => intro ptr argv _; exact .inl rfl
  | succ n ih =>
    intro ptr argv h
    right
    unfold getArgsLoop at h
    obtain ⟨len, h1, h⟩ := M.bind_eq_ok.mp h
    obtain ⟨rest, h2, -⟩ := M.bind_eq_ok.mp h
    have hlt : ptr + len < b.length := by
      unfold strlenAt at h1
      obtain ⟨s, h3, h4⟩ := M.bind_eq_ok.mp h1
      cases h4
      obtain ⟨-, r, h5⟩ := cstrAt_eq_ok h3
      have := congrArg List.length h5
      simp at this
      omega
    rcases ih _ h2 with h | h <;> omega

theorem catArgs_le (H : Holds E W u) (h : CatArgs L W u) : u.argsCount ≤ E.inSize := by
  obtain ⟨argv, h1, -⟩ := h
  have := H.sized.inLen
  rcases getArgsLoop_le _ _ _ h1 with h | h <;> omega

/-- Everything but the completion and the parser. -/
theorem Live.run {s : St} (H : Holds E W u) (hD : ∀ id w d, E.userGet id w = some d → d.length ≤ D) (h : Live E L W u k s) (h1 : isParse s = false)
    (h2 : isTab s = false) : Live E L W u (runEffort E D W) s := by
  have proc : ∀ t, ProcLive E L W u k t → ProcLive E L W u (runEffort E D W) t := by
    rintro t ⟨f, hf, h⟩
    refine ⟨f, hf, ?_⟩
    revert h
    cases f.process with
    | none => intro _; show 9 ≤ runEffort E D W; unfold runEffort; omega
    | some cb =>
      cases cb with
      | user i => exact id
      | builtin b =>
        cases b with
        | help =>
          rintro ⟨h, ⟨gs, g1, g2, -⟩, h4, h5⟩
          refine ⟨h, ⟨gs, g1, g2, ?_⟩, h4, h5⟩
          have := cost_suffix g1
          have := left_cost gs u.procItem u.procIndex
          rw [cost_eq W.groups] at *
          unfold runEffort World.entries
          omega
        | ls =>
          intro h
          show LsLive W u _ t
          have h : LsLive W u k t := h
          cases t <;> try exact h.elim
          · obtain ⟨m, g1, g2, -⟩ := h
            have := files_length g1
            exact ⟨m, g1, g2, by unfold runEffort World.entries; omega⟩
          · obtain ⟨m, g1, g2, g3, ms, g4, g5, -⟩ := h
            have := files_length g1
            have := chain_length g5 (fun x hx => (under_mem (g4.subset hx)).1)
            exact ⟨m, g1, g2, g3, ms, g4, g5, by unfold runEffort World.entries; omega⟩
          · obtain ⟨m, g1, g2, g3, -, g5⟩ := h
            have := files_length g1
            exact ⟨m, g1, g2, g3, by unfold runEffort World.entries; omega, g5⟩
        | cat =>
          intro h
          show CatLive L W u _ t
          have h : CatLive L W u k t := h
          cases t <;> try exact h.elim
          · have := catArgs_le H h.1
            exact ⟨h.1, by unfold runEffort; omega⟩
          · have := catArgs_le H h.1
            exact ⟨h.1, h.2.1, by unfold runEffort; omega⟩
          · show 8 ≤ runEffort E D W
            unfold runEffort; omega
        | xxd =>
          intro h
          show XxdLive E u _ t
          have h : XxdLive E u k t := h
          have size : XxdData E u → u.procDataSize ≤ D := by
            rintro ⟨d, -, e, -, i, w, g⟩
            rw [e]; exact hD i w d g
          cases t <;> try exact h.elim
          · have := size h.1
            exact ⟨h.1, by unfold runEffort; omega⟩
          · obtain ⟨g1, g2, g3, g4⟩ := h
            have := size g1
            refine ⟨g1, g2, g3, ?_⟩
            unfold xxdCost runEffort
            split
            · split <;> omega
            · omega
          · show 8 ≤ runEffort E D W
            unfold runEffort; omega
        | cd => exact id
        | pwd => exact id
        | echo => exact id
  have big : 10 ≤ runEffort E D W := by unfold runEffort; omega
  cases s <;> first
    | exact absurd h1 (by decide)
    | exact absurd h2 (by decide)
    | exact proc _ h
    | exact h
    | exact ⟨h.1, by omega⟩
    | (show _ ≤ _; omega)

/-- The completion. -/
theorem Live.tab {s : St} (H : Holds E W u) (h : Live E L W u k s) (h2 : isTab s = true) : Live E L W u (tabEffort E W) s := by
  have hS := scanCost_le H
  have hf : ∀ p, scanCost W + 3 + finCost E W p ≤ tabEffort E W := by
    intro p
    unfold finCost tabEffort
    have h1 : (E.inSize - p) * (scanCost W + 2) ≤ E.inSize * (3 * W.entries + 6) := Nat.mul_le_mul (Nat.sub_le _ _) (by omega)
    rw [Nat.add_mul]
    omega
  have big := hf u.inPos
  have hc := finCost_ge (E := E) (W := W) u.inPos
  cases s <;> try cases h2
  · exact ⟨h.1, h.2.1, h.2.2.1, h.2.2.2.1, big⟩
  · obtain ⟨x, h1, h2, -⟩ := h
    exact ⟨x, h1, h2, by omega⟩
  · obtain ⟨x, c, h1, h2, h3, h4, -⟩ := h
    have := h4.le
    exact ⟨x, c, h1, h2, h3, h4, by omega⟩
  · obtain ⟨x, c, h1, h2, h3, h4, h5, h6, h7, -⟩ := h
    have := h4.le
    exact ⟨x, c, h1, h2, h3, h4, h5, h6, h7, by omega⟩
  · obtain ⟨x, c, h1, h2, h3, -⟩ := h
    have := h3.le
    exact ⟨x, c, h1, h2, h3, by omega⟩
  · rcases h with ⟨h1, h2, -⟩ | ⟨h1, h2, -⟩ | ⟨h1, h2, h3, h4, -⟩
    · exact .inl ⟨h1, h2, by omega⟩
    · exact .inr (.inl ⟨h1, h2, by omega⟩)
    · exact .inr (.inr ⟨h1, h2, h3, h4, by omega⟩)
  · exact h
  · exact ⟨h.1, by omega⟩
  · exact ⟨h.1, by omega⟩
  · obtain ⟨x, h1, h2, h3, -⟩ := h
    exact ⟨x, h1, h2, h3, by omega⟩

/-- The parser. -/
theorem Live.lex {s : St} (h : Live E L W u k s) (h1 : isParse s = true) : Live E L W u (E.inSize + 2) s := by
  cases s <;> try cases h1
  · exact ⟨h.1, Nat.le_refl _⟩
  all_goals exact { h with cost := by omega }

/-! ## Counting -/

/-- The write engine needs one more call to notice that it is done. -/
def wc (u : Ush) : Nat := if u.state = .writeChar then 1 else 0

/-- The number of printed bytes. -/
def pr (u : Ush) : Nat := (printed u.log).length

theorem pr_service {io : Io} {b : Bool} (h : service E io u = .ok (v, b)) : pr u ≤ pr v := by
  obtain ⟨l, h, -⟩ := service_log h
  unfold pr printed
  rw [h, List.filterMap_append, List.length_append]
  omega

/-- One service call. -/
theorem call_effort (cfg : Roomy E) (H : Behaves E L) (I : Inv E L W k u) (io : Io) (ha : ¬ Answered u) :
    ∃ v b W' j, service E io u = .ok (v, b) ∧ Inv E L W' j v ∧
      ((W' = W ∧ isParse (next v) = isParse (next u) ∧ 1 + (2 * j + wc v) + pr u ≤ (2 * k + wc u) + pr v + (if io.wr then 0 else 1)) ∨
       (isParse (next u) = true ∧ isParse (next v) = false ∧ isTab (next v) = false ∧ 1 ≤ k ∧ pr u ≤ pr v)) := by
  have ha : u.state ≠ .readChar ∧ ¬ AppTurn u := not_or.mp ha
  by_cases hs : u.state = .writeChar
  · have hc := I.toHolds.current
    obtain ⟨v, e, i, n, hw⟩ := write_inv I hs io
    refine ⟨v, true, W, k, by rw [service_eq E io u hc, hs]; simp only [e]; rfl, i, .inl ⟨rfl, by rw [n], ?_⟩⟩
    have hu : wc u = 1 := by unfold wc; rw [if_pos hs]
    have hl : Live E L W u k u.writeNext := by have := I.live; unfold next at this; rwa [if_pos hs] at this
    unfold writeChar at e
    split at e
    · cases e
      have : wc { u with state := u.writeNext } = 0 := by unfold wc; rw [if_neg]; exact hl.notWrite
      rw [this, hu]
      show 1 + (2 * k + 0) + pr u ≤ 2 * k + 1 + pr u + _
      omega
    · obtain ⟨c, -, e⟩ := M.bind_eq_ok.mp e
      split at e
      · cases e
        have h1 : wc ({ u.emit (.out c) with writePos := u.writePos + 1 } : Ush) = wc u := rfl
        have h2 : pr ({ u.emit (.out c) with writePos := u.writePos + 1 } : Ush) = pr u + 1 := by
          unfold pr printed
          show (List.filterMap _ (u.log ++ [.out c])).length = _
          simp
        rw [h1, h2]
        omega
      · next hwr =>
        cases e
        rw [if_neg hwr]
        omega
  · have h0 : wc u = 0 := by unfold wc; rw [if_neg hs]
    have ht : toWrite u = 0 := by unfold toWrite; rw [if_neg hs]
    obtain ⟨v, b, W', j, e, i, p⟩ := service_inv cfg H I io (fun h => absurd h ha.1)
    have hp := pr_service e
    have hv : wc v ≤ 1 := by unfold wc; split <;> omega
    refine ⟨v, b, W', j, e, i, ?_⟩
    have hk : isParse (next u) = true → 1 ≤ k := by
      intro h
      have hl := I.live
      have hz := I.sized.inLen
      have hq : ∀ s, ParseOk E L u s k → 1 ≤ k := by
        intro s P
        obtain ⟨m, c, q1, q2, q3, q4⟩ := P.line
        have := (List.getElem?_eq_some_iff.mp q3).1
        have := P.cost
        omega
      generalize next u = s at h hl
      cases s <;> first
        | exact absurd h (by decide)
        | exact hq _ hl
        | (have := hl.2; omega)
    rcases p ha.1 ha.2 with ⟨q, q2⟩ | ⟨-, -, -, h2⟩
    · unfold dist at q
      rw [Prod.Lex.toLex_lt_toLex] at q
      rcases q with q | ⟨q, q3⟩
      · right
        have h1 : isParse (next u) = true := by
          by_contra hc
          rw [Bool.not_eq_true] at hc
          dsimp only at q
          rw [hc] at q
          exact absurd q (Nat.not_lt_zero _)
        have h2 : isParse (next v) = false := by
          by_contra hc
          rw [Bool.not_eq_false] at hc
          dsimp only at q
          rw [hc, h1] at q
          exact absurd q (Nat.lt_irrefl _)
        rcases q2 with ⟨-, q2⟩ | q2
        · rw [h1, h2] at q2; cases q2
        · exact ⟨q2.1, q2.2.1, q2.2.2, hk h1, hp⟩
      · rw [Prod.Lex.toLex_lt_toLex] at q3
        have q1 : isParse (next v) = isParse (next u) := by
          dsimp only at q
          revert q
          cases isParse (next v) <;> cases isParse (next u) <;> simp
        rcases q2 with ⟨rfl, -⟩ | q2
        · left
          refine ⟨rfl, q1, ?_⟩
          dsimp only at q3
          rw [ht] at q3
          have : j < k := by
            rcases q3 with q3 | ⟨-, q3⟩
            · exact q3
            · exact absurd q3 (Nat.not_lt_zero _)
          rw [h0]
          omega
        · rw [q2.1, q2.2.1] at q1
          cases q1
    · exact absurd h2 hs

/-- After `n` calls without an answer. -/
theorem serve_effort (cfg : Roomy E) (H : Behaves E L) (hD : ∀ id w d, E.userGet id w = some d → d.length ≤ D) (B : World → Nat) (f : Nat → Io)
    (hB : isParse (next u) = true → ∀ W, lineEffort E D W ≤ B W) (I : Inv E L W k u)
    (hk : if isParse (next u) then k ≤ E.inSize + 2 else k ≤ B W) :
    ∀ n, Busy E f u n → ∃ w W' j, serve E f u n = .ok w ∧ Inv E L W' j w ∧
      if isParse (next w) then isParse (next u) = true ∧ n + (2 * j + wc w) + pr u ≤ 2 * (E.inSize + 2) + 1 + pr w + refused f n
      else n + (2 * j + wc w) + pr u ≤ 2 * B W' + 1 + pr w + refused f n := by
  intro n
  induction n with
  | zero =>
    intro _
    refine ⟨u, W, k, rfl, I, ?_⟩
    have : wc u ≤ 1 := by unfold wc; split <;> omega
    split at hk
    · next h => rw [if_pos h]; exact ⟨h, by omega⟩
    · next h => rw [if_neg h]; omega
  | succ n ih =>
    intro hb
    obtain ⟨w, W1, j, e, i, g⟩ := ih (fun m hm => hb m (by omega))
    obtain ⟨x, b, W2, j2, e2, i2, g2⟩ := call_effort cfg H i (f n) (hb n (by omega) w e)
    have hr : refused f (n + 1) = refused f n + (if (f n).wr then 0 else 1) := by
      unfold refused
      rw [List.range_succ, List.countP_append]
      cases hw : (f n).wr <;> simp [hw]
    have hs : serve E f u (n + 1) = .ok x := by rw [serve, e, M.ok_bind, e2]; rfl
    rcases g2 with ⟨rfl, g3, g4⟩ | ⟨g3, g4, g5, g6, g7⟩
    · refine ⟨x, W2, j2, hs, i2, ?_⟩
      rw [g3, hr]
      split at g
      · next h => rw [if_pos h]; exact ⟨g.1, by omega⟩
      · next h => rw [if_neg h]; omega
    · rw [if_pos g3] at g
      refine ⟨x, W2, runEffort E D W2, hs, { toBase := i2.toBase, live := i2.live.run i2.toHolds hD g4 g5 }, ?_⟩
      have : wc x ≤ 1 := by unfold wc; split <;> omega
      rw [g4, hr]
      simp only [Bool.false_eq_true, if_false]
      have hh : lineEffort E D W2 ≤ B W2 := hB g.1 W2
      unfold lineEffort at hh
      omega

/-- A key other than TAB does not start a completion. -/
theorem readChar_tab {io : Io} {b : Bool} (hs : u.state = .readChar) (h : readChar E io u = .ok (v, b)) (ht : io.rd ≠ some cTab) :
    isTab (next v) = false := by
  have hn : ∀ w : Ush, w.state = .readChar → isTab (next w) = false := by
    intro w h; rw [next_of h (by decide)]; rfl
  have hw : ∀ (w x : Ush) (p : Ptr) (nx : St), writePointer w p nx = .ok x → isTab nx = false → isTab (next x) = false := by
    intro w x p nx h hx
    unfold writePointer at h
    mgo h
    cases h
    exact hx
  have he : ∀ (w x : Ush) (c : UInt8), readEcho w c = .ok x → isTab (next x) = false := by
    intro w x c h
    unfold readEcho at h
    obtain ⟨o, -, h⟩ := M.bind_eq_ok.mp h
    refine hw _ _ _ _ h ?_
    split <;> rfl
  unfold readChar at h
  cases hio : io.rd with
  | none => rw [hio] at h; cases h; exact hn _ hs
  | some ch =>
    rw [hio] at h
    simp only at h
    have hc : ch ≠ cTab := by rintro rfl; exact ht hio
    obtain ⟨⟨w, echo⟩, h1, h2⟩ := M.bind_eq_ok.mp h
    simp only at h2
    cases echo with
    | true =>
      obtain ⟨x, h3, h4⟩ := M.bind_eq_ok.mp h2
      cases h4
      exact he _ _ _ h3
    | false =>
      cases h2
      have hn' : ∀ w : Ush, w.state = u.state → isTab (next w) = false := fun w h => hn w (h.trans hs)
      split at h1
      · obtain ⟨x, h3, h4⟩ := M.bind_eq_ok.mp h1
        cases h4
        exact hw _ _ _ _ h3 rfl
      · split at h1
        · mgo h1 <;> (cases h1 <;> exact hn' _ rfl)
        · split at h1
          · cases h1; exact hn' _ rfl
          · unfold readCharByEscape at h1
            mgo h1 <;> (cases h1 <;> exact hn' _ rfl)

/-- TAB starts a completion, unless completions are switched off. -/
theorem readChar_isTab {io : Io} {b : Bool} (hs : u.state = .readChar) (h : readChar E io u = .ok (v, b)) (ht : io.rd = some cTab) :
    isTab (next v) = true ∨ v.state = .readChar := by
  unfold readChar at h
  rw [ht] at h
  simp only at h
  rw [if_neg (by decide), if_neg (by decide), if_pos trivial] at h
  cases h
  cases E.autocomplete with
  | true => exact .inl rfl
  | false => exact .inr hs

theorem legal_append : ∀ (ms ms' : List Move) {u : Ush}, Legal E L u (ms ++ ms') →
    Legal E L u ms ∧ ∀ v, run E u (ms.flatMap Move.ops) = .ok v → Legal E L v ms' := by
  intro ms ms'
  induction ms with
  | nil =>
    intro u h
    exact ⟨trivial, fun v hv => by cases hv; exact h⟩
  | cons m ms ih =>
    intro u h
    refine ⟨⟨h.1, fun v hv => (ih (h.2 v hv)).1⟩, fun v hv => ?_⟩
    rw [List.flatMap_cons, run_append] at hv
    obtain ⟨w, h1, h2⟩ := M.bind_eq_ok.mp hv
    exact (ih (h.2 w h1)).2 v h2

end Ush
