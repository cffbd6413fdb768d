import Verif.Proof.Nested
import Verif.Props.Safe
/-!
# C80: callbacks that call `ush_service`

The callbacks for commands, data and processes are the last thing that happens in `ush_service`: nothing is done after they have returned.  So they may call `ush_service`
themselves, to any depth: what they do is what would have happened if they had returned first.
-/
namespace Ush.Props
open Spec

section
variable (E : Env) (S : Strategy) (hh : S.NoHook) (x : Fault)

/-- Callbacks that return: the model of the other theorems. -/
theorem C80_same (io : Io) (u : Ush) : serviceK E (fun _ => .ok) io u = service E io u ∧ ((∀ c u, S c [] u = none) → ∀ n, serviceN E S x (n + 1) io u = service E io u) := by
  have h : ∀ K : Rest, (∀ c w, K c w = .ok w) → serviceK E K io u = service E io u := by
    intro K hK
    rcases service_tail (E := E) io u with h | ⟨c, w, -, h1, h2⟩
    · exact h _ fun _ _ => hK _ _
    · rw [h2 _ fun _ _ => hK _ _, h1, hK]; rfl
  refine ⟨h _ fun _ _ => rfl, fun hS n => ?_⟩
  unfold serviceN
  refine h _ fun c w => ?_
  cases n <;> (unfold carryOn; rw [hS])

include hh

/-- One service call, with everything that the callbacks do in it, is the history of the service call and all that is done in it, one after the other; everything in it is a choice of
the callbacks. -/
theorem C80_flat (n : Nat) (io : Io) (u : Ush) (h : serviceN E S x n io u ≠ .error x) :
    ∃ ms, run E u ((.service io :: ms).flatMap Move.ops) = (serviceN E S x n io u >>= fun p => .ok p.1) ∧
      ∀ P : Ush → Move → Prop, (∀ c done v m, S c done v = some m → P v m) → P u (.service io) → Obeys E P u (.service io :: ms) :=
  (serviceN_flat S hh x n io u).resolve_left h

/-- The bound does not matter if it is large enough. -/
theorem C80_bound (n n' : Nat) (hn : n ≤ n') (io : Io) (u : Ush) (h : serviceN E S x n io u ≠ .error x) : serviceN E S x n' io u = serviceN E S x n io u :=
  serviceN_mono S hh x n n' io u hn h

/-- So it is for histories. -/
theorem C80_run (n : Nat) : ∀ (ms : List Move) (u : Ush), runN E S x n u ms = .error x ∨
    ∃ ms', run E u (ms'.flatMap Move.ops) = runN E S x n u ms ∧ ∀ L, S.Ok E L → LegalN E L S x n u ms → Legal E L u ms' := by
  have obeys : ∀ L (ms : List Move) (u : Ush), Obeys E (fun v m => m.Ok E L v) u ms → Legal E L u ms := by
    intro L ms
    induction ms with
    | nil => intro u _; trivial
    | cons m ms ih => intro u h; exact ⟨h.1, fun v hv => ih v (h.2 v hv)⟩
  have append : ∀ L (ms ms' : List Move) (u : Ush), Legal E L u ms → (∀ v, run E u (ms.flatMap Move.ops) = .ok v → Legal E L v ms') → Legal E L u (ms ++ ms') := by
    intro L ms
    induction ms with
    | nil => intro ms' u _ h; exact h u rfl
    | cons m ms ih =>
      intro ms' u h h'
      refine ⟨h.1, fun v hv => ih ms' v (h.2 v hv) fun w hw => h' w ?_⟩
      rw [List.flatMap_cons, run_append, hv]; exact hw
  intro ms
  induction ms with
  | nil => intro u; exact .inr ⟨[], rfl, fun _ _ _ => trivial⟩
  | cons m ms ih =>
    intro u
    cases m with
    | service io =>
      have e0 : ∀ ms', runN E S x n u (.service io :: ms') = serviceN E S x n io u >>= fun p => runN E S x n p.1 ms' := fun _ => rfl
      rcases serviceN_flat (E := E) S hh x n io u with h | ⟨ms1, e1, p1⟩
      · exact .inl (by rw [e0, h]; rfl)
      · cases hr : serviceN E S x n io u with
        | error y =>
          rw [hr] at e1
          refine .inr ⟨.service io :: ms1, by rw [e0, hr, e1]; rfl, fun L hS hl => obeys L _ u (p1 _ hS hl.1)⟩
        | ok p =>
          rw [hr] at e1
          have e1 : run E u ((.service io :: ms1).flatMap Move.ops) = .ok p.1 := e1
          rcases ih p.1 with h | ⟨ms2, e2, p2⟩
          · exact .inl (by rw [e0, hr]; exact h)
          · refine .inr ⟨(.service io :: ms1) ++ ms2, by rw [run_moves, e1, e0, hr]; exact e2, fun L hS hl => append L _ _ u (obeys L _ u (p1 _ hS hl.1)) fun v hv => ?_⟩
            rw [e1] at hv; cases hv
            exact p2 L hS (hl.2 p.1 (by rw [e0, hr]; rfl))
    | calls as =>
      have e0 : ∀ ms', runN E S x n u (.calls as :: ms') = runApis E u as >>= fun v => runN E S x n v ms' := fun _ => rfl
      have er : run E u (Move.ops (.calls as)) = runApis E u as := run_apis E as u
      cases hr : runApis E u as with
      | error y => exact .inr ⟨[.calls as], by rw [List.flatMap_singleton, er, e0, hr]; rfl, fun L _ hl => ⟨hl.1, fun _ _ => trivial⟩⟩
      | ok v =>
        rcases ih v with h | ⟨ms2, e2, p2⟩
        · exact .inl (by rw [e0, hr]; exact h)
        · refine .inr ⟨.calls as :: ms2, by rw [List.flatMap_cons, run_append, er, e0, hr]; exact e2, fun L hS hl => ⟨hl.1, fun w hw => ?_⟩⟩
          rw [er, hr] at hw; cases hw
          exact p2 L hS (hl.2 v (by rw [e0, hr]; rfl))

end

/-- Memory safety: the rules of C23, also for what the callbacks do.  `x` is any fault: the only fault is that the bound is too small. -/
theorem C80_safe (E : Env) (L : Nat) (hc : CfgOk E) (room : Roomy E) (beh : Behaves E L) (inBuf outBuf : List UInt8) (h1 : inBuf.length = E.inSize) (h2 : outBuf.length = E.outSize)
    (os : List FsOp) (hv : (initWorld E).ValidRun E os) (ok : (after E os).Ok E) (fits : (after E os).Fits E L) :
    ∃ u, run E (blank inBuf outBuf) (steps os) = .ok u ∧ ∀ (S : Strategy), S.NoHook → S.Ok E L → ∀ x n ms, LegalN E L S x n u ms →
      (∃ v, runN E S x n u ms = .ok v) ∨ runN E S x n u ms = .error x := by
  obtain ⟨u, e, B, -⟩ := boot hc inBuf outBuf h1 h2 os hv
  refine ⟨u, e, fun S hh hS x n ms hl => ?_⟩
  rcases C80_run E S hh x n ms u with h | ⟨ms', e', p⟩
  · exact .inr h
  · obtain ⟨v, -, -, hr, -⟩ := legal_inv room beh ms' (B.inv ok fits) (p L hS hl)
    exact .inl ⟨v, by rw [← e', hr]⟩

/-! ## Printing several texts in one callback -/

section
variable {E : Env} {S : Strategy} {x : Fault}

theorem serviceN_write (n : Nat) (io : Io) (u : Ush) (hs : u.state = .writeChar) : serviceN E S x (n + 1) io u = service E io u := by
  unfold serviceN serviceK service parseServiceK parseService processServiceK processService
  simp only [hs]
  rfl

/-- The number of texts begun. -/
def begun (done : List (Move × Bool)) : Nat := done.countP fun m => match m.1 with | .calls _ => true | .service _ => false

theorem begun_service (done : List (Move × Bool)) (io : Io) (b : Bool) : begun (done ++ [(.service io, b)]) = begun done := by simp [begun]

theorem begun_calls (done : List (Move × Bool)) (as : List Api) (b : Bool) : begun (done ++ [(.calls as, b)]) = begun done + 1 := by simp [begun]

theorem pages_write (ts : List Str) (t : Str) (m n : Nat) : ∀ (k : Nat) (u : Ush) (done : List (Move × Bool)), u.state = .writeChar → u.writeNext = .resetPrompt → u.writeBuf = .str t →
    u.writeSize = t.length → u.writePos + k = t.length → u.current.isSome = true →
    ∃ done', begun done' = begun done ∧ carryOn E x (serviceN E S x (m + 1)) (pages ts) (n + k + 1) done u = carryOn E x (serviceN E S x (m + 1)) (pages ts) n done'
      { u with writePos := t.length, state := .resetPrompt, log := u.log ++ outs (t.drop u.writePos) } := by
  intro k
  induction k with
  | zero =>
    intro u done h1 h2 h3 h4 h5 hc
    refine ⟨done ++ [(.service ⟨none, true⟩, true)], begun_service _ _ _, ?_⟩
    rw [carryOn]
    have hp : pages ts done u = some (.service ⟨none, true⟩) := by unfold pages; rw [if_pos h1]
    simp only [hp]
    rw [serviceN_write m _ u h1, service_eq E _ u hc, h1]
    unfold writeChar
    simp only
    rw [if_pos (show u.writePos ≥ u.writeSize by omega)]
    have : ({ u with state := u.writeNext } : Ush) = { u with writePos := t.length, state := .resetPrompt, log := u.log ++ outs (t.drop u.writePos) } := by
      have e1 : u.writePos = t.length := by omega
      rw [h2, e1]
      cases u; simp_all [outs]
    simp only [M.ok_bind, this]
  | succ k ih =>
    intro u done h1 h2 h3 h4 h5 hc
    have hlt : u.writePos < t.length := by omega
    obtain ⟨done', hd, e⟩ := ih ({ u with writePos := u.writePos + 1, log := u.log ++ [.out t[u.writePos]] } : Ush) (done ++ [(.service ⟨none, true⟩, true)]) h1 h2 h3 h4 (by show u.writePos + 1 + k = _; omega) hc
    refine ⟨done', by rw [hd, begun_service], ?_⟩
    rw [show n + (k + 1) + 1 = (n + k + 1) + 1 by omega, carryOn]
    have hp : pages ts done u = some (.service ⟨none, true⟩) := by unfold pages; rw [if_pos h1]
    simp only [hp]
    rw [serviceN_write m _ u h1, service_eq E _ u hc, h1]
    unfold writeChar
    simp only
    rw [if_neg (show ¬ u.writePos ≥ u.writeSize by omega)]
    have hr : ptrRead u u.writeBuf u.writePos = .ok t[u.writePos] := by
      rw [h3]; show rd (t ++ [cNul]) u.writePos = _; unfold rd; rw [List.getElem?_append_left hlt, List.getElem?_eq_getElem hlt]
    rw [hr]
    simp only [M.ok_bind, M.pure_eq, if_true]
    have hd : t.drop u.writePos = t[u.writePos] :: t.drop (u.writePos + 1) := (List.getElem_cons_drop hlt).symm
    have e2 : ∀ v w : Ush, v = w → carryOn E x (serviceN E S x (m + 1)) (pages ts) n done' v = carryOn E x (serviceN E S x (m + 1)) (pages ts) n done' w := fun v w h => by rw [h]
    refine Eq.trans e (e2 _ _ ?_)
    rw [hd]
    show _ = ({ u with writePos := t.length, state := .resetPrompt, log := u.log ++ outs (t[u.writePos] :: t.drop (u.writePos + 1)) } : Ush)
    congr 1
    show u.log ++ [.out t[u.writePos]] ++ outs (t.drop (u.writePos + 1)) = _
    rw [List.append_assoc]; rfl

/-- The number of moves of such a callback. -/
def pageMoves (ts : List Str) : Nat := (ts.map fun t => t.length + 2).sum

theorem pages_all (ts : List Str) (m n : Nat) : ∀ (rest : List Str) (done : List (Move × Bool)) (u : Ush), ts.drop (begun done) = rest → u.state ≠ .writeChar → (∀ t ∈ rest, cNul ∉ t) →
    u.current.isSome = true → ∃ b k p t v, carryOn E x (serviceN E S x (m + 1)) (pages ts) (n + pageMoves rest) done u = .ok v ∧
      v = { u with writeBuf := b, writeSize := k, writePos := p, writeNext := t, state := if rest = [] then u.state else .resetPrompt, log := u.log ++ outs rest.flatten } := by
  intro rest
  induction rest with
  | nil =>
    intro done u hd hs _ _
    have hp : pages ts done u = none := by
      unfold pages
      rw [if_neg hs]
      have : ts[begun done]? = none := by
        rw [List.getElem?_eq_none_iff]; exact List.drop_eq_nil_iff.mp hd
      show (ts[begun done]?).map _ = none
      rw [this]; rfl
    refine ⟨u.writeBuf, u.writeSize, u.writePos, u.writeNext, u, ?_, by simp [outs]⟩
    rw [carryOn]
    simp only [hp]
  | cons t rest ih =>
    intro done u hd hs hn hc
    have ht : ts[begun done]? = some t := by
      have := congrArg (fun l => l[0]?) hd
      simpa using this
    have hd' : ts.drop (begun done + 1) = rest := by
      have := congrArg List.tail hd
      simpa using this
    have hp : pages ts done u = some (.calls [.printNoNewline (.str t)]) := by
      unfold pages
      rw [if_neg hs]
      show (ts[begun done]?).map _ = _
      rw [ht]; rfl
    have hw : runApis E u [.printNoNewline (.str t)] = .ok { u with writePos := 0, writeSize := t.length, writeBuf := .str t, state := .writeChar, writeNext := .resetPrompt } := by
      show (writePointer u (.str t) .resetPrompt >>= fun v => .ok v) = _
      unfold writePointer
      simp only [ptrStr, cstrAt_zero t [] (hn t (by simp))]
      rfl
    obtain ⟨done', hb, e⟩ := pages_write (E := E) (S := S) (x := x) ts t m (n + pageMoves rest) t.length
      { u with writePos := 0, writeSize := t.length, writeBuf := .str t, state := .writeChar, writeNext := .resetPrompt }
      (done ++ [(.calls [.printNoNewline (.str t)], true)]) rfl rfl rfl rfl (by show 0 + _ = _; omega) hc
    obtain ⟨b, k, p, q, v, e', hv⟩ := ih done' { u with writePos := t.length, writeSize := t.length, writeBuf := .str t, state := .resetPrompt, writeNext := .resetPrompt, log := u.log ++ outs t }
      (by rw [hb, begun_calls]; exact hd') (by simp) (fun t' h => hn t' (by simp [h])) hc
    refine ⟨b, k, p, q, v, ?_, ?_⟩
    · rw [show n + pageMoves (t :: rest) = (n + pageMoves rest + t.length + 1) + 1 by simp [pageMoves]; omega, carryOn]
      simp only [hp]
      rw [hw]
      exact Eq.trans e e'
    · rw [hv]
      simp [outs]

end

theorem pagesOf_noHook (ts : List Str) : (pagesOf ts).NoHook := fun _ _ _ => rfl

/-- In a service call a callback is called that prints texts, and calls `ush_service` after each of them until it is printed (the terminal accepts them).  All of them are printed, in
order, before it returns, and the prompt is the next thing. -/
theorem C80_pages (E : Env) (x : Fault) (ts : List Str) (hn : ∀ t ∈ ts, cNul ∉ t) (io : Io) (u w : Ush) (c : Callback) (h0 : ∀ argv, c ≠ .hook argv)
    (h : ∀ K, PlainHook K → serviceK E K io u = K c w >>= fun v => .ok (v, true))
    (hs : w.state ≠ .writeChar) (hc : w.current.isSome = true) :
    ∃ v N, (∀ n ≥ N, serviceN E (pagesOf ts) x n io u = .ok (v, true)) ∧ v.log = w.log ++ outs ts.flatten ∧ (ts ≠ [] → v.state = .resetPrompt) ∧
      v.inBuf = w.inBuf ∧ v.outBuf = w.outBuf ∧ v.nodes = w.nodes ∧ v.root = w.root ∧ v.current = w.current ∧ v.commands = w.commands := by
  obtain ⟨b, k, p, t, v, e, hv⟩ := pages_all (E := E) (S := pagesOf ts) (x := x) ts (pageMoves ts) 1 ts [] w (by simp [begun]) hs hn hc
  have e0 : serviceN E (pagesOf ts) x (pageMoves ts + 1 + 1) io u = .ok (v, true) := by
    unfold serviceN
    have hp : pagesOf ts c = pages ts := by
      cases c with
      | hook argv => exact absurd rfl (h0 argv)
      | _ => rfl
    rw [h _ (carry_plain (pagesOf_noHook ts) x _ _), hp]
    rw [show pageMoves ts + 1 = 1 + pageMoves ts by omega] at e ⊢
    rw [e]; rfl
  refine ⟨v, pageMoves ts + 1 + 1, fun n hn => ?_, by rw [hv], fun h => by rw [hv]; simp [h], by rw [hv], by rw [hv], by rw [hv], by rw [hv], by rw [hv], by rw [hv]⟩
  rw [serviceN_mono _ (pagesOf_noHook ts) x _ n io u hn (by rw [e0]; simp), e0]

/-! ## Examples -/

/-- Printing texts is within the rules. -/
theorem pages_ok (E : Env) (L : Nat) (ts : List Str) (hn : ∀ t ∈ ts, cNul ∉ t) : Strategy.Ok E L (pagesOf ts) := by
  intro c done u m h
  have hp : ∀ argv, c ≠ .hook argv := fun argv e => by rw [e] at h; cases h
  replace h : pages ts done u = some m := by
    cases c with
    | hook argv => exact absurd rfl (hp argv)
    | _ => exact h
  unfold pages at h
  split at h
  · cases h
    exact fun _ => ⟨nofun, fun h => by rcases h with h | h <;> cases h⟩
  · obtain ⟨t, ht, rfl⟩ := Option.map_eq_some_iff.mp h
    exact ⟨⟨by simp, t, cstrAt_zero t [] (hn t (List.mem_of_getElem? ht))⟩, fun _ _ => trivial⟩

theorem sE3_behaves (L : Nat) : Behaves sE3 L :=
  ⟨(fun h hh => by cases hh), fun _ _ _ _ => trivial, fun _ _ _ => trivial, fun _ _ _ _ => trivial, fun _ _ => ⟨_, rfl, by decide⟩⟩

/-- Keys other than TAB, one after the other, with time to answer. -/
def typedKeys (cs : Str) (k : Nat) : List Move :=
  List.replicate k (.service ⟨none, true⟩) ++ cs.flatMap fun c => .service ⟨some c, true⟩ :: List.replicate k (.service ⟨none, true⟩)

theorem typedKeys_legal (S : Strategy) (x : Fault) (n : Nat) (ms : List Move) (h : ∀ m ∈ ms, ∃ io, m = .service io ∧ io.rd ≠ some cTab) : ∀ u, LegalN sE3 32 S x n u ms := by
  induction ms with
  | nil => intro u; trivial
  | cons m ms ih =>
    intro u
    obtain ⟨io, rfl, ht⟩ := h m (by simp)
    exact ⟨fun _ => ⟨fun e => absurd e ht, fun _ h => absurd h (by decide)⟩, fun v _ => ih (fun m hm => h m (by simp [hm])) v⟩

/-- Texts that the commands of the sample shell print, one after the other. -/
def twoPages : List Str := [b!"one\r\n", b!"two\r\n"]

/-- Whatever is typed (without TAB), the sample shell whose callbacks print two texts, calling `ush_service` in between, is safe. -/
example (cs : Str) (hcs : cTab ∉ cs) (k : Nat) : ∃ u, run sE3 (blank (List.replicate 32 0) (List.replicate 64 0)) (steps sHist) = .ok u ∧ ∀ x n,
    (∃ v, runN sE3 (pagesOf twoPages) x n u (typedKeys cs k) = .ok v) ∨ runN sE3 (pagesOf twoPages) x n u (typedKeys cs k) = .error x := by
  obtain ⟨u, e, h⟩ := C80_safe sE3 32 sE3_ok.1 sE3_ok.2.1 (sE3_behaves 32) (List.replicate 32 0) (List.replicate 64 0) rfl rfl sHist sE3_ok.2.2.1 sE3_ok.2.2.2.1 sE3_ok.2.2.2.2
  refine ⟨u, e, fun x n => h _ (pagesOf_noHook _) (pages_ok sE3 32 twoPages (by decide)) x n _ (typedKeys_legal _ x n _ (fun m hm => ?_) u)⟩
  unfold typedKeys at hm
  rcases List.mem_append.mp hm with h | h
  · exact ⟨_, List.eq_of_mem_replicate h, by simp⟩
  · obtain ⟨c, hc, h⟩ := List.mem_flatMap.mp h
    rcases List.mem_cons.mp h with h | h
    · exact ⟨_, h, fun e => hcs (by cases e; exact hc)⟩
    · exact ⟨_, List.eq_of_mem_replicate h, by simp⟩

/-- What it prints. -/
def nestShows (ts : List Str) (cs : Str) (k n : Nat) : Option Str :=
  match run sE3 (blank (List.replicate 32 0) (List.replicate 64 0)) (steps sHist) >>= fun u => runN sE3 (pagesOf ts) .oob n u (typedKeys cs k) with
  | .ok v => some (v.log.filterMap (fun e => match e with | .out c => some c | _ => none))
  | .error _ => none

example : nestShows twoPages b!"say\n" 60 40 = some b!"uShell 0.1.0\r\n\x1b[35m[h /]$ \x1b[0msay\none\r\ntwo\r\n\x1b[35m[h /]$ \x1b[0m" ∧
    nestShows [] b!"say\n" 60 40 = some b!"uShell 0.1.0\r\n\x1b[35m[h /]$ \x1b[0msay\n\x1b[35m[h /]$ \x1b[0m" ∧ nestShows twoPages b!"say\n" 60 5 = none := by
  refine ⟨?_, ?_, ?_⟩ <;> decide +kernel

/-- A rest that goes wrong, except for the hook. -/
def badRest : Rest
  | .hook _ => .ok
  | _ => fun _ => .error .null

/-- The hypotheses of `C80_pages` are met. -/
example : ∃ u w c, (∀ argv, c ≠ .hook argv) ∧ (∀ K, PlainHook K → serviceK sE3 K ⟨none, true⟩ u = K c w >>= fun v => .ok (v, true)) ∧ w.state ≠ .writeChar ∧ w.current.isSome = true := by
  have h : (run sE3 (blank (List.replicate 32 0) (List.replicate 64 0)) (steps sHist) >>= fun u => run sE3 u ((typedKeys b!"say" 60 ++ [Move.service ⟨some cLf, true⟩] ++
      List.replicate 6 (Move.service ⟨none, true⟩)).flatMap Move.ops)).toOption.any (fun u => (match serviceK sE3 badRest ⟨none, true⟩ u with | .error _ => true | .ok _ => false) &&
      (match service sE3 ⟨none, true⟩ u with | .ok (w, _) => decide (w.state ≠ .writeChar) && w.current.isSome | .error _ => false)) = true := by decide +kernel
  revert h
  generalize (run sE3 (blank (List.replicate 32 0) (List.replicate 64 0)) (steps sHist) >>= fun u => run sE3 u ((typedKeys b!"say" 60 ++ [Move.service ⟨some cLf, true⟩] ++
      List.replicate 6 (Move.service ⟨none, true⟩)).flatMap Move.ops)) = r
  intro h
  cases r with
  | error x => cases h
  | ok u =>
    simp only [Except.toOption, Option.any_some, Bool.and_eq_true] at h
    obtain ⟨h1, h2⟩ := h
    rcases service_tail (E := sE3) ⟨none, true⟩ u with g | ⟨c, w, g0, g1, g2⟩
    · rw [g _ fun _ _ => rfl] at h1
      cases hs : service sE3 ⟨none, true⟩ u with
      | error x => rw [hs] at h2; cases h2
      | ok p => rw [hs] at h1; cases h1
    · rw [g1] at h2
      simp only [Bool.and_eq_true, decide_eq_true_eq] at h2
      exact ⟨u, w, c, g0, g2, h2.1, h2.2⟩

/-! ## The general hook -/

/-- A hook that, when `say` is about to be executed, calls `ush_service` while `keys` are typed. -/
def askFirst (keys : Str) : Strategy
  | .hook argv => fun done _ => if argv = [b!"say"] then (typedKeys keys 60)[done.length]? else none
  | _ => fun _ _ => none

/-- The commands executed, and the output. -/
def hookShows (S : Strategy) (cs : Str) (k n : Nat) : Option (List (List Str) × Str) :=
  match run { sE3 with hook := some fun _ _ => [] } (blank (List.replicate 32 0) (List.replicate 64 0)) (steps sHist) >>= fun u =>
      runN { sE3 with hook := some fun _ _ => [] } S .oob n u (typedKeys cs k) with
  | .ok v => some (v.log.filterMap (fun e => match e with | .exec _ argv => some argv | _ => none), v.log.filterMap (fun e => match e with | .out c => some c | _ => none))
  | .error _ => none

/-- The hook must not do that (`NoHook` is needed): `ush_parse_finish` goes on after the hook, and the words of the line are gone from the input buffer.  `say` is typed; if the user
types `run` when the hook is there, `run` is executed instead, without the end of the line; if the line is ended, `run` is executed and `say` is an unknown command. -/
theorem C80_hook :
    hookShows (askFirst b!"run") b!"say\n" 60 320 = some ([[b!"run"]], b!"uShell 0.1.0\r\n\x1b[35m[h /]$ \x1b[0msay\n\x1b[35m[h /]$ \x1b[0mrun") ∧
    hookShows (askFirst b!"run\n") b!"say\n" 60 320 =
      some ([[b!"run"]], b!"uShell 0.1.0\r\n\x1b[35m[h /]$ \x1b[0msay\n\x1b[35m[h /]$ \x1b[0mrun\n\x1b[35m[h /]$ \x1b[0merror: syntax error\r\n\x1b[35m[h /]$ \x1b[0m") ∧
    hookShows (fun _ _ _ => none) b!"say\n" 60 320 = some ([[b!"say"]], b!"uShell 0.1.0\r\n\x1b[35m[h /]$ \x1b[0msay\n\x1b[35m[h /]$ \x1b[0m") := by
  refine ⟨?_, ?_, ?_⟩ <;> decide +kernel

end Ush.Props
