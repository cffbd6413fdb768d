import Verif.Spec.Nested
import Verif.Proof.SafeRun
/-!
# Callbacks that call `ush_service`: nothing happens after a callback has returned
-/
namespace Ush
open Spec

/-- `D` holds from the end of the line on, and the callbacks for commands and data and the hook keep it. -/
structure Kept (E : Env) (D : Ush → Prop) : Prop where
  start : ∀ u, u.state = .resetPrompt → D u
  store : ∀ u b, D u → D { u with inBuf := b }
  emit : ∀ u e, D u → D (u.emit e)
  hook : ∀ u strs v, D u → callHook E u strs = .ok v → D v
  exec : ∀ u cb id strs w, D u → runApis E (u.emit (.exec cb strs)) (E.userExec id strs (u.emit (.exec cb strs))) = .ok w → D w
  set : ∀ u id d w, D u → callSet E u id d = .ok w → D w

theorem Kept.any (E : Env) : Kept E fun _ => True := ⟨fun _ _ => trivial, fun _ _ _ => trivial, fun _ _ _ => trivial, fun _ _ _ _ _ => trivial, fun _ _ _ _ _ _ _ => trivial, fun _ _ _ _ _ _ => trivial⟩

variable {E : Env} {D : Ush → Prop}

/-- `ext K` is `base`, followed by the rest of at most one callback, which begins in a state with `D`. -/
def Tail (D : Ush → Prop) (base : M Ush) (ext : Rest → M Ush) : Prop :=
  (∀ K, PlainHook K → ext K = base) ∨ ∃ c w, ((∀ argv, c ≠ .hook argv) ∧ D w) ∧ base = .ok w ∧ ∀ K, PlainHook K → ext K = K c w

theorem Tail.same (base : M Ush) : Tail D base (fun _ => base) := .inl fun _ _ => rfl

theorem Tail.rest (base : M Ush) (c : Callback) (hc : ∀ argv, c ≠ .hook argv) (hd : ∀ w, base = .ok w → D w) : Tail D base (fun K => base >>= K c) := by
  cases base with
  | error x => exact .inl fun _ _ => rfl
  | ok w => exact .inr ⟨c, w, ⟨hc, hd w rfl⟩, rfl, fun _ _ => rfl⟩

theorem Tail.congr {base : M Ush} {ext ext' : Rest → M Ush} (h : Tail D base ext') (e : ∀ K, PlainHook K → ext K = ext' K) : Tail D base ext := by
  rcases h with h | ⟨c, w, hc, h1, h2⟩
  · exact .inl fun K hK => (e K hK).trans (h K hK)
  · exact .inr ⟨c, w, hc, h1, fun K hK => (e K hK).trans (h2 K hK)⟩

theorem hook_plain {K : Rest} (hK : PlainHook K) (u : Ush) (strs : List Str) : callHookK E K u strs = callHook E u strs := by
  unfold callHookK callHook
  cases E.hook with
  | none => rfl
  | some h =>
    simp only
    cases runApis E (u.emit (.hook strs)) (h strs u) with
    | error x => rfl
    | ok w => exact hK strs w

theorem Tail.bind {α : Type} {m : M α} {f : α → M Ush} {g : α → Rest → M Ush} (h : ∀ a, m = .ok a → Tail D (f a) (g a)) : Tail D (m >>= f) (fun K => m >>= fun a => g a K) := by
  cases m with
  | error x => exact .inl fun _ _ => rfl
  | ok a => exact h a rfl

theorem decode_keeps (kept : Kept E D) {u v : Ush} {argv : List Nat} {o size : Nat} (hd : D u) (h : echoDecode u argv = .ok (v, o, size)) : D v := by
  unfold echoDecode at h
  mgo h
  cases h
  exact kept.store _ _ hd

theorem echo_tail (kept : Kept E D) (u : Ush) (hd : D u) (argv : List Nat) : Tail D (echoCallback E u argv) (fun K => echoCallbackK E K u argv) := by
  unfold echoCallback echoCallbackK
  generalize argv.length = k
  match k with
  | 0 | 1 | 2 | 3 => exact .same _
  | _ + 5 => exact .same _
  | 4 =>
    refine .bind fun o2 _ => .bind fun s2 _ => ?_
    by_cases hs : s2 ≠ b!">"
    · simp only [if_pos hs]; exact .same _
    · simp only [if_neg hs]
      refine .bind fun o3 _ => .bind fun s3 _ => .bind fun r _ => ?_
      cases r with
      | none => exact .same _
      | some f =>
        simp only
        cases f.setData with
        | none => exact .same _
        | some id =>
          refine .bind fun p hp => ?_
          obtain ⟨v, o, size⟩ := p
          exact .rest _ _ (by intro _; simp) fun w hw => kept.set _ _ _ w (decode_keeps kept hd hp) hw

theorem exec_tail (kept : Kept E D) (u : Ush) (hd : D u) (f : FileDesc) (cb : Cb) (argv : List Nat) (strs : List Str) : Tail D (callExec E u f cb argv strs) (fun K => callExecK E K u f cb argv strs) := by
  unfold callExecK
  cases cb with
  | user id => exact .rest _ _ (by intro _; simp) fun w hw => kept.exec _ _ _ _ w hd hw
  | builtin b => cases b <;> first | exact echo_tail kept _ (kept.emit _ _ hd) _ | exact .same _

theorem hook_inBuf {u v : Ush} {strs : List Str} (h : callHook E u strs = .ok v) : v.inBuf = u.inBuf := by
  unfold callHook at h
  cases hh : E.hook with
  | none => rw [hh] at h; cases h; rfl
  | some f =>
    rw [hh] at h
    exact (runApis_frame _ h).inBuf

theorem finish_tail (kept : Kept E D) (u : Ush) (hd : D u) : Tail D (parseFinish E u) (fun K => parseFinishK E K u) := by
  refine Tail.congr (ext' := fun K => getArgs u >>= fun argv => if argv.length = 0 then pure u else argStrs u argv >>= fun strs => callHook E u strs >>= fun u => argAt argv 0 >>= fun o =>
    cstrAt u.inBuf o >>= fun name => fileFindByName E u name >>= fun r => match r with
      | none => printStatus E u .cmdSyntaxError
      | some file => match file.exec with
        | none => printStatus E u .fileNotExecutable
        | some cb => callExecK E K u file cb argv strs) ?_ ?_
  rotate_left
  · intro K hK
    unfold parseFinishK
    simp only [hook_plain hK]
    show (getArgs u >>= _) = getArgs u >>= _
    cases getArgs u with
    | error x => rfl
    | ok argv =>
      simp only [M.ok_bind]
      by_cases h : argv.length = 0
      · simp only [if_pos h]
      · simp only [if_neg h]
        cases hs : argStrs u argv with
        | error x => rfl
        | ok strs =>
          simp only [M.ok_bind]
          cases hv : callHook E u strs with
          | error x => rfl
          | ok v =>
            simp only [M.ok_bind]
            have e : argStrs v argv = .ok strs := by unfold argStrs at hs ⊢; rw [hook_inBuf hv]; exact hs
            rw [e]
            rfl
  unfold parseFinish
  refine .bind fun argv _ => ?_
  by_cases h : argv.length = 0
  · simp only [if_pos h]; exact .same _
  · simp only [if_neg h]
    refine .bind fun strs _ => .bind fun v hv => .bind fun o _ => .bind fun name _ => .bind fun r _ => ?_
    cases r with
    | none => exact .same _
    | some f =>
      simp only
      cases f.exec with
      | none => exact .same _
      | some cb => exact exec_tail kept _ (kept.hook _ _ _ hd hv) _ _ _ _

theorem char_tail (kept : Kept E D) (u : Ush) : Tail D (parseChar E u) (fun K => parseCharK E K u) := by
  unfold parseChar parseCharK
  refine .bind fun ch _ => ?_
  by_cases h : ch = cLf ∨ ch = cCr
  · simp only [if_pos h]
    exact .bind fun v _ => finish_tail kept _ (kept.start _ rfl)
  · simp only [if_neg h]; exact .same _

/-- A service call is that of the model, followed by the rest of at most one callback. -/
theorem service_tail_kept (kept : Kept E D) (io : Io) (u : Ush) : (∀ K, PlainHook K → serviceK E K io u = service E io u) ∨
    ∃ c w, ((∀ argv, c ≠ .hook argv) ∧ ((∀ id, c ≠ .proc id) → D w)) ∧ service E io u = .ok (w, true) ∧ ∀ K, PlainHook K → serviceK E K io u = K c w >>= fun v => .ok (v, true) := by
  cases hc : u.current.isSome with
  | false => left; intro K _; unfold serviceK service; rw [hc]; rfl
  | true =>
    have key : ∀ K, (parseServiceK E K u = parseService E u ∧ processServiceK E K u = processService E u) → serviceK E K io u = service E io u := by
      intro K h
      unfold serviceK service
      rw [h.1, h.2]
      rfl
    have pr : ∀ K, (u.state = .parseSearchArg ∨ u.state = .parseQuoteArg ∨ u.state = .parseStandardArg) → serviceK E K io u = parseCharK E K u >>= fun v => .ok (v, true) := by
      intro K hs
      unfold serviceK
      rw [hc]
      rcases hs with hs | hs | hs <;>
        (simp only [resetService, promptService, readService, autocompService, parseServiceK, hs, assertM_true, M.ok_bind]
         generalize parseCharK E K u = x; cases x <;> rfl)
    have pr' : (u.state = .parseSearchArg ∨ u.state = .parseQuoteArg ∨ u.state = .parseStandardArg) → service E io u = parseChar E u >>= fun v => .ok (v, true) := by
      intro hs
      rw [service_eq E io u hc]
      rcases hs with hs | hs | hs <;> (rw [hs]; unfold innerStep; rw [hs])
    have parse : (u.state = .parseSearchArg ∨ u.state = .parseQuoteArg ∨ u.state = .parseStandardArg) → (∀ K, PlainHook K → serviceK E K io u = service E io u) ∨
        ∃ c w, ((∀ argv, c ≠ .hook argv) ∧ ((∀ id, c ≠ .proc id) → D w)) ∧ service E io u = .ok (w, true) ∧ ∀ K, PlainHook K → serviceK E K io u = K c w >>= fun v => .ok (v, true) := by
      intro hs
      rcases char_tail kept u with h | ⟨c, w, h0, h1, h2⟩
      · have h : ∀ K, PlainHook K → parseCharK E K u = parseChar E u := h
        exact .inl fun K hK => by rw [pr K hs, pr' hs, h K hK]
      · have h2 : ∀ K, PlainHook K → parseCharK E K u = K c w := h2
        exact .inr ⟨c, w, ⟨h0.1, fun _ => h0.2⟩, by rw [pr' hs, h1]; rfl, fun K hK => by rw [pr K hs, h2 K hK]⟩
    have process : (u.state = .processStart ∨ u.state = .processService ∨ u.state = .processFinish) → (∀ K, PlainHook K → serviceK E K io u = service E io u) ∨
        ∃ c w, ((∀ argv, c ≠ .hook argv) ∧ ((∀ id, c ≠ .proc id) → D w)) ∧ service E io u = .ok (w, true) ∧ ∀ K, PlainHook K → serviceK E K io u = K c w >>= fun v => .ok (v, true) := by
      intro hs
      have hp : ∀ K, parseServiceK E K u = parseService E u := by
        intro K; unfold parseServiceK parseService; rcases hs with hs | hs | hs <;> rw [hs]
      by_cases hu : ∃ f id, u.procFile = some f ∧ f.process = some (.user id)
      · obtain ⟨f, id, hf, hq⟩ := hu
        have e1 : processService E u = (runApis E (u.emit (.proc id)) (E.userProc id u) >>= fun v => .ok (some v)) := by
          unfold processService; rcases hs with hs | hs | hs <;> (simp only [hs, hf, hq]; rfl)
        have e2 : ∀ K, processServiceK E K u = (runApis E (u.emit (.proc id)) (E.userProc id u) >>= fun v => K (.proc id) v >>= fun v => .ok (some v)) := by
          intro K; unfold processServiceK; rcases hs with hs | hs | hs <;> (simp only [hs, hf, hq]; rfl)
        cases hr : runApis E (u.emit (.proc id)) (E.userProc id u) with
        | error x =>
          refine .inl fun K _ => key K ⟨hp K, ?_⟩
          rw [e1, e2, hr]; rfl
        | ok w =>
          refine .inr ⟨.proc id, w, ⟨by intro _; simp, fun h => absurd rfl (h id)⟩, ?_, fun K _ => ?_⟩
          · unfold service
            rw [hc, e1, hr]
            rcases hs with hs | hs | hs <;>
              simp only [resetService, promptService, readService, autocompService, parseService, writeService, hs, assertM_true, M.ok_bind, M.pure_eq]
          · unfold serviceK
            rw [hc, e2, hr]
            generalize hk : K (.proc id) w = kw
            rcases hs with hs | hs | hs <;>
              (simp only [resetService, promptService, readService, autocompService, parseServiceK, writeService, hs, assertM_true, M.ok_bind, M.pure_eq, hk]
               cases kw <;> rfl)
      · refine .inl fun K _ => key K ⟨hp K, ?_⟩
        unfold processServiceK
        rcases hs with hs | hs | hs <;> simp only [hs]
        all_goals
          cases hf : u.procFile with
          | none => unfold processService; simp only [hs, hf]
          | some f =>
            simp only
            split
            · rename_i hq; exact absurd ⟨f, _, hf, hq⟩ hu
            · rfl
    cases hs : u.state
    case parseSearchArg => exact parse (.inl hs)
    case parseQuoteArg => exact parse (.inr (.inl hs))
    case parseStandardArg => exact parse (.inr (.inr hs))
    case processStart => exact process (.inl hs)
    case processService => exact process (.inr (.inl hs))
    case processFinish => exact process (.inr (.inr hs))
    all_goals exact .inl fun K _ => key K ⟨by unfold parseServiceK parseService; rw [hs], by unfold processServiceK processService; rw [hs]⟩

theorem service_tail (io : Io) (u : Ush) : (∀ K, PlainHook K → serviceK E K io u = service E io u) ∨
    ∃ c w, (∀ argv, c ≠ .hook argv) ∧ service E io u = .ok (w, true) ∧ ∀ K, PlainHook K → serviceK E K io u = K c w >>= fun v => .ok (v, true) := by
  rcases service_tail_kept (Kept.any E) io u with h | ⟨c, w, h0, h⟩
  · exact .inl h
  · exact .inr ⟨c, w, h0.1, h⟩

/-! ## Histories -/

theorem carry_plain {S : Strategy} (hh : S.NoHook) (x : Fault) (srv : Io → Ush → M (Ush × Bool)) (n : Nat) : PlainHook fun c => carryOn E x srv (S c) n [] := by
  intro argv w
  show carryOn E x srv (S (.hook argv)) n [] w = .ok w
  unfold carryOn
  rw [hh]

theorem run_moves (u : Ush) (ms ms' : List Move) : run E u ((ms ++ ms').flatMap Move.ops) = run E u (ms.flatMap Move.ops) >>= fun v => run E v (ms'.flatMap Move.ops) := by
  rw [List.flatMap_append, run_append]

theorem run_service (u : Ush) (io : Io) : run E u [.service io] = service E io u >>= fun p => .ok p.1 := by
  rw [run, step]
  cases service E io u with
  | error x => rfl
  | ok p => rfl

theorem Spec.Obeys.append {P : Ush → Move → Prop} : ∀ (ms ms' : List Move) {u : Ush}, Obeys E P u ms → (∀ v, run E u (ms.flatMap Move.ops) = .ok v → Obeys E P v ms') → Obeys E P u (ms ++ ms') := by
  intro ms
  induction ms with
  | nil => intro ms' u _ h; exact h u rfl
  | cons m ms ih =>
    intro ms' u h h'
    refine ⟨h.1, fun v hv => ih ms' (h.2 v hv) fun w hw => h' w ?_⟩
    rw [List.flatMap_cons, run_append, hv]
    exact hw

/-- The rest of a callback is a piece of a history. -/
theorem carry_flat {x : Fault} {S : Strategy} {c : Callback} {srv : Io → Ush → M (Ush × Bool)}
    (H : ∀ io u, srv io u = .error x ∨ ∃ ms, run E u ((.service io :: ms).flatMap Move.ops) = (srv io u >>= fun p => .ok p.1) ∧
      ∀ P, (∀ c done v m, S c done v = some m → P v m) → P u (.service io) → Obeys E P u (.service io :: ms)) :
    ∀ (n : Nat) (done : List (Move × Bool)) (u : Ush), carryOn E x srv (S c) n done u = .error x ∨ ∃ ms, run E u (ms.flatMap Move.ops) = carryOn E x srv (S c) n done u ∧
      ∀ P, (∀ c done v m, S c done v = some m → P v m) → Obeys E P u ms := by
  intro n
  induction n with
  | zero =>
    intro done u
    unfold carryOn
    cases hs : S c done u with
    | none => exact .inr ⟨[], rfl, fun _ _ => trivial⟩
    | some m => exact .inl rfl
  | succ n ih =>
    intro done u
    unfold carryOn
    cases hs : S c done u with
    | none => exact .inr ⟨[], rfl, fun _ _ => trivial⟩
    | some m =>
      cases m with
      | service io =>
        simp only
        rcases H io u with h | ⟨ms, e, hp⟩
        · exact .inl (by rw [h]; rfl)
        · cases hr : srv io u with
          | error y =>
            refine .inr ⟨.service io :: ms, by rw [e, hr]; rfl, fun P hP => hp P hP (hP _ _ _ _ hs)⟩
          | ok p =>
            obtain ⟨v, b⟩ := p
            rw [hr] at e
            have e : run E u ((.service io :: ms).flatMap Move.ops) = .ok v := e
            simp only [M.ok_bind]
            rcases ih (done ++ [(.service io, b)]) v with h | ⟨ms', e', hp'⟩
            · exact .inl h
            · refine .inr ⟨(.service io :: ms) ++ ms', by rw [run_moves, e]; exact e', fun P hP => Spec.Obeys.append _ _ (hp P hP (hP _ _ _ _ hs)) fun w hw => ?_⟩
              rw [e] at hw; cases hw
              exact hp' P hP
      | calls as =>
        simp only
        have er : run E u (Move.ops (.calls as)) = runApis E u as := run_apis E as u
        cases hr : runApis E u as with
        | error y => exact .inr ⟨[.calls as], by rw [List.flatMap_singleton, er, hr]; rfl, fun P hP => ⟨hP _ _ _ _ hs, fun _ _ => trivial⟩⟩
        | ok v =>
          simp only [M.ok_bind]
          rcases ih (done ++ [(.calls as, true)]) v with h | ⟨ms', e', hp'⟩
          · exact .inl h
          · refine .inr ⟨.calls as :: ms', ?_, fun P hP => ⟨hP _ _ _ _ hs, fun w hw => ?_⟩⟩
            · rw [List.flatMap_cons, run_append, er, hr]; exact e'
            · rw [er, hr] at hw; cases hw
              exact hp' P hP

theorem serviceN_flat (S : Strategy) (hh : S.NoHook) (x : Fault) : ∀ (n : Nat) (io : Io) (u : Ush), serviceN E S x n io u = .error x ∨
    ∃ ms, run E u ((.service io :: ms).flatMap Move.ops) = (serviceN E S x n io u >>= fun p => .ok p.1) ∧
      ∀ P, (∀ c done v m, S c done v = some m → P v m) → P u (.service io) → Obeys E P u (.service io :: ms) := by
  intro n
  induction n with
  | zero => intro io u; exact .inl rfl
  | succ n ih =>
    intro io u
    unfold serviceN
    have e0 : run E u ((Move.service io).ops) = service E io u >>= fun p => .ok p.1 := run_service u io
    rcases service_tail (E := E) io u with h | ⟨c, w, -, h1, h2⟩
    · refine .inr ⟨[], by rw [h _ (carry_plain hh x _ n), List.flatMap_singleton, e0], fun P _ hp => ⟨hp, fun _ _ => trivial⟩⟩
    · rw [h2 _ (carry_plain hh x _ n)]
      rcases carry_flat (c := c) ih n [] w with h | ⟨ms, e, hp⟩
      · exact .inl (by rw [h]; rfl)
      · rw [h1] at e0
        refine .inr ⟨ms, ?_, fun P hP h0 => ⟨h0, fun v hv => ?_⟩⟩
        · rw [List.flatMap_cons, run_append, e0]
          show run E w _ = _
          rw [e]
          cases carryOn E x (serviceN E S x n) (S c) n [] w <;> rfl
        · rw [e0] at hv
          cases hv
          exact hp P hP

/-! ## More depth -/

theorem carry_mono {x : Fault} {s : List (Move × Bool) → Ush → Option Move} {srv srv' : Io → Ush → M (Ush × Bool)} (H : ∀ io u, srv io u ≠ .error x → srv' io u = srv io u) :
    ∀ (n n' : Nat) (done : List (Move × Bool)) (u : Ush), n ≤ n' → carryOn E x srv s n done u ≠ .error x → carryOn E x srv' s n' done u = carryOn E x srv s n done u := by
  intro n
  induction n with
  | zero =>
    intro n' done u _ h
    unfold carryOn at h ⊢
    cases hs : s done u with
    | none => rfl
    | some m => rw [hs] at h; exact absurd rfl h
  | succ n ih =>
    intro n' done u hn h
    obtain ⟨k, rfl⟩ : ∃ k, n' = k + 1 := ⟨n' - 1, by omega⟩
    unfold carryOn at h ⊢
    cases hs : s done u with
    | none => rfl
    | some m =>
      rw [hs] at h
      cases m with
      | service io =>
        simp only at h ⊢
        have : srv io u ≠ .error x := fun e => by rw [e] at h; exact h rfl
        rw [H io u this]
        cases hr : srv io u with
        | error y => rfl
        | ok p => rw [hr] at h; exact ih k _ _ (by omega) h
      | calls as =>
        simp only at h ⊢
        cases hr : runApis E u as with
        | error y => rfl
        | ok v => rw [hr] at h; exact ih k _ _ (by omega) h

theorem serviceN_mono (S : Strategy) (hh : S.NoHook) (x : Fault) : ∀ (n n' : Nat) (io : Io) (u : Ush), n ≤ n' → serviceN E S x n io u ≠ .error x → serviceN E S x n' io u = serviceN E S x n io u := by
  intro n
  induction n with
  | zero => intro n' io u _ h; exact absurd rfl h
  | succ n ih =>
    intro n' io u hn h
    obtain ⟨k, rfl⟩ : ∃ k, n' = k + 1 := ⟨n' - 1, by omega⟩
    unfold serviceN at h ⊢
    rcases service_tail (E := E) io u with g | ⟨c, w, -, g1, g2⟩
    · rw [g _ (carry_plain hh x _ k), g _ (carry_plain hh x _ n)]
    · rw [g2 _ (carry_plain hh x _ n)] at h
      rw [g2 _ (carry_plain hh x _ k), g2 _ (carry_plain hh x _ n), carry_mono (fun io u => ih k io u (by omega)) n k [] w (by omega) fun e => h (by rw [e]; rfl)]

end Ush
