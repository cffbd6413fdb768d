import Verif.Proof.Format
import Verif.Proof.SafeBusy
/-!
# The invariant: library calls of the application
-/
namespace Ush
open Spec

variable {E : Env} {L : Nat} {W : World} {u v : Ush} {k : Nat}

/-! ## ush_printf -/

/-- The part of `ush_printf` after the write engine has been set up. -/
def printfTail (E : Env) (u : Ush) (s : Str) : M Ush := do
  let idx ← strlenAt u.outBuf 0
  let buf ← storeStr u.outBuf idx (s.take (E.outSize - idx - 1))
  let real ← strlenAt buf idx
  let u := { u with outBuf := buf, writeSize := u.writeSize + real }
  if s.length > real then printfError E u msgOverflowError else return u

theorem ushPrintf_tail (E : Env) (u : Ush) (s : Str) : ushPrintf E u (.text s) = ((if u.writeBuf ≠ .outBuf then do
      let o ← wr u.outBuf 0 cNul
      writePointer { u with outBuf := o } .outBuf .resetPrompt
    else pure { u with state := .writeChar, writeNext := .resetPrompt }) >>= fun u => printfTail E u s) := rfl

/-- The text in the output buffer fits what the write engine is going to print. -/
def OutAt (E : Env) (o : List UInt8) (n : Nat) : Prop :=
  ∃ t rest, o = t ++ cNul :: rest ∧ cNul ∉ t ∧ (n ≤ t.length ∨ (n = E.outSize ∧ t.length + 1 = E.outSize))

theorem printfTail_ok {s t rest : Str} (z : Sized E u) (hb : u.outBuf = t ++ cNul :: rest) (ht : cNul ∉ t)
    (hw : u.writeSize ≤ t.length ∨ (u.writeSize = E.outSize ∧ t.length + 1 = E.outSize)) (hs : cNul ∉ s)
    (hf : 20 ≤ E.outSize ∨ t.length + s.length < E.outSize) :
    ∃ o n, printfTail E u s = .ok { u with outBuf := o, writeSize := n } ∧ o.length = E.outSize ∧ OutAt E o n := by
  have hlen : (t ++ cNul :: rest).length = E.outSize := by rw [← hb]; exact z.outLen
  have hlen' : t.length + 1 + rest.length = E.outSize := by rw [← hlen]; simp; omega
  unfold printfTail
  rw [hb, strlenAt_zero ht, M.ok_bind]
  have hs' : cNul ∉ s.take (E.outSize - t.length - 1) := fun h => hs (List.mem_of_mem_take h)
  have hl' : (s.take (E.outSize - t.length - 1)).length = min (E.outSize - t.length - 1) s.length := List.length_take
  generalize hS : s.take (E.outSize - t.length - 1) = s' at hs' hl'
  obtain ⟨r', h1⟩ := storeStr_at (a := t) (t := rest) (s := s') (x := cNul) (by rw [hlen]; simp; omega)
  have hl2 := storeStr_length h1
  rw [h1, M.ok_bind, List.append_assoc, strlenAt_append hs', M.ok_bind]
  dsimp only
  have hl3 : t.length + s'.length + 1 + r'.length = E.outSize := by rw [hlen] at hl2; rw [← hl2]; simp; omega
  by_cases hov : s.length > s'.length
  · rw [if_pos hov]
    have hs1 : s'.length = E.outSize - t.length - 1 := by omega
    have h20 : 20 ≤ E.outSize := by omega
    unfold printfError
    dsimp only
    rw [← List.append_assoc, strlenAt_zero (not_mem_append ht hs'), M.ok_bind]
    have hm : msgOverflowError.length = 19 := by decide
    rw [if_neg (by rw [List.length_append, hm]; omega), if_neg (by rw [hm]; omega), hm]
    have hst : storeStr (t ++ s' ++ cNul :: r') (E.outSize - 20) msgOverflowError = .ok ((t ++ s').take (E.outSize - 20) ++ msgOverflowError ++ [cNul]) := by
      rw [storeStr_ok (by rw [hm]; simp; omega)]
      congr 1
      rw [List.take_append_of_le_length (by simp; omega), List.drop_eq_nil_of_le (by rw [hm]; simp; omega), List.append_nil]
    rw [hst, M.ok_bind]
    refine ⟨_, E.outSize, rfl, ?_, ?_⟩
    · simp [hm]; omega
    · refine ⟨(t ++ s').take (E.outSize - 20) ++ msgOverflowError, [], rfl, ?_, .inr ⟨rfl, ?_⟩⟩
      · exact not_mem_append (fun h => (not_mem_append ht hs') (List.mem_of_mem_take h)) (by decide)
      · simp [hm]; omega
  · rw [if_neg hov]
    refine ⟨_, _, rfl, by rw [← List.append_assoc]; exact hl2.trans hlen, t ++ s', r', by rw [List.append_assoc], not_mem_append ht hs', ?_⟩
    rcases hw with h | ⟨h, h'⟩
    · left; simp; omega
    · right; simp; omega

theorem Base.out {o : List UInt8} {n : Nat} (H : Holds E W u) (F : W.Fits E L) (ho : o.length = E.outSize) (h : OutAt E o n)
    (hw : u.writeBuf = .outBuf) : Base E L W { u with outBuf := o, writeSize := n } := by
  refine { toHolds := H.same ⟨rfl, rfl, rfl, rfl⟩ ⟨H.sized.inLen, ho⟩, fits := F, outp := fun _ => h, wok := ?_ }
  unfold WriteOk
  rw [hw]
  simp only
  obtain ⟨t, r, h1, -, h2⟩ := h
  rw [h1] at ho
  simp at ho
  rcases h2 with h2 | h2 <;> omega

theorem printf_inv {s : Str} (B : Base E L W u) (hs : cNul ∉ s)
    (hf : 20 ≤ E.outSize ∨ (if u.writeBuf = .outBuf then (outText u).length else 0) + s.length < E.outSize) (hsz : 0 < E.outSize) :
    ∃ v, ushPrintf E u (.text s) = .ok v ∧ Inv E L W 7 v ∧ next v = .resetPrompt := by
  rw [ushPrintf_tail]
  by_cases hw : u.writeBuf = .outBuf
  · rw [if_neg (by simp [hw]), M.pure_eq, M.ok_bind]
    obtain ⟨t, r, h1, h2, h3⟩ := B.outp hw
    have ho : outText u = t := by unfold outText; rw [h1]; exact takeWhile_ne_nul t r h2
    rw [if_pos hw, ho] at hf
    obtain ⟨o, n, e1, e2, e3⟩ := printfTail_ok (E := E) (u := { u with state := .writeChar, writeNext := .resetPrompt }) (s := s) (t := t) (rest := r)
      ⟨B.sized.inLen, B.sized.outLen⟩ h1 h2 h3 hs hf
    rw [e1]
    refine ⟨_, rfl, { toBase := Base.out (u := { u with state := .writeChar, writeNext := .resetPrompt }) (B.toHolds.same ⟨rfl, rfl, rfl, rfl⟩ ⟨B.sized.inLen, B.sized.outLen⟩) B.fits e2 e3 hw, live := ?_ }, rfl⟩
    exact Nat.le_refl 7
  · rw [if_pos (by simpa using hw)]
    rw [if_neg hw, Nat.zero_add] at hf
    have hpos : 0 < u.outBuf.length := by rw [B.sized.outLen]; exact hsz
    obtain ⟨t, h1, h2⟩ := wr_zero hpos
    rw [h1, M.ok_bind]
    have hz2 : (cNul :: t).length = E.outSize := h2.trans B.sized.outLen
    have H2 : Holds E W { u with outBuf := cNul :: t } := B.toHolds.same ⟨rfl, rfl, rfl, rfl⟩ ⟨B.sized.inLen, hz2⟩
    rw [writePointer_of (s := []) .resetPrompt (by simp) (by exact cstrAt_zero [] t (by simp)), M.ok_bind]
    obtain ⟨o, n, e1, e2, e3⟩ := printfTail_ok (E := E) (u := writePointerBin { u with outBuf := cNul :: t } .outBuf ([] : Str).length .resetPrompt) (s := s) (t := []) (rest := t)
      ⟨B.sized.inLen, hz2⟩ rfl (by simp) (.inl (Nat.le_refl _)) hs (by simpa using hf)
    rw [e1]
    refine ⟨_, rfl, { toBase := Base.out (u := writePointerBin { u with outBuf := cNul :: t } .outBuf ([] : Str).length .resetPrompt) (H2.same ⟨rfl, rfl, rfl, rfl⟩ ⟨H2.sized.inLen, H2.sized.outLen⟩) B.fits e2 e3 rfl, live := ?_ }, rfl⟩
    exact Nat.le_refl 7

/-- `ush_printf` sets up the write engine if it was printing something else. -/
theorem ushPrintf_setup {t : Str} (f : Fmt) (hw : u.writeBuf ≠ .outBuf) (h1 : wr u.outBuf 0 cNul = .ok (cNul :: t)) :
    ushPrintf E u f = ushPrintf E (writePointerBin { u with outBuf := cNul :: t } .outBuf ([] : Str).length .resetPrompt) f := by
  have e : ∀ x : Ush, ushPrintf E x f = ((if x.writeBuf ≠ .outBuf then do
      let o ← wr x.outBuf 0 cNul
      writePointer { x with outBuf := o } .outBuf .resetPrompt
    else pure { x with state := .writeChar, writeNext := .resetPrompt }) >>= fun y => do
      let idx ← strlenAt y.outBuf 0
      let max := E.outSize - idx
      let out := match f with
        | .text s => s
        | .error s => s
      let buf ← storeStr y.outBuf idx (out.take (max - 1))
      let real ← strlenAt buf idx
      let y := { y with outBuf := buf, writeSize := y.writeSize + real }
      match f with
      | .error _ => printfError E y msgFormatError
      | .text s => if s.length > real then printfError E y msgOverflowError else return y) := fun _ => rfl
  rw [e u, e, if_pos hw, h1, M.ok_bind, writePointer_of (s := []) .resetPrompt (by simp) (by exact cstrAt_zero [] t (by simp)), M.ok_bind, if_neg (by simp [writePointerBin])]
  rfl

theorem printf_error_at {s t rest : Str} (B : Holds E W u) (F : W.Fits E L) (hw : u.writeBuf = .outBuf) (hb : u.outBuf = t ++ cNul :: rest) (ht : cNul ∉ t)
    (hsz : u.writeSize ≤ t.length ∨ (u.writeSize = E.outSize ∧ t.length + 1 = E.outSize)) (hs : cNul ∉ s) (ho : 18 ≤ E.outSize)
    (hf : t.length + s.length + 17 ≠ E.outSize) : ∃ v, ushPrintf E u (.error s) = .ok v ∧ Inv E L W 7 v ∧ next v = .resetPrompt := by
  have hml : msgFormatError.length = 17 := by decide
  have hn : cNul ∉ msgFormatError := by decide
  by_cases hfit : t.length + s.length + 17 < E.outSize
  · obtain ⟨t', hl, e⟩ := ushPrintf_error_fits B.sized hw hb ht hs hfit
    rw [e]
    refine ⟨_, rfl, { toBase := Base.out (u := { u with state := .writeChar, writeNext := .resetPrompt }) (B.same ⟨rfl, rfl, rfl, rfl⟩ ⟨B.sized.inLen, B.sized.outLen⟩) F hl ?_ hw, live := Nat.le_refl 7 }, rfl⟩
    refine ⟨_, t', rfl, not_mem_append (not_mem_append ht hs) hn, .inl ?_⟩
    simp only [List.length_append, hml]
    omega
  · have e := ushPrintf_error_long B.sized hw hb ht hs (by omega) ho
    rw [e]
    have hl : ((t ++ s).take (E.outSize - 18) ++ msgFormatError).length + 1 = E.outSize := by simp [hml]; omega
    refine ⟨_, rfl, { toBase := Base.out (u := { u with state := .writeChar, writeNext := .resetPrompt }) (B.same ⟨rfl, rfl, rfl, rfl⟩ ⟨B.sized.inLen, B.sized.outLen⟩) F (by rw [List.length_append]; exact hl) ?_ hw, live := Nat.le_refl 7 }, rfl⟩
    refine ⟨_, [], rfl, not_mem_append (fun h => (not_mem_append ht hs) (List.mem_of_mem_take h)) hn, .inr ⟨rfl, hl⟩⟩

theorem printf_error_inv {s : Str} (B : Base E L W u) (hs : cNul ∉ s) (ho : 18 ≤ E.outSize)
    (hf : (if u.writeBuf = .outBuf then (outText u).length else 0) + s.length + 17 ≠ E.outSize) :
    ∃ v, ushPrintf E u (.error s) = .ok v ∧ Inv E L W 7 v ∧ next v = .resetPrompt := by
  by_cases hw : u.writeBuf = .outBuf
  · obtain ⟨t, r, h1, h2, h3⟩ := B.outp hw
    have e : outText u = t := by unfold outText; rw [h1]; exact takeWhile_ne_nul t r h2
    rw [if_pos hw, e] at hf
    exact printf_error_at B.toHolds B.fits hw h1 h2 h3 hs ho hf
  · rw [if_neg hw] at hf
    have hpos : 0 < u.outBuf.length := by rw [B.sized.outLen]; omega
    obtain ⟨t, h1, h2⟩ := wr_zero hpos
    rw [ushPrintf_setup _ hw h1]
    have hz2 : (cNul :: t).length = E.outSize := h2.trans B.sized.outLen
    exact printf_error_at (t := []) (rest := t) (B.toHolds.same ⟨rfl, rfl, rfl, rfl⟩ ⟨B.sized.inLen, hz2⟩) B.fits rfl rfl (by simp) (.inl (Nat.le_refl _)) hs ho (by simpa using hf)

/-! ## Directories and commands -/

theorem Holds.cdTo {m : Mount} (H : Holds E W u) (hm : m ∈ W.tree) : Holds E { W with cwd := some m } { u with current := some m.id } :=
  { sized := ⟨H.sized.inLen, H.sized.outLen⟩
    rep := H.rep.move rfl rfl rfl (fun m' h => by cases h; exact ⟨hm, rfl⟩)
    ok := H.ok.cd hm }

/-- `ush_node_set_current_dir` with any text. -/
theorem setCurrentDir_holds {p : Str} (H : Holds E W u) (hn : cNul ∉ p) (hl : W.Room E p) :
    ∃ v s W', setCurrentDir E u p = .ok (v, s) ∧ Holds E W' v ∧ (∀ m ∈ W'.dirs, m ∈ W.dirs) ∧ W'.groups = W.groups ∧ FsFrame u v ∧ W' = { W with cwd := W'.cwd } ∧
      v.nodes = u.nodes ∧ v.commands = u.commands := by
  unfold setCurrentDir
  by_cases h0 : p = []
  · rw [if_pos h0]; exact ⟨u, _, W, rfl, H, fun _ h => h, rfl, rfl, rfl, rfl, rfl⟩
  rw [if_neg h0, (H.abs hn hl).1, M.ok_bind, H.dir hn hl, M.ok_bind]
  cases hd : W.dir? p with
  | none => exact ⟨u, _, W, rfl, H, fun _ h => h, rfl, rfl, rfl, rfl, rfl⟩
  | some m =>
    have hm : m ∈ W.tree := by unfold World.dir? Tree.findText at hd; exact List.mem_of_find?_eq_some hd
    exact ⟨_, _, _, rfl, H.cdTo hm, fun x hx => mem_dirs_of_tree (dirs_moved hm hx), rfl, rfl, rfl, rfl, rfl⟩

theorem FsFrame.next (h : FsFrame u v) : next v = next u := by rw [h]; rfl

/-- A calm shell does not care about directories. -/
theorem Live.calm {W' : World} (C : Calm u) (F : FsFrame u v) (h : Live E L W u k (next u)) : Live E L W' v k (next v) := by
  rw [F.next]
  unfold Calm at C
  generalize next u = s at C h
  have hp : ∀ s, (∀ f, u.procFile = some f → ∀ b, f.process ≠ some (.builtin b)) → ProcLive E L W u k s → ProcLive E L W' v k s := by
    rintro s hb ⟨f, h1, h2⟩
    refine ⟨f, by rw [F]; exact h1, ?_⟩
    have := hb f h1
    revert h2
    cases hf : f.process with
    | none => exact id
    | some c =>
      cases c with
      | user i => exact id
      | builtin b => exact absurd hf (this b)
  cases s
  case processStart => exact hp _ C h
  case processService => exact hp _ C h
  case processFinish => exact hp _ C h
  all_goals first | exact C.elim | (rw [F]; exact h)

theorem Spec.Calm.frame (C : Calm u) (F : FsFrame u v) : Calm v := by
  unfold Calm
  rw [F.next, show v.procFile = u.procFile by rw [F]]
  exact C

theorem Base.frame {W' : World} (B : Base E L W u) (F : FsFrame u v) (r : WInv E v W') (o : W'.Ok E) (f : W'.Fits E L) : Base E L W' v :=
  { sized := ⟨by rw [F]; exact B.sized.inLen, by rw [F]; exact B.sized.outLen⟩
    rep := r, ok := o, fits := f
    outp := by have := B.outp; rw [F]; exact this
    wok := by have := B.wok; rw [F]; exact this }

theorem World.Fits.of_eq {W W' : World} (F : W.Fits E L) (h1 : ∀ m ∈ W'.dirs, m ∈ W.dirs) (h2 : W'.groups = W.groups) : W'.Fits E L := by
  refine ⟨fun f hf => F.files f ?_, fun m hm => F.paths m (h1 m hm), F.line⟩
  unfold World.files at hf ⊢
  rw [h2] at hf
  rcases List.mem_append.mp hf with hf | hf
  · exact List.mem_append_left _ hf
  · obtain ⟨m, hm, hf⟩ := List.mem_flatMap.mp hf
    exact List.mem_append_right _ (List.mem_flatMap.mpr ⟨m, h1 m hm, hf⟩)

/-! ## All calls -/

/-- The states in which callbacks are called and which they can leave behind. -/
def Settled (u : Ush) : Prop :=
  match next u with
  | .reset | .resetPrompt | .readPrepare => True
  | .processStart | .processService | .processFinish => ∀ f, u.procFile = some f → ∀ b, f.process ≠ some (.builtin b)
  | _ => False

theorem Settled.calm (h : Settled u) : Calm u := by
  unfold Settled at h
  unfold Calm
  generalize next u = s at h
  cases s <;> first | exact h.elim | exact h

theorem Settled.parse (h : Settled u) : isParse (next u) = false := by
  unfold Settled at h
  generalize next u = s at h
  cases s <;> first | exact h.elim | rfl

theorem Settled.tab (h : Settled u) : isTab (next u) = false := by
  unfold Settled at h
  generalize next u = s at h
  cases s <;> first | exact h.elim | rfl

/-- In these states nothing but the process matters. -/
theorem Settled.live {W' : World} (h : Settled u) (h1 : v.state = u.state) (h2 : v.writeNext = u.writeNext) (h3 : v.procFile = u.procFile)
    (l : Live E L W u k (next u)) : Live E L W' v k (next v) := by
  have hn : next v = next u := by unfold next; rw [h1, h2]
  rw [hn]
  unfold Settled at h
  generalize next u = s at h l
  have hp : ∀ s, (∀ f, u.procFile = some f → ∀ b, f.process ≠ some (.builtin b)) → ProcLive E L W u k s → ProcLive E L W' v k s := by
    rintro s hb ⟨f, h4, h5⟩
    refine ⟨f, h3.trans h4, ?_⟩
    have := hb f h4
    revert h5
    cases hf : f.process with
    | none => exact id
    | some c =>
      cases c with
      | user i => exact id
      | builtin b => exact absurd hf (this b)
  cases s
  case processStart => exact hp _ h l
  case processService => exact hp _ h l
  case processFinish => exact hp _ h l
  all_goals first | exact h.elim | exact l

theorem Settled.same (h : Settled u) (h1 : v.state = u.state) (h2 : v.writeNext = u.writeNext) (h3 : v.procFile = u.procFile) : Settled v := by
  have hn : next v = next u := by unfold next; rw [h1, h2]
  unfold Settled
  rw [hn, h3]
  exact h

theorem Settled.frame (C : Settled u) (F : FsFrame u v) : Settled v := C.same (by rw [F]) (by rw [F]) (by rw [F])

theorem calm_of {s : St} (h : next u = s) (hs : s = .reset ∨ s = .resetPrompt ∨ s = .readPrepare) : Settled u := by
  unfold Settled
  rw [h]
  rcases hs with rfl | rfl | rfl <;> trivial

theorem fs_inv {o : FsOp} (I : Inv E L W k u) (h : FsAllowed E L u o) :
    ∃ v W' j, runApi E u o.api = .ok v ∧ Inv E L W' j v ∧ (Settled u → Settled v) := by
  obtain ⟨W2, r2, o2, -, hs, h1, h2, h3⟩ := h
  obtain ⟨v, e, r, -⟩ := fsStep_sim r2 o h1
  have F := fsApi_frame o e
  obtain ⟨j, l⟩ := I.live.same (I.rep.uniq r2 I.ok o2) I.rep r2 o2
  obtain ⟨j', l'⟩ := l.change r2 o2 hs h1 h2 e r
  exact ⟨v, _, j', e, { toBase := I.toBase.frame F r h2 h3, live := l' }, fun h => h.frame F⟩

theorem proc_user {f : FileDesc} {s : St} (h : u.procFile = some f) (hb : ∀ b, f.process ≠ some (.builtin b)) : ProcLive E L W u 9 s := by
  refine ⟨f, h, ?_⟩
  cases hf : f.process with
  | none => exact Nat.le_refl _
  | some c =>
    cases c with
    | user i => trivial
    | builtin b => exact absurd hf (hb b)

theorem api_inv {a : Api} (cfg : Roomy E) (I : Inv E L W k u) (h : Allowed E L u a) :
    ∃ v W' j, runApi E u a = .ok v ∧ Inv E L W' j v ∧ (Settled u → Settled v) := by
  have B := I.toBase
  cases a with
  | print p =>
    obtain ⟨h1, s, h2⟩ := h
    obtain ⟨v, e, i, n⟩ := say_inv (nx := .reset) (k := 8) B.toHolds B.fits h1 h2 (Nat.le_refl 8)
    exact ⟨v, W, 8, e, i, fun _ => calm_of n (by simp)⟩
  | printNoNewline p =>
    obtain ⟨h1, s, h2⟩ := h
    obtain ⟨v, e, i, n⟩ := say_inv (nx := .resetPrompt) (k := 7) B.toHolds B.fits h1 h2 (Nat.le_refl 7)
    exact ⟨v, W, 7, e, i, fun _ => calm_of n (by simp)⟩
  | printStatus s =>
    obtain ⟨v, e, i, n⟩ := sayStr_inv (t := statusString E.tr s) (nx := .reset) (k := 8) B.toHolds B.fits (Nat.le_refl 8)
    exact ⟨v, W, 8, e, i, fun _ => calm_of n (by simp)⟩
  | printf f =>
    cases f with
    | error s =>
      obtain ⟨v, e, i, n⟩ := printf_error_inv B h.1 h.2.1 h.2.2
      exact ⟨v, W, 7, e, i, fun _ => calm_of n (by simp)⟩
    | text s =>
      obtain ⟨v, e, i, n⟩ := printf_inv B h.1 h.2 (by have := cfg.offset; omega)
      exact ⟨v, W, 7, e, i, fun _ => calm_of n (by simp)⟩
  | flush =>
    have : ∃ s, ptrStr u .outBuf = .ok s := by
      show ∃ s, cstrAt u.outBuf 0 = .ok s
      unfold cstrAt
      rw [if_pos (by rw [List.drop_zero]; exact h)]
      exact ⟨_, rfl⟩
    obtain ⟨s, hs⟩ := this
    obtain ⟨v, e, i, n⟩ := say_inv (nx := .resetPrompt) (k := 7) B.toHolds B.fits (by simp) hs (Nat.le_refl 7)
    exact ⟨v, W, 7, e, i, fun _ => calm_of n (by simp)⟩
  | reset =>
    obtain ⟨i, hi⟩ := Option.isSome_iff_exists.mp h
    have hr := B.rep.tree.root
    rw [hi] at hr
    obtain ⟨m, hm, he⟩ := Option.map_eq_some_iff.mp hr.symm
    have hmem := (find_eq_some B.rep.tree.nodupPath).mp hm
    have H2 := B.toHolds.cdTo hmem.1
    have e : u.root = some m.id := by rw [hi, he]
    rw [← e] at H2
    obtain ⟨v, e, i, n⟩ := sayStr_inv (t := banner) (nx := .resetPrompt) (k := 7) H2 (World.Fits.of_eq B.fits (fun x hx => mem_dirs_of_tree (dirs_moved hmem.1 hx)) rfl) (Nat.le_refl 7)
    exact ⟨v, _, 7, e, i, fun _ => calm_of n (by simp)⟩
  | mount p i fs =>
    obtain ⟨cs, rfl, h⟩ := h
    exact fs_inv I h
  | unmount q =>
    exact fs_inv I h
  | setCurrentDir p =>
    obtain ⟨h1, W2, r2, o2, f2, hs, h2⟩ : cNul ∉ p ∧ ∃ W, WInv E u W ∧ W.Ok E ∧ W.Fits E L ∧ Steady u (W.Bears u (.cd true [] false)) False ∧ W.Room E p := h
    obtain ⟨v, s, W', e, H, t1, t2, F, t3, t4, t5⟩ := setCurrentDir_holds ⟨B.sized, r2, o2⟩ h1 h2
    have F2 := F.emit (.ret s)
    obtain ⟨j, l⟩ := I.live.same (I.rep.uniq r2 I.ok o2) I.rep r2 o2
    obtain ⟨j', l'⟩ := l.changeDir (v := v.emit (.ret s)) (m := W'.cwd) r2 hs F2 (by rw [← t3]; exact H.rep.same ⟨rfl, rfl, rfl, rfl⟩) t4 t5
    rw [← t3] at l'
    refine ⟨v.emit (.ret s), W', j', ?_, { toBase := B.frame F2 (H.rep.same ⟨rfl, rfl, rfl, rfl⟩) H.ok (World.Fits.of_eq f2 t1 t2), live := l' }, fun h => h.frame F2⟩
    simp only [runApi, e, M.ok_bind, M.pure_eq]
  | commandsAdd i fs =>
    exact fs_inv I h
  | commandsRemove i =>
    exact fs_inv I h
  | processStart f =>
    refine ⟨_, W, 9, rfl, Inv.of (s := .processStart) (B.keep ⟨rfl, rfl, rfl, rfl⟩ rfl rfl rfl rfl) rfl (proc_user rfl h), fun _ => ?_⟩
    intro g hg; cases hg; exact h
  | setState s =>
    cases s
    case reset => exact ⟨_, W, 8, rfl, Inv.of (s := .reset) (B.keep ⟨rfl, rfl, rfl, rfl⟩ rfl rfl rfl rfl) rfl (Nat.le_refl 8), fun _ => trivial⟩
    case resetPrompt => exact ⟨_, W, 7, rfl, Inv.of (s := .resetPrompt) (B.keep ⟨rfl, rfl, rfl, rfl⟩ rfl rfl rfl rfl) rfl (Nat.le_refl 7), fun _ => trivial⟩
    case readPrepare => exact ⟨_, W, 1, rfl, Inv.of (s := .readPrepare) (B.keep ⟨rfl, rfl, rfl, rfl⟩ rfl rfl rfl rfl) rfl (Nat.le_refl 1), fun _ => trivial⟩
    case processStart =>
      obtain ⟨f, h1, h2⟩ := h
      exact ⟨_, W, 9, rfl, Inv.of (s := .processStart) (B.keep ⟨rfl, rfl, rfl, rfl⟩ rfl rfl rfl rfl) rfl (proc_user h1 h2),
        fun _ g hg => by cases h1.symm.trans hg; exact h2⟩
    case processService =>
      obtain ⟨f, h1, h2⟩ := h
      exact ⟨_, W, 9, rfl, Inv.of (s := .processService) (B.keep ⟨rfl, rfl, rfl, rfl⟩ rfl rfl rfl rfl) rfl (proc_user h1 h2),
        fun _ g hg => by cases h1.symm.trans hg; exact h2⟩
    case processFinish =>
      obtain ⟨f, h1, h2⟩ := h
      exact ⟨_, W, 9, rfl, Inv.of (s := .processFinish) (B.keep ⟨rfl, rfl, rfl, rfl⟩ rfl rfl rfl rfl) rfl (proc_user h1 h2),
        fun _ g hg => by cases h1.symm.trans hg; exact h2⟩
    all_goals exact h.elim
  | fillOut s => exact h.elim

theorem show_inv {s : Str} (I : Inv E L W k u) (hs : s.length < E.outSize) :
    ∃ v, runApis E u [.fillOut s, .flush] = .ok v ∧ Inv E L W 7 v ∧ Settled v := by
  obtain ⟨o, h1, v, h2, i, n⟩ := sayOut_inv (nx := .resetPrompt) (k := 7) I.toHolds I.fits hs (Nat.le_refl 7)
  refine ⟨v, ?_, i, calm_of n (by simp)⟩
  simp only [runApis, runApi, h1, M.ok_bind, M.pure_eq]
  unfold ushFlush
  rw [h2]
  rfl

/-- The calls of a callback. -/
theorem calls_inv (cfg : Roomy E) : ∀ (n : Nat) (as : List Api) (W : World) (k : Nat) (u : Ush), as.length ≤ n → Inv E L W k u → Calls E L u as →
    ∃ v W' j, runApis E u as = .ok v ∧ Inv E L W' j v ∧ (Settled u → Settled v) := by
  intro n
  induction n with
  | zero =>
    intro as W k u hn I _
    cases as with
    | nil => exact ⟨u, W, k, rfl, I, id⟩
    | cons a as => simp at hn
  | succ n ih =>
    intro as W k u hn I h
    have one : ∀ (a : Api) (as : List Api), as.length ≤ n → Allowed E L u a → (∀ v, runApi E u a = .ok v → Calls E L v as) →
        ∃ v W' j, runApis E u (a :: as) = .ok v ∧ Inv E L W' j v ∧ (Settled u → Settled v) := by
      intro a as hl ha hc
      obtain ⟨v, W', j, e, i, d⟩ := api_inv cfg I ha
      obtain ⟨w, W'', j', e', i', d'⟩ := ih as W' j v hl i (hc v e)
      exact ⟨w, W'', j', by rw [runApis, e]; exact e', i', fun h => d' (d h)⟩
    cases as with
    | nil => exact ⟨u, W, k, rfl, I, id⟩
    | cons a as =>
      have hl : as.length ≤ n := by simpa using hn
      cases a with
      | fillOut s =>
        cases as with
        | nil => exact h.1.elim
        | cons b as =>
          cases b with
          | flush =>
            obtain ⟨h1, h2⟩ := h
            obtain ⟨v, e, i, c⟩ := show_inv I h1
            obtain ⟨w, W'', j', e', i', d'⟩ := ih as W 7 v (by simp at hl; omega) i (h2 v e)
            refine ⟨w, W'', j', ?_, i', fun _ => d' c⟩
            rw [show Api.fillOut s :: Api.flush :: as = [Api.fillOut s, Api.flush] ++ as from rfl, runApis_append, e]
            exact e'
          | _ => exact h.1.elim
      | _ => exact one _ _ hl h.1 h.2

end Ush
