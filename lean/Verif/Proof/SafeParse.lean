import Verif.Proof.SafeApi
/-!
# The invariant: the parser and the calls it makes
-/
namespace Ush
open Spec

variable {E : Env} {L : Nat} {W : World} {u v : Ush} {k : Nat}

/-! ## Characters of the line -/

theorem count_put (b : List UInt8) (o : Nat) (c : UInt8) (h : o < b.length) :
    ((b.set o c).take (o + 1)).count cNul = (b.take o).count cNul + (if c = cNul then 1 else 0) := by
  rw [List.take_add_one, List.getElem?_set_self h, List.take_set_of_le (Nat.le_refl _), List.count_append]
  congr 1
  simp [List.count_cons]

/-- One character has been stored. -/
theorem ParseAt.put {b : List UInt8} {p o argc argc' : Nat} {e e' : Bool} {s s' : St} (P : ParseAt E L b p o argc e s k) (c : UInt8)
    (ho : o < p) (he : o + 1 + (if e' then 1 else 0) ≤ p)
    (ha : argc' ≤ (b.take o).count cNul + (if c = cNul then 1 else 0) + (if s' = .parseSearchArg then 0 else 1))
    (hs : s' = .parseSearchArg → e' = false) : ParseAt E L (b.set o c) p (o + 1) argc' e' s' k := by
  obtain ⟨n, x, h1, hL, h2, h3⟩ := P.line
  have hn : n < b.length := (List.getElem?_eq_some_iff.mp h2).1
  exact
  { line := ⟨n, x, h1, hL, by rw [List.getElem?_set_ne (by omega)]; exact h2, h3⟩
    out := he
    args := by rw [count_put b o c (by omega)]; exact ha
    esc := hs
    cost := P.cost }

/-- Nothing has been stored. -/
theorem ParseAt.move {b : List UInt8} {p o argc argc' : Nat} {e e' : Bool} {s s' : St} (P : ParseAt E L b p o argc e s k)
    (he : o + (if e' then 1 else 0) ≤ p)
    (ha : argc' ≤ (b.take o).count cNul + (if s' = .parseSearchArg then 0 else 1))
    (hs : s' = .parseSearchArg → e' = false) : ParseAt E L b p o argc' e' s' k :=
  { line := P.line, out := he, args := ha, esc := hs, cost := P.cost }

/-- A character that is no line end has been read. -/
theorem ParseAt.skip {b : List UInt8} {p o argc : Nat} {e : Bool} {s : St} {c : UInt8} (P : ParseAt E L b p o argc e s k)
    (hc : b[p]? = some c) (hn : ¬isNewline c) : ParseAt E L b (p + 1) o argc e s (k - 1) := by
  obtain ⟨n, x, h1, hL, h2, h3⟩ := P.line
  have : n ≠ p := by
    rintro rfl
    cases hc.symm.trans h2
    exact hn h3
  have := P.cost
  exact { line := ⟨n, x, by omega, hL, h2, h3⟩, out := by have := P.out; omega, args := P.args, esc := P.esc, cost := by omega }

/-- What a character of the line leads to. -/
structure Lexed (E : Env) (L : Nat) (k : Nat) (u v : Ush) : Prop where
  fs : SameFs u v
  len : v.inBuf.length = u.inBuf.length
  out : v.outBuf = u.outBuf
  wbuf : v.writeBuf = u.writeBuf
  wsize : v.writeSize = u.writeSize
  live : (v.state = .parseSearchArg ∨ v.state = .parseQuoteArg ∨ v.state = .parseStandardArg) ∧ ParseOk E L v v.state k

theorem putOut_ok (c : UInt8) (h : u.outPos < u.inBuf.length) :
    putOut u c = .ok { u with inBuf := u.inBuf.set u.outPos c, outPos := u.outPos + 1 } := by
  unfold putOut
  rw [wr_ok _ h]; rfl

/-- An escaped character. -/
theorem parseEscaped_ok {s : St} (c : UInt8) (P : ParseOk E L u s k) (ho : u.outPos + 1 < u.inPos) (hl : u.inPos ≤ u.inBuf.length)
    (hs : s ≠ .parseSearchArg) (hst : u.state = s) (h3 : s = .parseQuoteArg ∨ s = .parseStandardArg) :
    ∃ v, parseEscaped u c = .ok v ∧ Lexed E L k u v := by
  unfold parseEscaped
  have ha := P.args
  rw [if_neg hs] at ha
  have h3' : u.state = .parseSearchArg ∨ u.state = .parseQuoteArg ∨ u.state = .parseStandardArg := by rw [hst]; right; exact h3
  split
  · rw [putOut_ok _ (by omega), M.ok_bind]
    have P1 : ParseAt E L (u.inBuf.set u.outPos cBackslash) u.inPos (u.outPos + 1) u.argsCount false s k :=
      ParseAt.put (s' := s) (e' := false) P cBackslash (by omega) (by simp; omega) (by rw [if_neg hs, if_neg (by decide)]; omega) (by intro h; rfl)
    have P2 : ParseAt E L ((u.inBuf.set u.outPos cBackslash).set (u.outPos + 1) c) u.inPos (u.outPos + 1 + 1) u.argsCount false s k :=
      ParseAt.put (s' := s) (e' := false) P1 c (by omega) (by simp; omega) (by have := P1.args; rw [if_neg hs] at this ⊢; omega) (by intro h; rfl)
    rw [putOut_ok _ (by simp; omega), M.ok_bind]
    exact ⟨_, rfl, ⟨rfl, rfl, rfl, rfl⟩, by simp, rfl, rfl, rfl, h3', by rw [← hst] at P2; exact P2⟩
  · rw [M.pure_eq, M.ok_bind, putOut_ok _ (by omega), M.ok_bind]
    have P1 : ParseAt E L (u.inBuf.set u.outPos c) u.inPos (u.outPos + 1) u.argsCount false s k :=
      ParseAt.put (s' := s) (e' := false) P c (by omega) (by simp; omega) (by rw [if_neg hs]; split <;> omega) (by intro h; rfl)
    exact ⟨_, rfl, ⟨rfl, rfl, rfl, rfl⟩, by simp, rfl, rfl, rfl, h3', by rw [← hst] at P1; exact P1⟩

/-- A character that is no line end; `u` has already moved on. -/
theorem parseCharStandard_ok (c : UInt8) (P : ParseOk E L u u.state k) (ho : u.outPos + (if u.escapeFlag then 1 else 0) < u.inPos)
    (hl : u.inPos ≤ u.inBuf.length) (hs : u.state = .parseSearchArg ∨ u.state = .parseQuoteArg ∨ u.state = .parseStandardArg) :
    ∃ v, parseCharStandard u c = .ok v ∧ Lexed E L k u v := by
  unfold parseCharStandard
  have ha := P.args
  have same : ∀ s' e' argc', (s' = .parseSearchArg ∨ s' = .parseQuoteArg ∨ s' = .parseStandardArg) →
      (argc' ≤ (u.inBuf.take u.outPos).count cNul + (if s' = .parseSearchArg then 0 else 1)) → (s' = .parseSearchArg → e' = false) →
      u.outPos < u.inPos →
      Lexed E L k u { u with argsCount := argc', escapeFlag := e', state := s' } := by
    intro s' e' argc' h1 h2 h3 h4
    refine ⟨⟨rfl, rfl, rfl, rfl⟩, rfl, rfl, rfl, rfl, h1, ?_⟩
    have h5 : u.outPos + (if e' then 1 else 0) ≤ u.inPos := by split <;> omega
    exact ParseAt.move P h5 h2 h3
  have put : ∀ (x : UInt8) s' argc', (s' = .parseSearchArg ∨ s' = .parseQuoteArg ∨ s' = .parseStandardArg) →
      (argc' ≤ (u.inBuf.take u.outPos).count cNul + (if x = cNul then 1 else 0) + (if s' = .parseSearchArg then 0 else 1)) → u.escapeFlag = false →
      u.outPos < u.inPos →
      Lexed E L k u { u with inBuf := u.inBuf.set u.outPos x, outPos := u.outPos + 1, argsCount := argc', state := s' } := by
    intro x s' argc' h1 h2 h3 h4
    refine ⟨⟨rfl, rfl, rfl, rfl⟩, by simp, rfl, rfl, rfl, h1, ?_⟩
    show ParseAt E L (u.inBuf.set u.outPos x) u.inPos (u.outPos + 1) argc' u.escapeFlag s' k
    rw [h3]
    exact ParseAt.put P x h4 (by simp; omega) h2 (by intro _; rfl)
  have ho' : u.outPos < u.inPos := by split at ho <;> omega
  rcases hs with hs | hs | hs <;> rw [hs] at ha ⊢ <;> simp only [if_true, reduceCtorEq, if_false] at ha ⊢
  · have hf := P.esc hs
    split
    · exact ⟨u, rfl, ⟨rfl, rfl, rfl, rfl⟩, rfl, rfl, rfl, rfl, .inl hs, P⟩
    split
    · exact ⟨_, rfl, same .parseQuoteArg u.escapeFlag (u.argsCount + 1) (by simp) (by simp; omega) (by simp) ho'⟩
    split
    · exact ⟨_, rfl, same .parseStandardArg true (u.argsCount + 1) (by simp) (by simp; omega) (by simp) ho'⟩
    · rw [putOut_ok _ (by omega), M.ok_bind]
      exact ⟨_, rfl, put c .parseStandardArg (u.argsCount + 1) (by simp) (by simp; omega) hf ho'⟩
  · split
    · next h =>
      rw [h] at ho; simp at ho
      exact parseEscaped_ok (s := u.state) c P ho hl (by rw [hs]; decide) rfl (.inl hs)
    split
    · exact ⟨_, rfl, same .parseStandardArg u.escapeFlag u.argsCount (by simp) (by simp; omega) (by simp) ho'⟩
    split
    · exact ⟨_, rfl, same .parseQuoteArg true u.argsCount (by simp) (by simp; omega) (by simp) ho'⟩
    · next h _ _ =>
      rw [putOut_ok _ (by omega)]
      have := put c .parseQuoteArg u.argsCount (by simp) (by simp; omega) (by simpa using h) ho'
      rw [← hs] at this
      exact ⟨_, rfl, this⟩
  · split
    · next h =>
      rw [h] at ho; simp at ho
      exact parseEscaped_ok (s := u.state) c P ho hl (by rw [hs]; decide) rfl (.inr hs)
    next hf =>
    have hf : u.escapeFlag = false := by simpa using hf
    split
    · rw [putOut_ok _ (by omega), M.ok_bind]
      exact ⟨_, rfl, put cNul .parseSearchArg u.argsCount (by simp) (by simp; omega) hf ho'⟩
    split
    · exact ⟨_, rfl, same .parseQuoteArg u.escapeFlag u.argsCount (by simp) (by simp; omega) (by simp) ho'⟩
    split
    · exact ⟨_, rfl, same .parseStandardArg true u.argsCount (by simp) (by simp; omega) (by simp) ho'⟩
    · rw [putOut_ok _ (by omega)]
      have := put c .parseStandardArg u.argsCount (by simp) (by simp; omega) hf ho'
      rw [← hs] at this
      exact ⟨_, rfl, this⟩

/-! ## The arguments -/

/-- The arguments are readable strings shorter than the line bound. -/
structure Argv (E : Env) (L : Nat) (b : List UInt8) (argc : Nat) (argv : List Nat) : Prop where
  get : getArgsLoop b argc 0 = .ok argv
  len : argv.length = argc
  strs : ∀ o ∈ argv, ∃ s, cstrAt b o = .ok s ∧ s.length < L
  size : b.length = E.inSize

theorem getArgsLoop_ok (b : List UInt8) (m : Nat) : ∀ (n ptr : Nat), n ≤ ((b.take m).drop ptr).count cNul →
    ∃ argv, getArgsLoop b n ptr = .ok argv ∧ argv.length = n ∧ ∀ o ∈ argv, ∃ s, cstrAt b o = .ok s ∧ s.length < m := by
  intro n
  induction n with
  | zero => intro ptr _; exact ⟨[], rfl, rfl, by simp⟩
  | succ n ih =>
    intro ptr h
    have hm : cNul ∈ (b.take m).drop ptr := by
      rw [← List.count_pos_iff]; omega
    rw [List.drop_take] at hm h
    obtain ⟨s, hs⟩ : ∃ s, cstrAt b ptr = .ok s := by unfold cstrAt; rw [if_pos (List.mem_of_mem_take hm)]; exact ⟨_, rfl⟩
    obtain ⟨h1, r, h2⟩ := cstrAt_eq_ok hs
    have h3 : b.drop (ptr + s.length + 1) = r := by
      rw [Nat.add_assoc, ← List.drop_drop, h2, ← List.drop_drop]; simp
    have hl : s.length < m - ptr := by
      by_contra hc
      rw [h2, List.take_append_of_le_length (by omega)] at hm
      exact h1 (List.mem_of_mem_take hm)
    obtain ⟨argv, e1, e2, e3⟩ := ih (ptr + s.length + 1) (by
      rw [List.drop_take, h3]
      rw [h2, show m - ptr = s.length + (m - (ptr + s.length + 1) + 1) by omega, List.take_length_add_append, List.take_succ_cons, List.count_append, List.count_eq_zero.mpr h1, List.count_cons_self] at h
      omega)
    refine ⟨ptr :: argv, ?_, by simp [e2], ?_⟩
    · unfold getArgsLoop
      rw [strlenAt_of_drop h1 h2, M.ok_bind, e1]; rfl
    · intro o ho
      rcases List.mem_cons.mp ho with rfl | ho
      · exact ⟨s, hs, by omega⟩
      · exact e3 o ho

theorem Argv.str {b : List UInt8} {argc o : Nat} {argv : List Nat} (A : Argv E L b argc argv) (h : o ∈ argv) :
    ∃ s, cstrAt b o = .ok s ∧ cNul ∉ s ∧ s.length < L := by
  obtain ⟨s, hs, hl⟩ := A.strs o h
  exact ⟨s, hs, (cstrAt_eq_ok hs).1, hl⟩

theorem Argv.at {b : List UInt8} {argc i : Nat} {argv : List Nat} (A : Argv E L b argc argv) (h : i < argv.length) :
    ∃ o s, argAt argv i = .ok o ∧ o ∈ argv ∧ cstrAt b o = .ok s ∧ cNul ∉ s ∧ s.length < L := by
  obtain ⟨s, h1, h2, h3⟩ := A.str (List.getElem_mem h)
  exact ⟨argv[i], s, by unfold argAt; rw [List.getElem?_eq_getElem h], List.getElem_mem h, h1, h2, h3⟩

theorem mapM_ok {α β : Type} (f : α → M β) : ∀ (l : List α), (∀ a ∈ l, ∃ b, f a = .ok b) → ∃ bs, l.mapM f = .ok bs := by
  intro l
  induction l with
  | nil => intro _; exact ⟨[], rfl⟩
  | cons a l ih =>
    intro h
    obtain ⟨b, hb⟩ := h a (by simp)
    obtain ⟨bs, hbs⟩ := ih (fun x hx => h x (by simp [hx]))
    exact ⟨b :: bs, by rw [List.mapM_cons, hb, M.ok_bind, hbs]; rfl⟩

theorem Argv.all {argc : Nat} {argv : List Nat} (A : Argv E L u.inBuf argc argv) : ∃ strs, argStrs u argv = .ok strs :=
  mapM_ok _ _ fun o ho => let ⟨s, hs, _⟩ := A.strs o ho; ⟨s, hs⟩

/-! ## Calls -/

/-- The call succeeds, and the shell is in order and neither in the parser nor in the completion. -/
def Ends (E : Env) (L : Nat) (m : M Ush) : Prop := ∃ v W' j, m = .ok v ∧ Inv E L W' j v ∧ isParse (next v) = false ∧ isTab (next v) = false

theorem Base.emit (B : Base E L W u) (e : Event) : Base E L W (u.emit e) := B.keep ⟨rfl, rfl, rfl, rfl⟩ rfl rfl rfl rfl

theorem Settled.emit (h : Settled u) (e : Event) : Settled (u.emit e) := h.same rfl rfl rfl

theorem Settled.inv (h : Settled u) (I : Inv E L W k u) (B : Base E L W v) (h1 : v.state = u.state) (h2 : v.writeNext = u.writeNext)
    (h3 : v.procFile = u.procFile) : Inv E L W k v ∧ Settled v :=
  ⟨{ toBase := B, live := h.live h1 h2 h3 I.live }, h.same h1 h2 h3⟩

theorem Inv.emit (I : Inv E L W k u) (h : Settled u) (e : Event) : Inv E L W k (u.emit e) ∧ Settled (u.emit e) :=
  h.inv I (I.toBase.emit e) rfl rfl rfl

theorem Base.site (B : Base E L W u) (h : Settled u) : Site E L u := ⟨B.sized, h.calm, W, B.rep, B.ok, B.fits⟩

theorem Ends.calls {as : List Api} (cfg : Roomy E) (I : Inv E L W k u) (h : Settled u) (hc : Calls E L u as) : Ends E L (runApis E u as) := by
  obtain ⟨v, W', j, e, i, s⟩ := calls_inv cfg as.length as W k u (Nat.le_refl _) I hc
  exact ⟨v, W', j, e, i, (s h).parse, (s h).tab⟩

theorem Ends.print {p : Ptr} {s : Str} (B : Base E L W u) (hp : p ≠ .null) (hs : ptrStr u p = .ok s) : Ends E L (ushPrint u p) := by
  obtain ⟨v, e, i, n⟩ := say_inv (nx := .reset) (k := 8) B.toHolds B.fits hp hs (Nat.le_refl 8)
  exact ⟨v, W, 8, e, i, by rw [n]; exact ⟨rfl, rfl⟩⟩

theorem Ends.status (B : Base E L W u) (s : Status) : Ends E L (printStatus E u s) := by
  obtain ⟨v, e, i, n⟩ := sayStr_inv (t := statusString E.tr s) (nx := .reset) (k := 8) B.toHolds B.fits (Nat.le_refl 8)
  exact ⟨v, W, 8, e, i, by rw [n]; exact ⟨rfl, rfl⟩⟩

theorem Ends.set {s : St} (B : Base E L W v) (hs : v.state = s) (hl : Live E L W v k s) (hn : isParse s = false ∧ isTab s = false) : Ends E L (.ok v) :=
  ⟨v, W, k, rfl, Inv.of B hs hl, by rw [next_of hs hl.notWrite]; exact hn⟩

theorem file?_files {a : Str} {g : FileDesc} (h : W.file? a = some g) : g ∈ W.files := by
  unfold World.file? at h
  unfold World.files
  cases h1 : W.groups.files.find? (fun f => f.name == a) with
  | some g' =>
    rw [h1] at h
    simp only [Option.some_or, Option.some.injEq] at h
    subst h
    exact List.mem_append_left _ (List.mem_of_find?_eq_some h1)
  | none =>
    rw [h1] at h
    simp only [Option.none_or] at h
    unfold Tree.findFile at h
    obtain ⟨m, hm, hx⟩ := List.exists_of_findSome?_eq_some h
    exact List.mem_append_right _ (List.mem_flatMap.mpr ⟨m, mem_dirs_of_tree hm, List.mem_of_find?_eq_some hx⟩)

/-- The process functions of the built-in commands. -/
theorem builtin_process : ∀ f ∈ builtinCommands, ∀ b, f.exec = some (.builtin b) →
    f.process = (if b = .help ∨ b = .ls ∨ b = .cat ∨ b = .xxd then some (.builtin b) else none) := by
  intro f hf b h
  simp only [builtinCommands, List.mem_cons, List.not_mem_nil, or_false] at hf
  rcases hf with rfl | rfl | rfl | rfl | rfl | rfl | rfl <;> cases h <;> rfl

theorem Spec.Proper.process {f : FileDesc} {b : Builtin} (h : Proper f) (hb : f.exec = some (.builtin b)) :
    f.process = (if b = .help ∨ b = .ls ∨ b = .cat ∨ b = .xxd then some (.builtin b) else none) := by
  rcases h with h | ⟨h, -⟩
  · exact builtin_process f h b hb
  · exact absurd hb (h b)

section
variable {file : FileDesc} {argv : List Nat}

theorem exec_help (I : Inv E L W k u) (A : Argv E L u.inBuf u.argsCount argv) (hf : file.process = some (.builtin .help)) :
    Ends E L (helpCallback E u file argv) := by
  have B := I.toBase
  unfold helpCallback
  split
  · refine Ends.set (s := .processStart) (k := left W.groups 0 0 + 8) (B.keep ⟨rfl, rfl, rfl, rfl⟩ rfl rfl rfl rfl) rfl ?_ ⟨rfl, rfl⟩
    refine ⟨file, rfl, ?_⟩
    rw [hf]
    exact ⟨rfl, ⟨W.groups, List.suffix_refl _, B.rep.cmds.chain, Nat.le_refl _⟩, Nat.zero_le _, by intro h; cases h⟩
  · next h =>
    obtain ⟨o, s, e1, -, e2, e3, e4⟩ := A.at (i := 1) (by omega)
    rw [e1, M.ok_bind, e2, M.ok_bind, B.find e3 (B.near e4), M.ok_bind]
    split
    · exact Ends.status B _
    · split
      · exact Ends.status B _
      · next x _ =>
        obtain ⟨v, e, i, n⟩ := sayStr_inv (t := x) (nx := .resetPrompt) (k := 7) B.toHolds B.fits (Nat.le_refl 7)
        exact ⟨v, W, 7, e, i, by rw [n]; exact ⟨rfl, rfl⟩⟩
  · exact Ends.status B _

theorem exec_ls (I : Inv E L W k u) (A : Argv E L u.inBuf u.argsCount argv) (hf : file.process = some (.builtin .ls)) :
    Ends E L (lsCallback E u file argv) := by
  have B := I.toBase
  have go : ∀ m ∈ W.dirs, Ends E L (.ok (processStart { u with procNode := some m.id } file)) := by
    intro m hm
    refine Ends.set (s := .processStart) (k := 4 * W.tree.length + 4 * m.files.length + 10) (B.keep ⟨rfl, rfl, rfl, rfl⟩ rfl rfl rfl rfl) rfl ?_ ⟨rfl, rfl⟩
    refine ⟨file, rfl, ?_⟩
    rw [hf]
    exact ⟨m, hm, rfl, Nat.le_refl _⟩
  unfold lsCallback
  split
  · obtain ⟨m, -, -, h2, -, -, h5⟩ := B.cwd
    have := go m h5
    rw [← h2] at this
    exact this
  · next h =>
    obtain ⟨o, s, e1, -, e2, e3, e4⟩ := A.at (i := 1) (by omega)
    rw [e1, M.ok_bind, e2, M.ok_bind, (B.abs e3 (B.room e4)).1, M.ok_bind, B.dir e3 (B.room e4), M.ok_bind]
    cases hd : W.dir? s with
    | none => exact Ends.status (u := { u with procNode := none }) (B.keep ⟨rfl, rfl, rfl, rfl⟩ rfl rfl rfl rfl) _
    | some m => exact go m (mem_dirs_of_tree (findText_mem hd))
  · exact Ends.status B _

theorem exec_cd (I : Inv E L W k u) (S : Settled u) (A : Argv E L u.inBuf u.argsCount argv) : Ends E L (cdCallback E u argv) := by
  have B := I.toBase
  unfold cdCallback
  split
  · exact Ends.status B _
  · next h =>
    obtain ⟨o, s, e1, -, e2, e3, e4⟩ := A.at (i := 1) (by omega)
    rw [e1, M.ok_bind, e2, M.ok_bind]
    obtain ⟨v, st, W', e, H, t1, t2, F, -⟩ := setCurrentDir_holds B.toHolds e3 (B.room e4)
    rw [e, M.ok_bind]
    have B2 := B.frame F H.rep H.ok (World.Fits.of_eq B.fits t1 t2)
    dsimp only
    split
    · exact Ends.status B2 _
    · exact ⟨v, W', k, rfl, { toBase := B2, live := I.live.calm S.calm F }, (S.frame F).parse, (S.frame F).tab⟩

theorem exec_pwd (I : Inv E L W k u) : Ends E L (pwdCallback E u argv) := by
  have B := I.toBase
  unfold pwdCallback
  split
  · exact Ends.status B _
  · obtain ⟨m, -, -, h2, h3, -⟩ := B.cwd
    rw [h2]
    simp only
    rw [h3]
    obtain ⟨s, hs⟩ := ptrStr_str_any u (render m.path)
    exact Ends.print B (by simp) hs

theorem catCheck_ok (B : Base E L W u) : ∀ (os : List Nat), (∀ o ∈ os, ∃ s, cstrAt u.inBuf o = .ok s ∧ cNul ∉ s ∧ s.length < L) →
    (∃ st, catCheck E u os = .ok (some st)) ∨ (catCheck E u os = .ok none ∧
      ∀ o ∈ os, ∃ a f id, cstrAt u.inBuf o = .ok a ∧ a.length < L ∧ W.file? a = some f ∧ f.getData = some id) := by
  intro os
  induction os with
  | nil => intro _; exact .inr ⟨rfl, by simp⟩
  | cons o os ih =>
    intro h
    obtain ⟨s, e1, e2, e3⟩ := h o (by simp)
    unfold catCheck
    rw [e1, M.ok_bind, B.toHolds.find e2 (B.near e3), M.ok_bind]
    cases hf : W.file? s with
    | none => exact .inl ⟨_, rfl⟩
    | some f =>
      simp only
      cases hg : f.getData with
      | none => exact .inl ⟨_, rfl⟩
      | some id =>
        rw [if_neg (by simp)]
        rcases ih (fun x hx => h x (by simp [hx])) with i | ⟨i, j⟩
        · exact .inl i
        · refine .inr ⟨i, ?_⟩
          intro x hx
          rcases List.mem_cons.mp hx with rfl | hx
          · exact ⟨s, f, id, e1, e3, hf, hg⟩
          · exact j x hx

theorem exec_cat (I : Inv E L W k u) (A : Argv E L u.inBuf u.argsCount argv) (hf : file.process = some (.builtin .cat)) :
    Ends E L (catCallback E u file argv) := by
  have B := I.toBase
  unfold catCallback
  split
  · exact Ends.status B _
  · rcases catCheck_ok B argv.tail (fun o ho => A.str (List.mem_of_mem_tail ho)) with ⟨st, h⟩ | ⟨h, h2⟩
    · rw [h, M.ok_bind]; exact Ends.status B _
    · rw [h, M.ok_bind]
      refine Ends.set (s := .processStart) (k := u.argsCount + 10) (B.keep ⟨rfl, rfl, rfl, rfl⟩ rfl rfl rfl rfl) rfl ?_ ⟨rfl, rfl⟩
      refine ⟨file, rfl, ?_⟩
      rw [hf]
      exact ⟨⟨argv, A.get, A.len, h2⟩, Nat.le_refl _⟩

theorem exec_xxd (H : Behaves E L) (I : Inv E L W k u) (A : Argv E L u.inBuf u.argsCount argv) (hf : file.process = some (.builtin .xxd)) :
    Ends E L (xxdCallback E u file argv) := by
  have B := I.toBase
  unfold xxdCallback
  split
  · exact Ends.status B _
  · next h =>
    obtain ⟨o, s, e1, -, e2, e3, e4⟩ := A.at (i := 1) (by omega)
    rw [e1, M.ok_bind, e2, M.ok_bind, B.find e3 (B.near e4), M.ok_bind]
    split
    · exact Ends.status B _
    · split
      · exact Ends.status B _
      · next id _ =>
        obtain ⟨d, h1, h2⟩ := H.get id u
        unfold callGet
        rw [h1]
        simp only
        refine Ends.set (s := .processStart) (k := 4 * d.length + 13) (B.keep ⟨rfl, rfl, rfl, rfl⟩ rfl rfl rfl rfl) rfl ?_ ⟨rfl, rfl⟩
        refine ⟨file, rfl, ?_⟩
        rw [hf]
        exact ⟨⟨d, rfl, rfl, h2, id, u, h1⟩, Nat.le_refl _⟩

theorem echoDecode_ok (A : Argv E L u.inBuf u.argsCount argv) (h : 1 < argv.length) :
    ∃ o buf n, echoDecode u argv = .ok ({ u with inBuf := buf }, o, n) ∧ buf.length = u.inBuf.length ∧ cNul ∈ buf.drop o := by
  obtain ⟨o, a, e1, -, e2, hn, -⟩ := A.at (i := 1) h
  obtain ⟨-, rest, g3⟩ := cstrAt_eq_ok e2
  have ho : (u.inBuf.take o).length = o := by
    have : o ≤ u.inBuf.length := by
      by_contra hc
      rw [List.drop_eq_nil_of_le (by omega)] at g3
      simp at g3
    simp [this]
  have hb : u.inBuf = u.inBuf.take o ++ (a ++ cNul :: rest) := by rw [← g3, List.take_append_drop]
  have hlen : strlenAt u.inBuf o = .ok a.length := by unfold strlenAt; rw [e2]; rfl
  have hdec := decodeInPlace_eq (u.inBuf.take o) a rest a.length hn
  rw [ho, ← hb] at hdec
  have hle := decodeSpec_length a
  rw [List.take_of_length_le hle] at hdec
  refine ⟨o, u.inBuf.take o ++ (decodeSpec a ++ (a ++ cNul :: rest).drop (decodeSpec a).length), (decodeSpec a).length, ?_, ?_, ?_⟩
  · unfold echoDecode
    rw [e1]
    simp only [M.ok_bind]
    rw [hlen]
    simp only [M.ok_bind]
    rw [hdec]
    rfl
  · have : u.inBuf.length = o + (a.length + (rest.length + 1)) := by
      have := congrArg List.length hb
      rw [List.length_append, ho] at this
      simpa using this
    rw [List.length_append, ho]
    simp; omega
  · rw [List.drop_append_of_le_length (by omega), List.drop_of_length_le (by omega), List.nil_append,
      List.drop_append_of_le_length hle]
    simp

theorem exec_echo (cfg : Roomy E) (H : Behaves E L) (I : Inv E L W k u) (S : Settled u) (A : Argv E L u.inBuf u.argsCount argv) :
    Ends E L (echoCallback E u argv) := by
  have B := I.toBase
  unfold echoCallback
  split
  · next h =>
    obtain ⟨o, s, e1, -, e2, e3, e4⟩ := A.at (i := 2) (by omega)
    rw [e1, M.ok_bind, e2, M.ok_bind]
    split
    · exact Ends.status B _
    · obtain ⟨o', s', e1', -, e2', e3', e4'⟩ := A.at (i := 3) (by omega)
      rw [e1', M.ok_bind, e2', M.ok_bind, B.find e3' (B.near e4'), M.ok_bind]
      split
      · exact Ends.status B _
      · split
        · exact Ends.status B _
        · next id _ =>
          obtain ⟨o, buf, n, h1, h2, -⟩ := echoDecode_ok A (by omega)
          rw [h1, M.ok_bind]
          simp only
          unfold callSet
          have B2 : Base E L W { u with inBuf := buf } := B.keep ⟨rfl, rfl, rfl, rfl⟩ h2 rfl rfl rfl
          obtain ⟨I2, S2⟩ := S.inv I (B2.emit (.setData id ((buf.drop o).take n))) rfl rfl rfl
          exact Ends.calls cfg I2 S2 (H.set id _ _ (I2.toBase.site S2))
  · next h =>
    obtain ⟨o, buf, n, h1, h2, h3⟩ := echoDecode_ok A (by omega)
    rw [h1, M.ok_bind]
    simp only
    have B2 : Base E L W { u with inBuf := buf } := B.keep ⟨rfl, rfl, rfl, rfl⟩ h2 rfl rfl rfl
    have : ∃ s, ptrStr { u with inBuf := buf } (.inBuf o) = .ok s := by
      show ∃ s, cstrAt buf o = .ok s
      unfold cstrAt
      rw [if_pos h3]
      exact ⟨_, rfl⟩
    obtain ⟨s, hs⟩ := this
    exact Ends.print B2 (by simp) hs
  · exact Ends.set (s := .reset) (k := 8) (B.keep ⟨rfl, rfl, rfl, rfl⟩ rfl rfl rfl rfl) rfl (Nat.le_refl 8) ⟨rfl, rfl⟩
  · exact Ends.status B _

/-- Calling the command. -/
theorem exec_inv {cb : Cb} {strs : List Str} (cfg : Roomy E) (H : Behaves E L) (I : Inv E L W k u) (S : Settled u)
    (A : Argv E L u.inBuf u.argsCount argv) (hp : Proper file) (hc : file.exec = some cb) : Ends E L (callExec E u file cb argv strs) := by
  unfold callExec
  obtain ⟨I2, S2⟩ := I.emit S (.exec cb strs)
  have A2 : Argv E L (u.emit (.exec cb strs)).inBuf (u.emit (.exec cb strs)).argsCount argv := A
  cases cb with
  | user id => exact Ends.calls cfg I2 S2 (H.exec id strs _ (I2.toBase.site S2))
  | builtin b =>
    have hpr := hp.process hc
    cases b with
    | help => exact exec_help I2 A2 hpr
    | ls => exact exec_ls I2 A2 hpr
    | cd => exact exec_cd I2 S2 A2
    | pwd => exact exec_pwd I2
    | cat => exact exec_cat I2 A2 hpr
    | xxd => exact exec_xxd H I2 A2 hpr
    | echo => exact exec_echo cfg H I2 S2 A2

/-- Dispatching the line. -/
theorem finish_inv (cfg : Roomy E) (H : Behaves E L) (I : Inv E L W k u) (S : Settled u) (A : Argv E L u.inBuf u.argsCount argv) :
    Ends E L (parseFinish E u) := by
  unfold parseFinish
  have hg : getArgs u = .ok argv := A.get
  rw [hg, M.ok_bind]
  split
  · exact ⟨u, W, k, rfl, I, S.parse, S.tab⟩
  · next h0 =>
    obtain ⟨strs, hs⟩ := A.all
    rw [hs, M.ok_bind]
    have hook : ∃ v W' j, callHook E u strs = .ok v ∧ Inv E L W' j v ∧ Settled v ∧ v.inBuf = u.inBuf ∧ v.argsCount = u.argsCount := by
      unfold callHook
      cases hh : E.hook with
      | none => exact ⟨u, W, k, rfl, I, S, rfl, rfl⟩
      | some f =>
        simp only
        obtain ⟨I2, S2⟩ := I.emit S (.hook strs)
        obtain ⟨v, W', j, e, i, s⟩ := calls_inv cfg _ (f strs u) W k _ (Nat.le_refl _) I2 (H.hook f hh strs u (I2.toBase.site S2))
        have F := runApis_frame _ e
        exact ⟨v, W', j, e, i, s S2, F.inBuf, by rw [F]; rfl⟩
    obtain ⟨v, W', j, e, I2, S2, h1, h2⟩ := hook
    rw [e, M.ok_bind]
    have A2 : Argv E L v.inBuf v.argsCount argv := by rw [h1, h2]; exact A
    obtain ⟨o, s, e1, -, e2, e3, e4⟩ := A2.at (i := 0) (by omega)
    rw [e1, M.ok_bind, e2, M.ok_bind, I2.toBase.find e3 (I2.toBase.near e4), M.ok_bind]
    cases hf : W'.file? s with
    | none => exact Ends.status I2.toBase _
    | some f =>
      simp only
      split
      · exact Ends.status I2.toBase _
      · next cb hcb => exact exec_inv cfg H I2 S2 A2 (I2.fits.files f (file?_files hf)).1 hcb

end

/-! ## A step of the parser -/

/-- The step succeeds, and the shell remains in the parser for fewer steps. -/
def Lexes (E : Env) (L : Nat) (W : World) (k : Nat) (m : M Ush) : Prop := ∃ v j, m = .ok v ∧ j < k ∧ Inv E L W j v ∧ isParse (next v) = true ∧ v.state ≠ .writeChar

theorem lex_prepare (I : Inv E L W k u) (hs : u.state = .parsePrepare) : Lexes E L W k (.ok (parseStart u)) := by
  obtain ⟨⟨n, c, hL, h1, h2⟩, h3⟩ := I.at hs (by decide)
  refine ⟨_, k - 1, rfl, by omega, Inv.of (s := .parseSearchArg) (I.toBase.keep ⟨rfl, rfl, rfl, rfl⟩ rfl rfl rfl rfl) rfl ?_, rfl, by unfold parseStart; simp⟩
  exact ⟨⟨n, c, Nat.zero_le _, hL, h1, h2⟩, Nat.le_refl _, Nat.zero_le _, fun _ => rfl, by show E.inSize + 1 ≤ k - 1 + 0; omega⟩

theorem lex_char (cfg : Roomy E) (H : Behaves E L) (I : Inv E L W k u)
    (hs : u.state = .parseSearchArg ∨ u.state = .parseQuoteArg ∨ u.state = .parseStandardArg) :
    Lexes E L W k (parseChar E u) ∨ Ends E L (parseChar E u) := by
  have P : ParseOk E L u u.state k := by
    have := I.live
    rcases hs with h | h | h <;> rw [next_of h (by decide)] at this <;> rw [h] <;> exact this
  obtain ⟨n, c, h1, hL, h2, h3⟩ := P.line
  have hn : n < u.inBuf.length := (List.getElem?_eq_some_iff.mp h2).1
  have hp : u.inPos < u.inBuf.length := by omega
  have hk : 2 ≤ k := by have := P.cost; have := I.sized.inLen; omega
  unfold parseChar
  rw [rd_ok hp, M.ok_bind]
  dsimp only
  split
  · right
    have ho := P.out
    have ho' : u.outPos < u.inBuf.length := by omega
    rw [putOut_ok _ (by exact ho'), M.ok_bind]
    have B2 : Base E L W ({ u with inPos := u.inPos + 1, inBuf := u.inBuf.set u.outPos cNul, outPos := u.outPos + 1, state := .resetPrompt } : Ush) :=
      I.toBase.keep ⟨rfl, rfl, rfl, rfl⟩ (by simp) rfl rfl rfl
    have I2 := Inv.of (s := .resetPrompt) (k := 7) B2 rfl (Nat.le_refl 7)
    have hc : u.argsCount ≤ (((u.inBuf.set u.outPos cNul).take (u.outPos + 1)).drop 0).count cNul := by
      have h4 := count_put u.inBuf u.outPos cNul ho'
      rw [if_pos rfl] at h4
      have h6 := P.args
      rw [List.drop_zero]
      split at h6 <;> omega
    obtain ⟨argv, g1, g2, g3⟩ := getArgsLoop_ok _ _ _ _ hc
    exact finish_inv cfg H I2 (calm_of (s := .resetPrompt) rfl (by simp)) ⟨g1, g2, fun o h => let ⟨s, h1, h2⟩ := g3 o h; ⟨s, h1, by split at ho <;> omega⟩, by simp [I.sized.inLen]⟩
  · next hnl =>
    left
    have P2 := ParseAt.skip P (List.getElem?_eq_getElem hp) hnl
    have ho := P.out
    obtain ⟨v, e, X⟩ := parseCharStandard_ok (u := { u with inPos := u.inPos + 1 }) (u.inBuf[u.inPos]) P2 (by dsimp only; omega) (by dsimp only; omega) hs
    rw [e]
    have B2 : Base E L W v := I.toBase.keep ⟨X.fs.nodes, X.fs.root, X.fs.commands, X.fs.current⟩ X.len X.out X.wbuf X.wsize
    obtain ⟨h4, h5⟩ := X.live
    refine ⟨v, k - 1, rfl, by omega, ?_, ?_, ?_⟩
    · rcases h4 with h | h | h <;> refine Inv.of B2 h ?_ <;> rw [h] at h5 <;> exact h5
    · rcases h4 with h | h | h <;> rw [next_of h (by decide)] <;> rfl
    · rcases h4 with h | h | h <;> rw [h] <;> decide

end Ush
