import Verif.Spec.Store
import Verif.Proof.Lines
import Verif.Props.Terminal
/-!
# Files as memory
-/
namespace Ush
open Spec Props
variable {E : Env} {A : App}

theorem push_push (p q : Str) (ws : List Str) : push p (push q ws) = push (p ++ q) ws := by cases ws <;> simp [push]

theorem digit_plain (n : Nat) (h : n < 16) : isText (digit n) = true ∧ isErase (digit n) = false ∧ digit n ≠ cNul ∧ digit n ≠ cQuote ∧ digit n ≠ cBackslash := by
  revert n; decide

theorem lex_encode (d s : Str) : lex .quoted false (encode d ++ cQuote :: s) = push (encode d) (lex .bare false s) := by
  induction d with
  | nil =>
    have := lex_ne .bare (by simp) s false
    cases hl : lex .bare false s with
    | nil => exact absurd hl this
    | cons w ws => simp [encode, lex_quoted_cons, hl, push]
  | cons b d ih =>
    have e : encode (b :: d) = cBackslash :: cX :: digit (b.toNat / 16) :: digit (b.toNat % 16) :: encode d := rfl
    have h1 := digit_plain (b.toNat / 16) (by have := b.toNat_lt; omega)
    have h2 := digit_plain (b.toNat % 16) (by omega)
    rw [e]
    simp only [List.cons_append]
    rw [lex_quoted_cons, if_neg (by decide), if_pos rfl]
    show push (if cX = cX then [cBackslash, cX] else [cX]) (lex .quoted false _) = _
    rw [if_pos rfl, lex_quoted_cons, if_neg h1.2.2.2.1, if_neg h1.2.2.2.2, lex_quoted_cons, if_neg h2.2.2.2.1, if_neg h2.2.2.2.2, ih, push_push, push_push, push_push]
    rfl

theorem lex_quoteArg (p : Str) : lex .gap false (quoteArg p) = [p] := by
  have : quoteArg p = cQuote :: (p.flatMap (fun c => if c = cQuote ∨ c = cBackslash then [cBackslash, c] else [c]) ++ cQuote :: []) := by simp [quoteArg]
  rw [this, lex_gap_cons, if_neg (by decide), if_pos rfl, lex_quoted_body]
  simp [lex, push]

theorem words_write (p d : Str) (hp : cNul ∉ p) (hd : cNul ∉ encode d) : words (Access.line (.write p d)) = [b!"echo", encode d, b!">", p] := by
  have e : Access.line (.write p d) = b!"echo \"" ++ (encode d ++ cQuote :: (b!" > " ++ quoteArg p)) := by
    simp [Access.line]
  have h1 : ∀ s, lex .gap false (b!"echo \"" ++ s) = push b!"echo" ([] :: lex .quoted false s) := fun s => rfl
  have h2 : lex .bare false (b!" > " ++ quoteArg p) = [[], b!">", p] := by
    show [] :: push [62] ([] :: lex .gap false (quoteArg p)) = _
    rw [lex_quoteArg]; rfl
  unfold words
  rw [e, h1, lex_encode, h2]
  have : push b!"echo" ([] :: push (encode d) [[], b!">", p]) = [b!"echo", encode d, b!">", p] := by simp [push]
  rw [this]
  exact cut_self (by intro w hw; simp at hw; rcases hw with rfl | rfl | rfl | rfl; exacts [by decide, hd, by decide, hp])

theorem words_dump (p : Str) (hp : cNul ∉ p) : words (Access.line (.dump p)) = [b!"xxd", p] := by
  show cut (push _ (push _ (push _ ([] :: lex .gap false (quoteArg p))))) = _
  rw [lex_quoteArg]
  exact cut_self (ws := [b!"xxd", p]) (by intro w hw; simp at hw; rcases hw with rfl | rfl; exacts [by decide, hp])

theorem words_print (p : Str) (hp : cNul ∉ p) : words (Access.line (.print p)) = [b!"cat", p] := by
  show cut (push _ (push _ (push _ ([] :: lex .gap false (quoteArg p))))) = _
  rw [lex_quoteArg]
  exact cut_self (ws := [b!"cat", p]) (by intro w hw; simp at hw; rcases hw with rfl | rfl; exacts [by decide, hp])

/-- Characters that are simply typed. -/
def Typed (s : Str) : Prop := ∀ c ∈ s, isText c = true ∧ isErase c = false ∧ c ≠ cNul

theorem Typed.append {s t : Str} (h1 : Typed s) (h2 : Typed t) : Typed (s ++ t) := fun c hc => (List.mem_append.1 hc).elim (h1 c) (h2 c)

theorem typed_quoteArg {p : Str} (h : Typed p) : Typed (quoteArg p) := by
  intro c hc
  simp only [quoteArg, List.mem_cons, List.mem_append, List.mem_flatMap, List.not_mem_nil, or_false] at hc
  rcases hc with (rfl | ⟨b, hb, hc⟩) | rfl
  · decide
  · split at hc
    · rcases List.mem_cons.1 hc with rfl | hc
      · decide
      · rw [List.mem_singleton.1 hc]; exact h b hb
    · rw [List.mem_singleton.1 hc]; exact h b hb
  · decide

theorem typed_encode (d : Str) : Typed (encode d) := by
  intro c hc
  simp only [encode, List.mem_flatMap] at hc
  obtain ⟨b, -, hc⟩ := hc
  have h1 := digit_plain (b.toNat / 16) (by have := b.toNat_lt; omega)
  have h2 := digit_plain (b.toNat % 16) (by omega)
  rcases List.mem_append.1 hc with hc | hc
  · have : ∀ c ∈ b!"\\x", isText c = true ∧ isErase c = false ∧ c ≠ cNul := by decide
    exact this c hc
  · rcases List.mem_cons.1 hc with rfl | hc
    · exact ⟨h1.1, h1.2.1, h1.2.2.1⟩
    · rw [List.mem_singleton.1 hc]; exact ⟨h2.1, h2.2.1, h2.2.2.1⟩

theorem typed_line {a : Access} (h : Typed a.path) : Typed a.line := by
  have hs : ∀ s : Str, (s.all fun c => isText c && !isErase c && c != cNul) = true → Typed s := fun s hs c hc => by
    have := List.all_eq_true.1 hs c hc
    simpa [Bool.and_eq_true, and_assoc] using this
  cases a with
  | write p d => exact (((hs _ (by decide)).append (typed_encode d)).append (hs _ (by decide))).append (typed_quoteArg h)
  | dump p => exact (hs _ (by decide)).append (typed_quoteArg h)
  | print p => exact (hs _ (by decide)).append (typed_quoteArg h)

theorem edit_typed {k : Str} : ∀ (line : Str), Typed k → edit line k = line ++ k := by
  induction k with
  | nil => intro line _; simp [edit]
  | cons c k ih =>
    intro line h
    rw [edit_cons, (h c (by simp)).2.1, ih _ (fun d hd => h d (by simp [hd]))]
    simp

theorem typeLog_typed {k : Str} : ∀ (line : Str), Typed k → shown (typeLog line k) = k ∧ ∀ id d, Event.setData id d ∉ typeLog line k := by
  induction k with
  | nil => intro line _; simp [typeLog, shown]
  | cons c k ih =>
    intro line h
    obtain ⟨-, hc, h0⟩ := h c (by simp)
    obtain ⟨h1, h2⟩ := ih (edit line [c]) (fun d hd => h d (by simp [hd]))
    unfold typeLog
    rw [hc, if_neg h0]
    constructor
    · have : ∀ l, shown (Event.inp c :: outs [c] ++ l) = c :: shown l := fun l => rfl
      simp only [Bool.false_eq_true, if_false]
      rw [this, h1]
    · intro id d hm
      simp [outs] at hm
      exact h2 id d hm

/-- Text keys need no permission. -/
theorem okAll_text : ∀ (k : Str) (t : Term) (line : Str), t.ed = ⟨line, .none⟩ → (∀ c ∈ k, isText c = true) →
    (∀ p, p <+: k → (edit line p).length + 1 < E.inSize) →
    ∀ cs, Term.OkAll E A ⟨t.world, ⟨edit line k, .none⟩, t.log ++ typeLog line k⟩ cs → t.OkAll E A (k ++ cs) := by
  intro k
  induction k with
  | nil =>
    intro t line he _ _ cs h
    obtain ⟨w, e, l⟩ := t
    subst he
    simpa [typeLog, edit] using h
  | cons c k ih =>
    intro t line he ht hf cs h
    have hc := ht c (by simp)
    have hk := type_key (A := A) he hc (hf [c] (by simp))
    obtain ⟨h1, h2, h3, -⟩ := text_plain hc
    refine ⟨?_, ?_⟩
    · unfold Term.Ok
      rw [if_neg h1, if_neg h2, h3]; simp
    · refine ih (t.key E A c) (edit line [c]) (by rw [hk]) (fun d hd => ht d (by simp [hd])) (fun p hp => hf (c :: p) (by simpa using hp)) cs ?_
      have e3 : (t.key E A c).log ++ typeLog (edit line [c]) k = t.log ++ typeLog line (c :: k) := by rw [hk, typeLog]; simp
      rw [e3, show (t.key E A c).world = t.world by rw [hk]]
      exact h

theorem enter_ok {t : Term} {k : Str} (he : t.ed = {}) (hk : Types E E.inSize k)
    (ok : lineOk E A t.world cCr (t.log ++ typeLog [] k ++ .inp cCr :: outs crlf) (words (edit [] k))) (cs : List UInt8)
    (h : (t.enter E A k).OkAll E A cs) : t.OkAll E A (k ++ [cCr] ++ cs) := by
  rw [List.append_assoc]
  have hs := sent_fit (hk.fits k (List.prefix_refl _))
  refine okAll_text k t [] he hk.text hk.fits _ ⟨?_, ?_⟩
  · unfold Term.Ok
    rw [if_neg (by decide), if_neg (by decide), if_pos (by simp [isEnter])]
    exact ⟨by have := hk.fits k (List.prefix_refl _); omega, by rw [hs]; exact ok⟩
  · have e : Term.key E A ⟨t.world, ⟨edit [] k, .none⟩, t.log ++ typeLog [] k⟩ cCr = t.enter E A k := by
      unfold Term.key Term.enter
      rw [if_neg (by decide), if_neg (by decide)]
      have : (isEnter cCr && EscSt.none == EscSt.none) = true := by decide
      simp only [this, if_true, Term.add]
      have e2 : outs (enterEcho cCr) = outs crlf := rfl
      rw [e2, hs]; simp
    rw [e]; exact h

theorem stored_append (id : Nat) (l k : List Event) (h : ∀ d, Event.setData id d ∉ k) : stored id (l ++ k) = stored id l := by
  unfold stored
  rw [List.foldl_append]
  generalize List.foldl _ _ l = s
  induction k generalizing s with
  | nil => rfl
  | cons e k ih =>
    have hk := ih (fun d hd => h d (by simp [hd]))
    rw [List.foldl_cons]
    cases e with
    | setData i d =>
      by_cases hi : i = id
      · subst hi; exact absurd (List.mem_cons_self) (h d)
      · simp only [if_neg hi]; exact hk s
    | _ => exact hk s

theorem stored_set (id : Nat) (l k : List Event) (d : Str) (h : ∀ d, Event.setData id d ∉ k) : stored id (l ++ .setData id d :: k) = d := by
  have := stored_append id (l ++ [.setData id d]) k h
  rw [List.append_assoc, List.singleton_append] at this
  rw [this]
  simp [stored]

theorem shown_append (l k : List Event) : shown (l ++ k) = shown l ++ shown k := by simp [shown]

theorem shown_outs (s : Str) : shown (outs s) = s := by
  induction s with
  | nil => rfl
  | cons c s ih => show c :: shown (outs s) = _; rw [ih]

theorem shown_hook (argv : List Str) : shown (hookEvents E argv) = [] := by
  unfold hookEvents; split <;> rfl

theorem set_hook (argv : List Str) (id : Nat) (d : Str) : Event.setData id d ∉ hookEvents E argv := by
  unfold hookEvents; split <;> simp

theorem set_outs (s : Str) (id : Nat) (d : Str) : Event.setData id d ∉ outs s := by
  simp [outs]

theorem start_output (W : World) : (Talk.start W cCr).output = [] := rfl

/-- One access. -/
theorem access_step {I : Nat → Prop} (hS : A.Stores I) (room : 0 < E.xxdColumns ∧ 10 < E.outSize ∧ 3 * E.xxdColumns + 1 < E.outSize)
    {t : Term} (tools : t.world.Tools E) (wok : t.world.Ok E) (m : Nat → Str) (hm : ∀ id, I id → stored id t.log = m id) (hlen : ∀ id, I id → (m id).length ≤ 16 ^ 8)
    {a : Access} (ok : a.Ok E t.world I) :
    lineOk E A t.world cCr (t.log ++ typeLog [] a.line ++ .inp cCr :: outs crlf) (words a.line) ∧
    (t.enter E A a.line).world = t.world ∧
    shown (t.enter E A a.line).log = shown t.log ++ (a.line ++ crlf ++ a.answer E t.world m ++ t.world.prompt E) ∧
    ∀ id, I id → stored id (t.enter E A a.line).log = a.memory t.world m id := by
  obtain ⟨f, id, hf, hg, hs, hI⟩ := ok.cell.file
  have ht := typed_line ok.cell.typed
  have hnp : cNul ∉ a.path := fun h => (ok.cell.typed _ h).2.2 rfl
  have he := edit_typed [] ht
  have hcell : t.world.cell a.path = id := by simp [World.cell, hf, hg]
  obtain ⟨t1, t2⟩ := typeLog_typed [] ht
  have hq : ∀ id, I id → ∀ k, (∀ d, Event.setData id d ∉ k) → stored id (t.log ++ typeLog [] a.line ++ .inp cCr :: outs crlf ++ k) = m id := fun id hI k hk => by
    rw [List.append_assoc, List.append_assoc, stored_append, hm id hI]
    intro d hd
    rw [List.mem_append, List.mem_append, List.mem_cons] at hd
    rcases hd with hd | (hd | hd) | hd
    · exact t2 _ _ hd
    · cases hd
    · exact set_outs _ _ _ hd
    · exact hk d hd
  have hl : ∀ k, (∀ d, Event.setData id d ∉ k) → A.get id (t.log ++ typeLog [] a.line ++ .inp cCr :: outs crlf ++ k) = m id := fun k hk => by
    rw [hS.get id hI, hq id hI k hk]
  have hsh : ∀ k, shown (t.log ++ typeLog [] a.line ++ .inp cCr :: outs crlf ++ k) = shown t.log ++ (a.line ++ crlf ++ shown k) := fun k => by
    have : shown (.inp cCr :: outs crlf) = crlf := rfl
    rw [shown_append, shown_append, shown_append, this, t1]; simp
  have fin : ∀ X : List Event, lineAnswer E A t.world cCr (t.log ++ typeLog [] a.line ++ .inp cCr :: outs crlf) (words a.line) = (hookEvents E (words a.line) ++ X, t.world) →
      shown X = a.answer E t.world m ++ t.world.prompt E →
      (∀ i, I i → stored i (t.log ++ typeLog [] a.line ++ .inp cCr :: outs crlf ++ (hookEvents E (words a.line) ++ X)) = a.memory t.world m i) →
      (t.enter E A a.line).world = t.world ∧
      shown (t.enter E A a.line).log = shown t.log ++ (a.line ++ crlf ++ a.answer E t.world m ++ t.world.prompt E) ∧
      ∀ id, I id → stored id (t.enter E A a.line).log = a.memory t.world m id := by
    intro X hX h1 h2
    unfold Term.enter
    rw [he]
    simp only [List.nil_append]
    rw [hX]
    refine ⟨rfl, ?_, h2⟩
    rw [hsh, shown_append, shown_hook, h1]; simp
  generalize t.log ++ typeLog [] a.line ++ .inp cCr :: outs crlf = l at hq hl hsh fin ⊢
  have hdr : ∀ argv, ∀ (e : Event), (∀ d, e ≠ .setData id d) → A.get id (l ++ hookEvents E argv ++ [e]) = m id := fun argv e h => by
    rw [List.append_assoc, hl]
    intro d hd
    rcases List.mem_append.1 hd with hd | hd
    · exact set_hook _ _ _ hd
    · exact h d (List.mem_singleton.1 hd).symm
  cases a with
  | write p d =>
    obtain ⟨g, hge, hgx⟩ := tools.echo
    change t.world.file? p = some f at hf
    have hc : t.world.cell p = id := hcell
    rw [words_write p d hnp (fun h => (typed_encode d _ h).2.2 rfl)] at fin ⊢
    refine ⟨?_, fin (.exec (.builtin .echo) [b!"echo", encode d, b!">", p] :: .setData id d :: outs (t.world.prompt E)) ?_ ?_ ?_⟩
    · simp only [lineOk, hS.hook, Talk.run, Talk.ValidRun, Talk.start, hge, fileOk, hgx, builtinOk, hf, hs, Option.bind_some, hS.set id hI]
      exact ⟨trivial, wok, tools.near.1, fun _ => ⟨ok.cell.near, trivial, wok⟩⟩
    · have hw : (Talk.start t.world cCr).world = t.world := rfl
      simp only [lineAnswer, hS.hook, Talk.run, hw, hge, fileAnswer, hgx, builtinAnswer, hf, hs, hS.set id hI, decodeSpec_encode]
      rw [if_neg (by simp)]
      simp only [start_output, tells]
      simp
    · show shown (outs _) = _
      rw [shown_outs]; rfl
    · intro i hi
      have e : ∀ h : List Event, l ++ (h ++ .exec (.builtin .echo) [b!"echo", encode d, b!">", p] :: .setData id d :: outs (t.world.prompt E)) =
          (l ++ (h ++ [.exec (.builtin .echo) [b!"echo", encode d, b!">", p]])) ++ (.setData id d :: outs (t.world.prompt E)) := by simp
      rw [e]
      show _ = if i = t.world.cell p then d else m i
      rw [hc]
      by_cases hi' : i = id
      · subst hi'
        rw [if_pos rfl, stored_set]
        exact fun _ => set_outs _ _ _
      · rw [if_neg hi', stored_append, hq i hi]
        · intro d' hd
          rcases List.mem_append.1 hd with hd | hd
          · exact set_hook _ _ _ hd
          · cases List.mem_singleton.1 hd
        · intro d' hd
          rcases List.mem_cons.1 hd with hd | hd
          · cases hd; exact hi' rfl
          · exact set_outs _ _ _ hd
  | dump p =>
    obtain ⟨g, hge, hgx, hgp⟩ := tools.xxd
    change t.world.file? p = some f at hf
    have hc : t.world.cell p = id := hcell
    rw [words_dump p hnp] at fin ⊢
    have hd := hdr [b!"xxd", p] (.exec (.builtin .xxd) [b!"xxd", p]) (fun _ => nofun)
    refine ⟨?_, fin (.exec (.builtin .xxd) [b!"xxd", p] :: .getData id :: outs (xxdText E.xxdColumns (m id) ++ t.world.prompt E)) ?_ ?_ ?_⟩
    · simp only [lineOk, hS.hook, Talk.run, Talk.ValidRun, Talk.start, hge, fileOk, hgx, builtinOk, hf, hg, Option.bind_some, List.map_nil, List.append_nil, hd]
      exact ⟨trivial, wok, tools.near.2.1, ok.cell.near, hgp, ⟨room.2.1, room.2.2, .inl room.1⟩, hlen id hI⟩
    · simp only [lineAnswer, hS.hook, Talk.run, hge, fileAnswer, hgx, builtinAnswer, hf, hg, List.map_nil, List.append_nil, Talk.start, hd, tells]
      simp
    · show shown (outs _) = _
      rw [shown_outs]; show _ = xxdText _ (m (t.world.cell p)) ++ _; rw [hc]
    · intro i hi
      refine hq i hi _ fun d' hd => ?_
      rcases List.mem_append.1 hd with hd | hd
      · exact set_hook _ _ _ hd
      · simp only [List.mem_cons, reduceCtorEq, false_or] at hd
        exact set_outs _ _ _ hd
  | print p =>
    obtain ⟨g, hge, hgx, hgp⟩ := tools.cat
    change t.world.file? p = some f at hf
    have hc : t.world.cell p = id := hcell
    rw [words_print p hnp] at fin ⊢
    have hd := hdr [b!"cat", p] (.exec (.builtin .cat) [b!"cat", p]) (fun _ => nofun)
    refine ⟨?_, fin (.exec (.builtin .cat) [b!"cat", p] :: .getData id :: outs (m id ++ t.world.prompt E)) ?_ ?_ ?_⟩
    · simp only [lineOk, hS.hook, Talk.run, Talk.ValidRun, Talk.start, hge, fileOk, hgx, builtinOk]
      exact ⟨trivial, wok, tools.near.2.2, hgp, ok.cell.near, fun _ => trivial⟩
    · have hce : catError t.world [p] = none := by simp [catError, hf, hg]
      simp only [lineAnswer, hS.hook, Talk.run, hge, fileAnswer, hgx, builtinAnswer, List.map_nil, List.append_nil, Talk.start, hce, catAll, hf, hg, Option.bind_some, hd, catLog]
      simp [outs]
    · show shown (outs _) = _
      rw [shown_outs]; show _ = m (t.world.cell p) ++ _; rw [hc]
    · intro i hi
      refine hq i hi _ fun d' hd => ?_
      rcases List.mem_append.1 hd with hd | hd
      · exact set_hook _ _ _ hd
      · simp only [List.mem_cons, reduceCtorEq, false_or] at hd
        exact set_outs _ _ _ hd

theorem access_types {W : World} {I : Nat → Prop} {a : Access} (ok : a.Ok E W I) : Types E E.inSize a.line := by
  have ht := typed_line ok.cell.typed
  refine ⟨fun c hc => (ht c hc).1, fun p hp => ?_, ?_⟩
  · rw [edit_typed [] (fun c hc => ht c (hp.subset hc))]
    have := hp.length_le
    have := ok.fits
    simp; omega
  · rw [edit_typed [] ht]
    have := ok.fits
    simp; omega

/-- Any accesses. -/
theorem access_run {I : Nat → Prop} (hS : A.Stores I) (room : 0 < E.xxdColumns ∧ 10 < E.outSize ∧ 3 * E.xxdColumns + 1 < E.outSize) (W : World)
    (tools : W.Tools E) (wok : W.Ok E) : ∀ (as : List Access) (t : Term) (m : Nat → Str), t.world = W → t.ed = {} → (∀ id, I id → stored id t.log = m id) →
    (∀ id, I id → (m id).length ≤ 16 ^ 8) → (∀ a ∈ as, a.Ok E W I) →
    t.OkAll E A (entered (as.map (·.line))) ∧ (t.keys E A (entered (as.map (·.line)))).world = W ∧ (t.keys E A (entered (as.map (·.line)))).ed = {} ∧
    shown (t.keys E A (entered (as.map (·.line)))).log = shown t.log ++ screen E W m as ∧
    ∀ id, I id → stored id (t.keys E A (entered (as.map (·.line)))).log = memory W m as id := by
  intro as
  induction as with
  | nil => intro t m hw he hm _ _; exact ⟨trivial, hw, he, (List.append_nil _).symm, hm⟩
  | cons a as ih =>
    intro t m hw he hm hlen hok
    subst hw
    have oka := hok a (by simp)
    obtain ⟨s1, s2, s3, s4⟩ := access_step hS room tools wok m hm hlen oka
    obtain ⟨i1, i2, i3, i4, i5⟩ := ih (t.enter E A a.line) (a.memory t.world m) s2 rfl s4 (by
      intro id hI
      cases a with
      | write p d =>
        show (if id = t.world.cell p then d else m id).length ≤ _
        split
        · exact oka.size p d rfl
        · exact hlen id hI
      | dump p => exact hlen id hI
      | print p => exact hlen id hI) (fun b hb => hok b (by simp [hb]))
    have e : entered ((a :: as).map (·.line)) = a.line ++ [cCr] ++ entered (as.map (·.line)) := by simp [entered]
    have hT := access_types oka
    have hk := (enter_keys (E := E) (A := A) (L := E.inSize) (N := 0) he hT (entered (as.map (·.line)))).1
    rw [e, hk]
    refine ⟨enter_ok he hT ?_ _ i1, i2, i3, ?_, i5⟩
    · rw [edit_typed [] (typed_line oka.cell.typed)]; exact s1
    · rw [i4, s3]; simp [screen]

end Ush
