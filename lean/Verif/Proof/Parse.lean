import Verif.Spec.Lex
import Verif.Proof.Write
/-!
# The parser computes the words of the line
-/
namespace Ush
open Spec

/-- A word followed by NUL, for every word. -/
def packed (ws : List Str) : List UInt8 := ws.flatMap (fun w => w ++ [cNul])

@[simp] theorem packed_nil : packed [] = [] := rfl
@[simp] theorem packed_cons (w : Str) (ws : List Str) : packed (w :: ws) = w ++ cNul :: packed ws := by simp [packed]

theorem packed_push (p : Str) (ws : List Str) (h : ws ≠ []) : packed (push p ws) = p ++ packed ws := by
  cases ws with
  | nil => exact absurd rfl h
  | cons w ws => simp [push]

theorem push_ne (p : Str) (ws : List Str) : push p ws ≠ [] := by cases ws <;> simp [push]

theorem push_length (p : Str) (ws : List Str) (h : ws ≠ []) : (push p ws).length = ws.length := by
  cases ws with
  | nil => exact absurd rfl h
  | cons w ws => rfl

theorem lex_ne (m : Mode) (hm : m ≠ .gap) : ∀ (s : Str) (e : Bool), lex m e s ≠ [] := by
  intro s
  induction s generalizing m with
  | nil => intro e; cases m <;> simp_all [lex]
  | cons c s ih =>
    intro e
    cases m with
    | gap => exact absurd rfl hm
    | bare =>
      cases e <;> simp only [lex]
      · split
        · simp
        · split
          · exact ih .quoted (by simp) _
          · split
            · exact ih .bare (by simp) _
            · exact push_ne _ _
      · exact push_ne _ _
    | quoted =>
      cases e <;> simp only [lex]
      · split
        · exact ih .bare (by simp) _
        · split
          · exact ih .quoted (by simp) _
          · exact push_ne _ _
      · exact push_ne _ _

/-- The parser state of a mode. -/
def modeSt : Mode → St
  | .gap => .parseSearchArg
  | .bare => .parseStandardArg
  | .quoted => .parseQuoteArg

theorem modeSt_inner {E : Env} {u : Ush} {m : Mode} (h : u.state = modeSt m) : innerStep E u = parseChar E u := by
  unfold innerStep; rw [h]; cases m <;> rfl

/-- Words that are complete, counting the current one as already counted. -/
def newArgs (m : Mode) (ws : List Str) : Nat := if m = .gap then ws.length else ws.length - 1

/-- The fields the parser changes. -/
def parsed (u : Ush) (buf : List UInt8) (ip op ac : Nat) (e : Bool) (st : St) : Ush :=
  { u with inBuf := buf, inPos := ip, outPos := op, argsCount := ac, escapeFlag := e, state := st }

/-- What one character does: new mode and flag, bytes written, new arguments. -/
def pstep : Mode → Bool → UInt8 → Mode × Bool × List UInt8 × Nat
  | .gap, _, c =>
    if c = cSpace then (.gap, false, [], 0)
    else if c = cQuote then (.quoted, false, [], 1)
    else if c = cBackslash then (.bare, true, [], 1)
    else (.bare, false, [c], 1)
  | .bare, true, c => (.bare, false, if c = cX then [cBackslash, c] else [c], 0)
  | .quoted, true, c => (.quoted, false, if c = cX then [cBackslash, c] else [c], 0)
  | .bare, false, c =>
    if c = cSpace then (.gap, false, [cNul], 0)
    else if c = cQuote then (.quoted, false, [], 0)
    else if c = cBackslash then (.bare, true, [], 0)
    else (.bare, false, [c], 0)
  | .quoted, false, c =>
    if c = cQuote then (.bare, false, [], 0)
    else if c = cBackslash then (.quoted, true, [], 0)
    else (.quoted, false, [c], 0)

theorem lex_gap_cons (e : Bool) (c : UInt8) (s : Str) : lex .gap e (c :: s) =
    if c = cSpace then lex .gap false s else if c = cQuote then lex .quoted false s
    else if c = cBackslash then lex .bare true s else push [c] (lex .bare false s) := by cases e <;> rfl

theorem lex_bare_cons (c : UInt8) (s : Str) : lex .bare false (c :: s) =
    if c = cSpace then [] :: lex .gap false s else if c = cQuote then lex .quoted false s
    else if c = cBackslash then lex .bare true s else push [c] (lex .bare false s) := rfl

theorem lex_quoted_cons (c : UInt8) (s : Str) : lex .quoted false (c :: s) =
    if c = cQuote then lex .bare false s else if c = cBackslash then lex .quoted true s
    else push [c] (lex .quoted false s) := rfl

theorem pstep_lex (m : Mode) (e : Bool) (hg : m = .gap → e = false) (c : UInt8) (s : Str) :
    packed (lex m e (c :: s)) = (pstep m e c).2.2.1 ++ packed (lex (pstep m e c).1 (pstep m e c).2.1 s) ∧
    newArgs m (lex m e (c :: s)) = (pstep m e c).2.2.2 + newArgs (pstep m e c).1 (lex (pstep m e c).1 (pstep m e c).2.1 s) := by
  have hb := fun e => lex_ne .bare (by simp) s e
  have hq := fun e => lex_ne .quoted (by simp) s e
  have hbl := fun e => List.length_pos_iff.mpr (hb e)
  have hql := fun e => List.length_pos_iff.mpr (hq e)
  have b0 := hbl false; have b1 := hbl true; have q0 := hql false; have q1 := hql true
  cases m with
  | gap =>
    rw [lex_gap_cons]
    simp only [pstep]
    by_cases h1 : c = cSpace
    · simp [h1, newArgs]
    · by_cases h2 : c = cQuote
      · simp only [if_neg h1, if_pos h2, newArgs, List.nil_append, true_and, reduceCtorEq, if_true, if_false]; omega
      · by_cases h3 : c = cBackslash
        · simp only [if_neg h1, if_neg h2, if_pos h3, newArgs, List.nil_append, true_and, reduceCtorEq, if_true, if_false]; omega
        · simp only [if_neg h1, if_neg h2, if_neg h3, newArgs, reduceCtorEq, if_true, if_false, packed_push _ _ (hb false),
            push_length _ _ (hb false), true_and]; omega
  | bare =>
    cases e with
    | true =>
      simp only [lex, pstep, newArgs, packed_push _ _ (hb false), push_length _ _ (hb false), reduceCtorEq, if_false]
      refine ⟨?_, by omega⟩
      by_cases h : c = cX
      · subst h; rfl
      · rw [if_neg h, if_neg h]
    | false =>
      rw [lex_bare_cons]
      simp only [pstep]
      by_cases h1 : c = cSpace
      · simp [h1, newArgs]
      · by_cases h2 : c = cQuote
        · simp [if_neg h1, if_pos h2, newArgs]
        · by_cases h3 : c = cBackslash
          · simp [if_neg h1, if_neg h2, if_pos h3, newArgs]
          · simp [if_neg h1, if_neg h2, if_neg h3, newArgs, packed_push _ _ (hb false), push_length _ _ (hb false)]
  | quoted =>
    cases e with
    | true =>
      simp only [lex, pstep, newArgs, packed_push _ _ (hq false), push_length _ _ (hq false), reduceCtorEq, if_false]
      refine ⟨?_, by omega⟩
      by_cases h : c = cX
      · subst h; rfl
      · rw [if_neg h, if_neg h]
    | false =>
      rw [lex_quoted_cons]
      simp only [pstep]
      by_cases h2 : c = cQuote
      · simp [if_pos h2, newArgs]
      · by_cases h3 : c = cBackslash
        · simp [if_neg h2, if_pos h3, newArgs]
        · simp [if_neg h2, if_neg h3, newArgs, packed_push _ _ (hq false), push_length _ _ (hq false)]

theorem pstep_gap (m : Mode) (e : Bool) (c : UInt8) : (pstep m e c).1 = .gap → (pstep m e c).2.1 = false := by
  cases m <;> cases e <;> simp only [pstep] <;> (repeat' split) <;> simp

theorem putOut_parsed (u : Ush) (O G r : List UInt8) (ip ac : Nat) (e : Bool) (st : St) (x : UInt8) (hG : G ≠ []) :
    putOut (parsed u (O ++ (G ++ r)) ip O.length ac e st) x =
      .ok (parsed u (O ++ [x] ++ (G.drop 1 ++ r)) ip (O ++ [x]).length ac e st) := by
  cases G with
  | nil => exact absurd rfl hG
  | cons g G =>
    have h : putOut (parsed u (O ++ (g :: G ++ r)) ip O.length ac e st) x =
        wr (O ++ g :: (G ++ r)) O.length x >>= fun b => .ok (parsed u b ip (O.length + 1) ac e st) := rfl
    rw [h, wr_append_length]
    simp

theorem parseEscaped_parsed (u : Ush) (O G r : List UInt8) (ip ac : Nat) (e : Bool) (st : St) (c : UInt8) (hG : 2 ≤ G.length) :
    parseEscaped (parsed u (O ++ (G ++ r)) ip O.length ac e st) c =
      .ok (parsed u (O ++ (if c = cX then [cBackslash, c] else [c]) ++ (G.drop (if c = cX then 2 else 1) ++ r)) ip
        (O ++ (if c = cX then [cBackslash, c] else [c])).length ac false st) := by
  have h0 : G ≠ [] := by intro h; rw [h] at hG; simp at hG
  have h1 : G.drop 1 ≠ [] := by
    intro h
    have := congrArg List.length h
    simp at this; omega
  unfold parseEscaped
  by_cases h : c = cX
  · rw [if_pos h, if_pos h, if_pos h, putOut_parsed _ _ _ _ _ _ _ _ _ h0, M.ok_bind, putOut_parsed _ _ _ _ _ _ _ _ _ h1, M.ok_bind]
    simp [parsed]
  · rw [if_neg h, if_neg h, if_neg h, M.pure_eq, M.ok_bind, putOut_parsed _ _ _ _ _ _ _ _ _ h0, M.ok_bind]
    simp [parsed]

/-- One character of a line. -/
theorem parseChar_step (E : Env) (u : Ush) (m : Mode) (e : Bool) (O G r : List UInt8) (ac : Nat) (c : UInt8)
    (hg : m = .gap → e = false) (hr : e = true → G ≠ []) (h1 : c ≠ cLf) (h2 : c ≠ cCr) :
    ∃ G', parseChar E (parsed u (O ++ (G ++ c :: r)) (O.length + G.length) O.length ac e (modeSt m)) =
      .ok (parsed u (O ++ (pstep m e c).2.2.1 ++ (G' ++ r)) ((O ++ (pstep m e c).2.2.1).length + G'.length)
        (O ++ (pstep m e c).2.2.1).length (ac + (pstep m e c).2.2.2) (pstep m e c).2.1 (modeSt (pstep m e c).1)) ∧
      ((pstep m e c).2.1 = true → G' ≠ []) ∧ (pstep m e c).2.2.1.length + G'.length = G.length + 1 := by
  have hrd : rd (O ++ (G ++ c :: r)) (O.length + G.length) = .ok c := by
    rw [← List.append_assoc, ← List.length_append]
    exact rd_append_length _ _ _
  have hbuf : O ++ (G ++ c :: r) = O ++ ((G ++ [c]) ++ r) := by simp
  have hG : G ++ [c] ≠ [] := by simp
  have start : parseChar E (parsed u (O ++ (G ++ c :: r)) (O.length + G.length) O.length ac e (modeSt m)) =
      parseCharStandard (parsed u (O ++ ((G ++ [c]) ++ r)) (O.length + G.length + 1) O.length ac e (modeSt m)) c := by
    unfold parseChar
    show (rd (O ++ (G ++ c :: r)) (O.length + G.length) >>= _) = _
    rw [hrd, M.ok_bind]
    simp only
    rw [if_neg (by simp [h1, h2]), ← hbuf]
    rfl
  rw [start]
  -- a step that writes nothing
  have none' : ∀ (m' : Mode) (e' : Bool) (ac' : Nat),
      parsed u (O ++ [] ++ ((G ++ [c]) ++ r)) ((O ++ []).length + (G ++ [c]).length) (O ++ []).length ac' e' (modeSt m') =
      parsed u (O ++ ((G ++ [c]) ++ r)) (O.length + G.length + 1) O.length ac' e' (modeSt m') := by
    intro m' e' ac'; simp [Nat.add_assoc]
  -- a step that writes `x`
  have hlen : ∀ x : UInt8, (O ++ [x]).length + ((G ++ [c]).drop 1).length = O.length + G.length + 1 := by
    intro x; simp; omega
  cases m with
  | gap =>
    have := hg rfl; subst this
    unfold parseCharStandard pstep
    simp only [parsed, modeSt]
    by_cases a1 : c = cSpace
    · refine ⟨G ++ [c], ?_, fun _ => hG, by simp [*]⟩
      rw [if_pos a1, if_pos a1]
      exact congrArg Except.ok (none' .gap false ac).symm
    · rw [if_neg a1, if_neg a1]
      by_cases a2 : c = cQuote
      · refine ⟨G ++ [c], ?_, fun _ => hG, by simp [*]⟩
        rw [if_pos a2, if_pos a2]
        exact congrArg Except.ok (none' .quoted false (ac + 1)).symm
      · rw [if_neg a2, if_neg a2]
        by_cases a3 : c = cBackslash
        · refine ⟨G ++ [c], ?_, fun _ => hG, by simp [*]⟩
          rw [if_pos a3, if_pos a3]
          exact congrArg Except.ok (none' .bare true (ac + 1)).symm
        · refine ⟨(G ++ [c]).drop 1, ?_, by simp [a3], by simp [*]; omega⟩
          rw [if_neg a3, if_neg a3]
          have hp := putOut_parsed u O (G ++ [c]) r (O.length + G.length + 1) ac false .parseSearchArg c hG
          have : putOut (parsed u (O ++ ((G ++ [c]) ++ r)) (O.length + G.length + 1) O.length ac false .parseSearchArg) c >>=
              (fun u => .ok { u with argsCount := u.argsCount + 1, state := .parseStandardArg }) =
              .ok (parsed u (O ++ [c] ++ (List.drop 1 (G ++ [c]) ++ r)) (O.length + G.length + 1) (O ++ [c]).length (ac + 1) false .parseStandardArg) := by
            rw [hp]; rfl
          rw [hlen c]
          exact this
  | bare =>
    cases e with
    | true =>
      have hG2 : 2 ≤ (G ++ [c]).length := by
        have := List.length_pos_iff.mpr (hr rfl); simp; omega
      refine ⟨(G ++ [c]).drop (if c = cX then 2 else 1), ?_, by simp [pstep], by by_cases h : c = cX <;> simp [pstep, h] at hG2 ⊢ <;> omega⟩
      have hp := parseEscaped_parsed u O (G ++ [c]) r (O.length + G.length + 1) ac true .parseStandardArg c hG2
      have hl : (O ++ (if c = cX then [cBackslash, c] else [c])).length + ((G ++ [c]).drop (if c = cX then 2 else 1)).length =
          O.length + G.length + 1 := by
        have := hG2
        by_cases h : c = cX <;> simp [h] at this ⊢ <;> omega
      unfold pstep
      simp only [hl, Nat.add_zero]
      exact hp
    | false =>
      unfold parseCharStandard pstep
      simp only [parsed, modeSt, Bool.false_eq_true, if_false]
      by_cases a1 : c = cSpace
      · refine ⟨(G ++ [c]).drop 1, ?_, by simp [a1], by simp [*]; omega⟩
        rw [if_pos a1, if_pos a1]
        have hp := putOut_parsed u O (G ++ [c]) r (O.length + G.length + 1) ac false .parseStandardArg cNul hG
        have : putOut (parsed u (O ++ ((G ++ [c]) ++ r)) (O.length + G.length + 1) O.length ac false .parseStandardArg) cNul >>=
            (fun u => .ok { u with state := .parseSearchArg }) =
            .ok (parsed u (O ++ [cNul] ++ (List.drop 1 (G ++ [c]) ++ r)) (O.length + G.length + 1) (O ++ [cNul]).length ac false .parseSearchArg) := by
          rw [hp]; rfl
        rw [hlen cNul]
        exact this
      · rw [if_neg a1, if_neg a1]
        by_cases a2 : c = cQuote
        · refine ⟨G ++ [c], ?_, fun _ => hG, by simp [*]⟩
          rw [if_pos a2, if_pos a2]
          exact congrArg Except.ok (none' .quoted false ac).symm
        · rw [if_neg a2, if_neg a2]
          by_cases a3 : c = cBackslash
          · refine ⟨G ++ [c], ?_, fun _ => hG, by simp [*]⟩
            rw [if_pos a3, if_pos a3]
            exact congrArg Except.ok (none' .bare true ac).symm
          · refine ⟨(G ++ [c]).drop 1, ?_, by simp [a3], by simp [*]; omega⟩
            rw [if_neg a3, if_neg a3, hlen c]
            exact putOut_parsed u O (G ++ [c]) r (O.length + G.length + 1) ac false .parseStandardArg c hG
  | quoted =>
    cases e with
    | true =>
      have hG2 : 2 ≤ (G ++ [c]).length := by
        have := List.length_pos_iff.mpr (hr rfl); simp; omega
      refine ⟨(G ++ [c]).drop (if c = cX then 2 else 1), ?_, by simp [pstep], by by_cases h : c = cX <;> simp [pstep, h] at hG2 ⊢ <;> omega⟩
      have hp := parseEscaped_parsed u O (G ++ [c]) r (O.length + G.length + 1) ac true .parseQuoteArg c hG2
      have hl : (O ++ (if c = cX then [cBackslash, c] else [c])).length + ((G ++ [c]).drop (if c = cX then 2 else 1)).length =
          O.length + G.length + 1 := by
        have := hG2
        by_cases h : c = cX <;> simp [h] at this ⊢ <;> omega
      unfold pstep
      simp only [hl, Nat.add_zero]
      exact hp
    | false =>
      unfold parseCharStandard pstep
      simp only [parsed, modeSt, Bool.false_eq_true, if_false]
      by_cases a2 : c = cQuote
      · refine ⟨G ++ [c], ?_, fun _ => hG, by simp [*]⟩
        rw [if_pos a2, if_pos a2]
        exact congrArg Except.ok (none' .bare false ac).symm
      · rw [if_neg a2, if_neg a2]
        by_cases a3 : c = cBackslash
        · refine ⟨G ++ [c], ?_, fun _ => hG, by simp [*]⟩
          rw [if_pos a3, if_pos a3]
          exact congrArg Except.ok (none' .quoted true ac).symm
        · refine ⟨(G ++ [c]).drop 1, ?_, by simp [a3], by simp [*]; omega⟩
          rw [if_neg a3, if_neg a3, hlen c]
          exact putOut_parsed u O (G ++ [c]) r (O.length + G.length + 1) ac false .parseQuoteArg c hG

/-- From anywhere in a line to the end of it. -/
theorem parse_line (E : Env) (u : Ush) (hc : u.current.isSome = true) (i : List UInt8) (nl : UInt8) (hnl : nl = cLf ∨ nl = cCr)
    (tail : List UInt8) : ∀ (s : Str) (m : Mode) (e : Bool) (O G : List UInt8) (ac : Nat), cLf ∉ s → cCr ∉ s →
    (m = .gap → e = false) → (e = true → G ≠ []) →
    ∃ (w : Ush) (ip op : Nat) (e' : Bool) (t' : List UInt8),
      Steps E (parsed u (O ++ (G ++ (s ++ nl :: tail))) (O.length + G.length) O.length ac e (modeSt m)) i w i ∧
      w.state ≠ .readChar ∧ w.state ≠ .writeChar ∧ w.current = u.current ∧ w.log = u.log ∧
      (O ++ (G ++ (s ++ nl :: tail))).length = (O ++ packed (lex m e s) ++ t').length ∧
      innerStep E w = parseFinish E (parsed u (O ++ packed (lex m e s) ++ t') ip op (ac + newArgs m (lex m e s)) e' .resetPrompt) := by
  intro s
  induction s with
  | nil =>
    intro m e O G ac _ _ hg hr
    have hin : innerStep E (parsed u (O ++ (G ++ ([] ++ nl :: tail))) (O.length + G.length) O.length ac e (modeSt m)) =
        parseFinish E (parsed u (O ++ [cNul] ++ ((G ++ [nl]).drop 1 ++ tail)) (O.length + G.length + 1) (O ++ [cNul]).length ac e .resetPrompt) := by
      rw [modeSt_inner (m := m) rfl]
      have hrd : rd (O ++ (G ++ nl :: tail)) (O.length + G.length) = .ok nl := by
        rw [← List.append_assoc, ← List.length_append]
        exact rd_append_length _ _ _
      unfold parseChar
      show (rd (O ++ (G ++ nl :: tail)) (O.length + G.length) >>= _) = _
      rw [hrd, M.ok_bind]
      simp only
      rw [if_pos hnl]
      have hp := putOut_parsed u O (G ++ [nl]) tail (O.length + G.length + 1) ac e (modeSt m) cNul (by simp)
      have hb : O ++ ((G ++ [nl]) ++ tail) = O ++ (G ++ nl :: tail) := by simp
      rw [hb] at hp
      show (putOut (parsed u (O ++ (G ++ nl :: tail)) (O.length + G.length + 1) O.length ac e (modeSt m)) cNul >>= _) = _
      rw [hp]
      rfl
    have hcase : ∃ t', O ++ [cNul] ++ ((G ++ [nl]).drop 1 ++ tail) = O ++ packed (lex m e []) ++ t' := by
      cases m with
      | gap => exact ⟨cNul :: ((G ++ [nl]).drop 1 ++ tail), by simp [lex]⟩
      | bare => exact ⟨(G ++ [nl]).drop 1 ++ tail, by simp [lex]⟩
      | quoted => exact ⟨(G ++ [nl]).drop 1 ++ tail, by simp [lex]⟩
    have hna : newArgs m (lex m e []) = 0 := by cases m <;> rfl
    obtain ⟨t', ht⟩ := hcase
    refine ⟨_, O.length + G.length + 1, (O ++ [cNul]).length, e, t', Steps.refl _ _ _, ?_, ?_, rfl, rfl, ?_, ?_⟩
    · cases m <;> simp [parsed, modeSt]
    · cases m <;> simp [parsed, modeSt]
    · rw [← ht]; simp; omega
    · rw [hin, ht, hna]; rfl
  | cons c s ih =>
    intro m e O G ac hlf hcr hg hr
    have n1 : c ≠ cLf := fun h => hlf (by simp [h])
    have n2 : c ≠ cCr := fun h => hcr (by simp [h])
    obtain ⟨G', h1, h2, h3⟩ := parseChar_step E u m e O G (s ++ nl :: tail) ac c hg hr n1 n2
    obtain ⟨w, ip, op, e', t', s1, s2, s3, s4, s5, s6, s7⟩ := ih (pstep m e c).1 (pstep m e c).2.1 (O ++ (pstep m e c).2.2.1) G'
      (ac + (pstep m e c).2.2.2) (fun h => hlf (by simp [h])) (fun h => hcr (by simp [h])) (pstep_gap m e c) h2
    obtain ⟨l1, l2⟩ := pstep_lex m e hg c s
    refine ⟨w, ip, op, e', t', ?_, s2, s3, s4, s5, ?_, ?_⟩
    · refine Steps.trans (Steps.inner i hc ?_ ?_ ?_) s1
      · cases m <;> simp [parsed, modeSt]
      · cases m <;> simp [parsed, modeSt]
      · rw [modeSt_inner (m := m) rfl]
        exact h1
    · rw [l1]
      simp at s6 ⊢; omega
    · have e1 : O ++ packed (lex m e (c :: s)) ++ t' =
          O ++ (pstep m e c).2.2.1 ++ packed (lex (pstep m e c).1 (pstep m e c).2.1 s) ++ t' := by rw [l1]; simp
      rw [s7, e1, l2, Nat.add_assoc]

/-! ## Arguments -/

/-- Offsets of the words in the packed text. -/
def offs : Nat → List Str → List Nat
  | _, [] => []
  | o, w :: ws => o :: offs (o + w.length + 1) ws

theorem offs_length (ws : List Str) : ∀ o, (offs o ws).length = ws.length := by
  induction ws with
  | nil => intro o; rfl
  | cons w ws ih => intro o; simp [offs, ih]

theorem getArgsLoop_packed : ∀ (ws : List Str) (A t : List UInt8), (∀ w ∈ ws, cNul ∉ w) →
    getArgsLoop (A ++ packed ws ++ t) ws.length A.length = .ok (offs A.length ws) := by
  intro ws
  induction ws with
  | nil => intro A t _; rfl
  | cons w ws ih =>
    intro A t h
    have e1 : A ++ packed (w :: ws) ++ t = A ++ (w ++ cNul :: (packed ws ++ t)) := by simp
    have e2 : A ++ packed (w :: ws) ++ t = (A ++ w ++ [cNul]) ++ packed ws ++ t := by simp
    have hs : strlenAt (A ++ packed (w :: ws) ++ t) A.length = .ok w.length := by
      rw [e1]; unfold strlenAt; rw [cstrAt_append A w _ (h w (by simp))]; rfl
    have h2 := ih (A ++ w ++ [cNul]) t (fun x hx => h x (by simp [hx]))
    rw [← e2] at h2
    have hl : (A ++ w ++ [cNul]).length = A.length + w.length + 1 := by simp [Nat.add_assoc]
    rw [hl] at h2
    simp only [List.length_cons, getArgsLoop]
    rw [hs, M.ok_bind, h2]
    rfl

theorem argStrs_packed : ∀ (ws : List Str) (A t : List UInt8), (∀ w ∈ ws, cNul ∉ w) →
    (offs A.length ws).mapM (cstrAt (A ++ packed ws ++ t)) = .ok ws := by
  intro ws
  induction ws with
  | nil => intro A t _; rfl
  | cons w ws ih =>
    intro A t h
    have e1 : A ++ packed (w :: ws) ++ t = A ++ (w ++ cNul :: (packed ws ++ t)) := by simp
    have e2 : A ++ packed (w :: ws) ++ t = (A ++ w ++ [cNul]) ++ packed ws ++ t := by simp
    have hs : cstrAt (A ++ packed (w :: ws) ++ t) A.length = .ok w := by
      rw [e1, cstrAt_append A w _ (h w (by simp))]
    have h2 := ih (A ++ w ++ [cNul]) t (fun x hx => h x (by simp [hx]))
    rw [← e2] at h2
    have hl : (A ++ w ++ [cNul]).length = A.length + w.length + 1 := by simp [Nat.add_assoc]
    rw [hl] at h2
    rw [offs, List.mapM_cons, hs, M.ok_bind, h2]
    rfl

/-- The arguments in the input buffer are `ws`. -/
structure Args (u : Ush) (ws : List Str) : Prop where
  count : u.argsCount = ws.length
  nul : ∀ w ∈ ws, cNul ∉ w
  buf : ∃ t, u.inBuf = packed ws ++ t

theorem Args.getArgs {u : Ush} {ws : List Str} (H : Args u ws) : getArgs u = .ok (offs 0 ws) := by
  obtain ⟨t, ht⟩ := H.buf
  unfold Ush.getArgs
  rw [H.count, ht]
  simpa using getArgsLoop_packed ws [] t H.nul

theorem Args.argStrs {u : Ush} {ws : List Str} (H : Args u ws) : argStrs u (offs 0 ws) = .ok ws := by
  obtain ⟨t, ht⟩ := H.buf
  unfold Ush.argStrs
  rw [ht]
  simpa using argStrs_packed ws [] t H.nul

theorem offs_get : ∀ (ws : List Str) (o i : Nat) (w : Str), ws[i]? = some w →
    ∃ k, (offs o ws)[i]? = some (o + k) ∧ ∃ A B, packed ws = A ++ (w ++ cNul :: B) ∧ A.length = k := by
  intro ws
  induction ws with
  | nil => intro o i w h; simp at h
  | cons v ws ih =>
    intro o i w h
    cases i with
    | zero =>
      simp at h; subst h
      exact ⟨0, by simp [offs], [], packed ws, by simp, rfl⟩
    | succ i =>
      simp at h
      obtain ⟨k, h1, A, B, h2, h3⟩ := ih (o + v.length + 1) i w h
      refine ⟨v.length + 1 + k, by simp only [offs, List.getElem?_cons_succ, h1]; congr 1; omega, v ++ cNul :: A, B, by simp [h2], by simp [h3]; omega⟩

/-- The `i`-th argument. -/
theorem Args.at {u : Ush} {ws : List Str} (H : Args u ws) {i : Nat} {w : Str} (h : ws[i]? = some w) :
    ∃ o, argAt (offs 0 ws) i = .ok o ∧ cstrAt u.inBuf o = .ok w ∧ ∃ rest, u.inBuf.drop o = w ++ cNul :: rest := by
  obtain ⟨k, h1, A, B, h2, h3⟩ := offs_get ws 0 i w h
  obtain ⟨t, ht⟩ := H.buf
  have hw : cNul ∉ w := H.nul w (List.mem_of_getElem? h)
  refine ⟨0 + k, by unfold argAt; rw [h1], ?_, B ++ t, ?_⟩
  · rw [ht, h2, Nat.zero_add, ← h3]
    have := cstrAt_append A w (B ++ t) hw
    simpa using this
  · rw [ht, h2, Nat.zero_add, ← h3]; simp

theorem push_nul (p : Str) (ws : List Str) (hp : cNul ∉ p) (h : ∀ w ∈ ws, cNul ∉ w) : ∀ w ∈ push p ws, cNul ∉ w := by
  cases ws with
  | nil => simpa [push] using hp
  | cons v ws =>
    intro w hw
    rcases List.mem_cons.mp hw with rfl | hw
    · intro h'; rcases List.mem_append.mp h' with h' | h'
      · exact hp h'
      · exact h v (by simp) h'
    · exact h w (by simp [hw])

theorem lex_nul : ∀ (s : Str) (m : Mode) (e : Bool), cNul ∉ s → ∀ w ∈ lex m e s, cNul ∉ w := by
  intro s
  induction s with
  | nil => intro m e _; cases m <;> simp [lex]
  | cons c s ih =>
    intro m e h
    have hc : cNul ≠ c := fun h' => h (by simp [h'])
    have hs : cNul ∉ s := fun h' => h (by simp [h'])
    have hx : cNul ∉ (if c = cX then [cBackslash, cX] else [c]) := by
      split
      · decide
      · simp [hc]
    have hc1 : cNul ∉ [c] := by simpa using hc
    cases m with
    | gap =>
      rw [lex_gap_cons]
      repeat' split
      · exact ih _ _ hs
      · exact ih _ _ hs
      · exact ih _ _ hs
      · exact push_nul _ _ hc1 (ih _ _ hs)
    | bare =>
      cases e with
      | true => exact push_nul _ _ hx (ih _ _ hs)
      | false =>
        rw [lex_bare_cons]
        repeat' split
        · intro w hw
          rcases List.mem_cons.mp hw with rfl | hw
          · simp
          · exact ih _ _ hs w hw
        · exact ih _ _ hs
        · exact ih _ _ hs
        · exact push_nul _ _ hc1 (ih _ _ hs)
    | quoted =>
      cases e with
      | true => exact push_nul _ _ hx (ih _ _ hs)
      | false =>
        rw [lex_quoted_cons]
        repeat' split
        · exact ih _ _ hs
        · exact ih _ _ hs
        · exact push_nul _ _ hc1 (ih _ _ hs)

/-! ## NUL bytes -/

theorem pieces_ne (w : Str) : pieces w ≠ [] := by
  cases w with
  | nil => simp [pieces]
  | cons c w => unfold pieces; split <;> simp [push_ne]

theorem packed_pieces (w : Str) : packed (pieces w) = w ++ [cNul] := by
  induction w with
  | nil => simp [pieces]
  | cons c w ih =>
    unfold pieces
    split
    · next h => rw [packed_cons, ih, h]; rfl
    · rw [packed_push _ _ (pieces_ne w), ih]; rfl

theorem pieces_nul (w : Str) : ∀ x ∈ pieces w, cNul ∉ x := by
  induction w with
  | nil => simp [pieces]
  | cons c w ih =>
    unfold pieces
    split
    · intro x hx
      rcases List.mem_cons.mp hx with rfl | hx
      · simp
      · exact ih x hx
    · next h => exact push_nul _ _ (by simpa using fun h' => h h'.symm) ih

theorem pieces_self {w : Str} (h : cNul ∉ w) : pieces w = [w] := by
  induction w with
  | nil => rfl
  | cons c w ih =>
    unfold pieces
    rw [if_neg (fun h' => h (by simp [h'])), ih (fun h' => h (by simp [h']))]
    rfl

theorem packed_append (a b : List Str) : packed (a ++ b) = packed a ++ packed b := by simp [packed]

theorem packed_flatMap (ws : List Str) : packed (ws.flatMap pieces) = packed ws := by
  induction ws with
  | nil => rfl
  | cons w ws ih => rw [List.flatMap_cons, packed_append, packed_pieces, ih]; simp

theorem pieces_length (ws : List Str) : ws.length ≤ (ws.flatMap pieces).length := by
  induction ws with
  | nil => simp
  | cons w ws ih =>
    have := List.length_pos_iff.mpr (pieces_ne w)
    rw [List.flatMap_cons, List.length_append, List.length_cons]
    omega

theorem cut_length (ws : List Str) : (cut ws).length = ws.length := by
  unfold cut
  rw [List.length_take]
  have := pieces_length ws
  omega

theorem cut_nul (ws : List Str) : ∀ w ∈ cut ws, cNul ∉ w := by
  intro w hw
  obtain ⟨x, -, hx⟩ := List.mem_flatMap.mp (List.mem_of_mem_take hw)
  exact pieces_nul x w hx

theorem cut_packed (ws : List Str) : ∃ t, packed ws = packed (cut ws) ++ t := by
  refine ⟨packed ((ws.flatMap pieces).drop ws.length), ?_⟩
  rw [cut, ← packed_append, List.take_append_drop, packed_flatMap]

theorem cut_self {ws : List Str} (h : ∀ w ∈ ws, cNul ∉ w) : cut ws = ws := by
  have : ws.flatMap pieces = ws := by
    induction ws with
    | nil => rfl
    | cons w ws ih => rw [List.flatMap_cons, pieces_self (h w (by simp)), ih (fun x hx => h x (by simp [hx]))]; rfl
  rw [cut, this, List.take_length]

theorem words_plain {line : Str} (h : cNul ∉ line) : words line = lex .gap false line := cut_self (lex_nul line _ _ h)

/-- A line that begins with NUL: the first word is empty, and one word is lost. -/
theorem words_nul (s : Str) : ∃ as, words (cNul :: s) = [] :: as ∧ (cNul ∉ s → as = (lex .bare false s).dropLast) := by
  unfold words
  have e : lex .gap false (cNul :: s) = push [cNul] (lex .bare false s) := by
    rw [lex_gap_cons, if_neg (by decide), if_neg (by decide), if_neg (by decide)]
  rw [e]
  have hno := lex_nul s .bare false
  cases h : lex .bare false s with
  | nil => exact absurd h (lex_ne _ (by decide) _ _)
  | cons w ws =>
    rw [h] at hno
    refine ⟨((w :: ws).flatMap pieces).take ws.length, by simp [cut, push, pieces], ?_⟩
    intro hs
    have : (w :: ws).flatMap pieces = w :: ws := by
      have h2 : ∀ l : List Str, (∀ x ∈ l, cNul ∉ x) → l.flatMap pieces = l := by
        intro l
        induction l with
        | nil => intro _; rfl
        | cons x l ih =>
          intro hl
          rw [List.flatMap_cons, ih (fun y hy => hl y (by simp [hy])), pieces_self (hl x (by simp))]
          rfl
      exact h2 _ (hno hs)
    rw [this, List.dropLast_eq_take]
    simp

/-- Parsing a whole line: the step that reads the newline calls `parseFinish` with the words of the line as arguments. -/
theorem parse_run (E : Env) (u : Ush) (hc : u.current.isSome = true) (hs : u.state = .parsePrepare) (i : List UInt8)
    (line : Str) (nl : UInt8) (tail : List UInt8) (hnl : nl = cLf ∨ nl = cCr) (h1 : cLf ∉ line) (h2 : cCr ∉ line)
    (hb : u.inBuf = line ++ nl :: tail) :
    ∃ (w : Ush) (buf : List UInt8) (ip op ac : Nat) (e : Bool), Steps E u i w i ∧ w.state ≠ .readChar ∧ w.state ≠ .writeChar ∧
      w.current = u.current ∧ w.log = u.log ∧
      innerStep E w = parseFinish E (parsed u buf ip op ac e .resetPrompt) ∧ buf.length = u.inBuf.length ∧
      Args (parsed u buf ip op ac e .resetPrompt) (words line) := by
  have h0 : innerStep E u = .ok (parsed u ([] ++ ([] ++ (line ++ nl :: tail))) 0 0 0 false .parseSearchArg) := by
    unfold innerStep; rw [hs]; simp [parseStart, parsed, ← hb]
  have s0 : Steps E u i (parsed u ([] ++ ([] ++ (line ++ nl :: tail))) 0 0 0 false .parseSearchArg) i :=
    Steps.inner i hc (by simp [hs]) (by simp [hs]) h0
  obtain ⟨w, ip, op, e, t, s1, s2, s3, s4, s5, s6, s7⟩ := parse_line E u hc i nl hnl tail line .gap false [] [] 0 h1 h2
    (fun _ => rfl) (by simp)
  refine ⟨w, _, ip, op, _, e, s0.trans s1, s2, s3, s4, s5, s7, ?_, ?_⟩
  · rw [hb, ← s6]; simp
  · obtain ⟨t', ht⟩ := cut_packed (lex .gap false line)
    exact ⟨by simp [parsed, newArgs, words, cut_length], cut_nul _, t' ++ t, by simp [parsed, words, ht]⟩

/-! ## Typing arguments -/

theorem lex_quoted_body : ∀ (a s : Str), lex .quoted false
    (a.flatMap (fun c => if c = cQuote ∨ c = cBackslash then [cBackslash, c] else [c]) ++ cQuote :: s) = push a (lex .bare false s) := by
  intro a
  induction a with
  | nil =>
    intro s
    have := lex_ne .bare (by simp) s false
    cases hl : lex .bare false s with
    | nil => exact absurd hl this
    | cons w ws => simp [lex_quoted_cons, hl, push]
  | cons c a ih =>
    intro s
    have hcat : ∀ (p q : Str) (ws : List Str), push p (push q ws) = push (p ++ q) ws := by
      intro p q ws; cases ws <;> simp [push]
    by_cases h : c = cQuote ∨ c = cBackslash
    · have hx : c ≠ cX := by rcases h with rfl | rfl <;> decide
      rw [List.flatMap_cons, if_pos h]
      simp only [List.cons_append, List.nil_append]
      rw [lex_quoted_cons, if_neg (by decide), if_pos rfl]
      show push (if c = cX then [cBackslash, cX] else [c]) (lex .quoted false _) = _
      rw [if_neg hx, ih s, hcat]; rfl
    · rw [List.flatMap_cons, if_neg h]
      have n1 : c ≠ cQuote := fun h' => h (Or.inl h')
      have n2 : c ≠ cBackslash := fun h' => h (Or.inr h')
      simp only [List.cons_append, List.nil_append]
      rw [lex_quoted_cons, if_neg n1, if_neg n2, ih s, hcat]; rfl

theorem words_typeArgs (as : List Str) (h : ∀ a ∈ as, cNul ∉ a) : words (typeArgs as) = as := by
  suffices hl : lex .gap false (typeArgs as) = as by rw [words, hl, cut_self h]
  clear h
  induction as with
  | nil => rfl
  | cons a as ih =>
    have : typeArgs (a :: as) = cQuote :: (a.flatMap (fun c => if c = cQuote ∨ c = cBackslash then [cBackslash, c] else [c]) ++
        cQuote :: (cSpace :: typeArgs as)) := by simp [typeArgs, quoteArg]
    rw [this, lex_gap_cons, if_neg (by decide), if_pos rfl, lex_quoted_body, lex_bare_cons, if_pos rfl, ih]
    simp [push]

end Ush
