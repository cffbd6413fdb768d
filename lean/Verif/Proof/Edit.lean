import Verif.Proof.Start
/-!
# Typed text
-/
namespace Ush
open Spec

theorem edit_cons (l : Str) (c : UInt8) (cs : Str) : edit l (c :: cs) = edit (if isErase c then l.dropLast else l ++ [c]) cs := rfl

theorem keys_cons (cap : Nat) (e : Editor) (c : UInt8) (cs : Str) : (Editor.keys cap e (c :: cs)).1 = (Editor.keys cap (e.key cap c).1 cs).1 := rfl

theorem takesAll_cons (cap : Nat) (e : Editor) (c : UInt8) (cs : Str) :
    Editor.takesAll cap e (c :: cs) = (e.takes c && Editor.takesAll cap (e.key cap c).1 cs) := rfl

theorem text_takes {e : Editor} {c : UInt8} (h : isText c = true) : e.takes c = true := by
  simp only [isText, Bool.and_eq_true, Bool.not_eq_true'] at h
  simp [Editor.takes, h.1.1, h.1.2]

theorem text_key {cap : Nat} {line : Str} {c : UInt8} (h : isText c = true) :
    (Editor.key cap ⟨line, .none⟩ c).1 = ⟨if isErase c then line.dropLast else if line.length + 1 < cap then line ++ [c] else [], .none⟩ := by
  have h1 : c ≠ cEsc := by
    rintro rfl; revert h; decide
  unfold Editor.key
  split
  · simp only
    split
    · rename_i h; simp [h]
    · rfl
  · simp only

/-- Typing a text that fits. -/
theorem keys_edit (cap : Nat) : ∀ (cs : Str) (line : Str), (∀ c ∈ cs, isText c = true) → (∀ p, p <+: cs → (edit line p).length < cap) →
    Editor.takesAll cap ⟨line, .none⟩ cs = true ∧ (Editor.keys cap ⟨line, .none⟩ cs).1 = ⟨edit line cs, .none⟩ := by
  intro cs
  induction cs with
  | nil => intro line _ _; exact ⟨rfl, rfl⟩
  | cons c cs ih =>
    intro line ht hf
    have hc := ht c (by simp)
    have hk := text_key (cap := cap) (line := line) hc
    have hlen := hf [c] (by simp)
    have e1 : (Editor.key cap ⟨line, .none⟩ c).1 = ⟨edit line [c], .none⟩ := by
      rw [hk]
      simp only [edit, List.foldl] at hlen ⊢
      split
      · rfl
      · rename_i hne
        rw [if_neg hne] at hlen
        rw [if_pos (by simpa using hlen)]
    obtain ⟨h1, h2⟩ := ih (edit line [c]) (fun d hd => ht d (by simp [hd])) (fun p hp => hf (c :: p) (by simpa using hp))
    rw [takesAll_cons, keys_cons]
    rw [e1, text_takes hc]
    exact ⟨by simpa using h1, h2⟩

/-- Typing characters, whether they fit or not. -/
theorem keys_wrap (cap : Nat) : ∀ (cs : Str) (line : Str), (∀ c ∈ cs, isText c = true ∧ isErase c = false) → line.length < cap →
    Editor.takesAll cap ⟨line, .none⟩ cs = true ∧
      (Editor.keys cap ⟨line, .none⟩ cs).1 = ⟨(line ++ cs).drop (cap * ((line.length + cs.length) / cap)), .none⟩ := by
  intro cs
  induction cs with
  | nil => intro line _ hl; exact ⟨rfl, by simp [Editor.keys, Nat.div_eq_of_lt hl]⟩
  | cons c cs ih =>
    intro line ht hl
    obtain ⟨hc, hne⟩ := ht c (by simp)
    have hk := text_key (cap := cap) (line := line) hc
    rw [hne] at hk
    simp only [Bool.false_eq_true, if_false] at hk
    rw [takesAll_cons, keys_cons]
    rw [text_takes hc, hk]
    simp only [Bool.true_and]
    by_cases hf : line.length + 1 < cap
    · rw [if_pos hf]
      obtain ⟨h1, h2⟩ := ih (line ++ [c]) (fun d hd => ht d (by simp [hd])) (by simpa using hf)
      refine ⟨h1, ?_⟩
      rw [h2]
      simp [Nat.add_assoc, Nat.add_comm 1]
    · rw [if_neg hf]
      obtain ⟨h1, h2⟩ := ih [] (fun d hd => ht d (by simp [hd])) (by simp; omega)
      refine ⟨h1, ?_⟩
      rw [h2]
      have e : line.length + (cs.length + 1) = cs.length + cap := by omega
      have hcap : (line ++ [c]).length = cap := by simp; omega
      simp only [List.nil_append, List.length_nil, Nat.zero_add, List.length_cons, e, Editor.mk.injEq, and_true]
      rw [Nat.add_div_right _ (by omega), Nat.mul_succ, Nat.add_comm (cap * _) cap, ← List.drop_drop]
      have : line ++ c :: cs = (line ++ [c]) ++ cs := by simp
      rw [this, List.drop_left' hcap]

/-- A line without quotes and backslashes. -/
theorem lex_plain : ∀ (s : Str), cQuote ∉ s → cBackslash ∉ s →
    lex .gap false s = (splitSpaces s).filter (fun w => w != []) ∧
    (∃ w ws, splitSpaces s = w :: ws ∧ lex .bare false s = w :: ws.filter (fun w => w != [])) := by
  intro s
  induction s with
  | nil => intro _ _; exact ⟨rfl, [], [], rfl, rfl⟩
  | cons c s ih =>
    intro h1 h2
    simp only [List.mem_cons, not_or] at h1 h2
    obtain ⟨i1, w, ws, i2, i3⟩ := ih h1.2 h2.2
    rw [lex_gap_cons, lex_bare_cons, splitSpaces]
    rw [if_neg (Ne.symm h1.1), if_neg (Ne.symm h2.1)]
    by_cases hs : c = cSpace
    · simp only [hs, if_true]
      exact ⟨by rw [i1]; rfl, [], _, rfl, by rw [i1]⟩
    · simp only [hs, if_false]
      rw [i2, i3]
      exact ⟨by simp [push], _, _, rfl, by simp [push]⟩

end Ush
