import Verif.Spec.Lines
import Verif.Proof.Edit
import Verif.Proof.Tame
/-!
# Lines entered one after the other
-/
namespace Ush
open Spec
variable {E : Env} {A : App}

theorem text_plain {c : UInt8} (h : isText c = true) : c ≠ cEtx ∧ c ≠ cTab ∧ isEnter c = false ∧ c ≠ cEsc := by
  refine ⟨?_, ?_, ?_, ?_⟩
  · rintro rfl; revert h; decide
  · rintro rfl; revert h; decide
  · simp only [isText, Bool.and_eq_true, Bool.not_eq_true'] at h; exact h.1.2
  · rintro rfl; revert h; decide

/-- A key of the text. -/
theorem type_key {t : Term} {line : Str} {c : UInt8} (he : t.ed = ⟨line, .none⟩) (hc : isText c = true)
    (hf : (edit line [c]).length + 1 < E.inSize) :
    t.key E A c = ⟨t.world, ⟨edit line [c], .none⟩, t.log ++ .inp c :: outs (if isErase c then (if line = [] then [] else [cBs, cSpace, cBs]) else if c = cNul then [] else [c])⟩ := by
  obtain ⟨h1, h2, h3, h4⟩ := text_plain hc
  unfold Term.key
  rw [if_neg h1, if_neg h2, h3, he]
  simp only [Bool.false_and, Bool.false_eq_true, if_false, Term.add, Editor.key, h4]
  cases hE : isErase c with
  | true =>
    by_cases hl : line = []
    · subst hl; simp [edit, hE]
    · simp [edit, hE, hl]
  | false =>
    have : line.length + 1 < E.inSize := by
      simp only [edit, List.foldl, hE] at hf
      simp at hf; omega
    simp [edit, hE, this]

theorem type_keys {L N : Nat} : ∀ (k : Str) (t : Term) (line : Str), t.ed = ⟨line, .none⟩ → (∀ c ∈ k, isText c = true) →
    (∀ p, p <+: k → (edit line p).length + 1 < E.inSize) →
    ∀ cs, t.keys E A (k ++ cs) = Term.keys E A ⟨t.world, ⟨edit line k, .none⟩, t.log ++ typeLog line k⟩ cs ∧
      (Term.ShortAll E A L N ⟨t.world, ⟨edit line k, .none⟩, t.log ++ typeLog line k⟩ cs → t.ShortAll E A L N (k ++ cs)) ∧
      t.lines E A (k ++ cs) = Term.lines E A ⟨t.world, ⟨edit line k, .none⟩, t.log ++ typeLog line k⟩ cs := by
  intro k
  induction k with
  | nil =>
    intro t line he _ _ cs
    obtain ⟨w, e, l⟩ := t
    subst he
    simp only [List.nil_append, typeLog, List.append_nil]
    exact ⟨rfl, id, rfl⟩
  | cons c k ih =>
    intro t line he ht hf cs
    have hc := ht c (by simp)
    have hk := type_key (A := A) he hc (hf [c] (by simp))
    obtain ⟨i1, i2, i3⟩ := ih (t.key E A c) (edit line [c]) (by rw [hk]) (fun d hd => ht d (by simp [hd])) (fun p hp => hf (c :: p) (by simpa using hp)) cs
    have e2 : edit (edit line [c]) k = edit line (c :: k) := rfl
    have e3 : (t.key E A c).log ++ typeLog (edit line [c]) k = t.log ++ typeLog line (c :: k) := by
      rw [hk, typeLog]; simp
    have e4 : (t.key E A c).world = t.world := by rw [hk]
    rw [e2, e3, e4] at i1 i2 i3
    obtain ⟨h1, h2, h3, -⟩ := text_plain hc
    refine ⟨i1, fun h => ⟨?_, i2 h⟩, ?_⟩
    · unfold Term.Short
      rw [if_neg h2, h3]; simp
    · show (if isEnter c && t.ed.esc == .none then [sent E.inSize t.ed.line] else []) ++ Term.lines E A (t.key E A c) (k ++ cs) = _
      rw [h3, i3]; simp

/-- A line that is entered. -/
theorem enter_keys {L N : Nat} {t : Term} {k : Str} (he : t.ed = {}) (hk : Types E L k) (cs : List UInt8) :
    t.keys E A (k ++ [cCr] ++ cs) = (t.enter E A k).keys E A cs ∧ ((t.enter E A k).ShortAll E A L N cs → t.ShortAll E A L N (k ++ [cCr] ++ cs)) ∧
      t.lines E A (k ++ [cCr] ++ cs) = edit [] k :: (t.enter E A k).lines E A cs := by
  obtain ⟨h1, h2, h3⟩ := type_keys (E := E) (A := A) (L := L) (N := N) k t [] he hk.text hk.fits ([cCr] ++ cs)
  have hs := sent_fit (hk.fits k (List.prefix_refl _))
  have e : Term.key E A ⟨t.world, ⟨edit [] k, .none⟩, t.log ++ typeLog [] k⟩ cCr = t.enter E A k := by
    unfold Term.key Term.enter
    rw [if_neg (by decide), if_neg (by decide)]
    have : (isEnter cCr && EscSt.none == EscSt.none) = true := by decide
    simp only [this, if_true, Term.add]
    have e2 : outs (enterEcho cCr) = outs crlf := rfl
    rw [e2, hs]
    simp
  rw [List.append_assoc, h1, h3]
  refine ⟨?_, fun h => h2 ⟨?_, ?_⟩, ?_⟩
  · show Term.keys E A (Term.key E A _ cCr) cs = _
    rw [e]
  · unfold Term.Short
    rw [if_neg (by decide), if_pos (by simp [isEnter])]
    rw [hs]
    exact fun w hw => Nat.lt_of_le_of_lt (words_length hw) hk.short
  · rw [e]; exact h
  · show [sent E.inSize (edit [] k)] ++ Term.lines E A (Term.key E A _ cCr) cs = _
    rw [e, hs]; rfl

theorem entered_keys {L N : Nat} : ∀ (ks : List Str) (t : Term), t.ed = {} → (∀ k ∈ ks, Types E L k) →
    t.keys E A (entered ks) = ks.foldl (Term.enter E A) t ∧ t.ShortAll E A L N (entered ks) ∧ t.lines E A (entered ks) = ks.map (edit []) := by
  intro ks
  induction ks with
  | nil => intro t _ _; exact ⟨rfl, trivial, rfl⟩
  | cons k ks ih =>
    intro t he hk
    obtain ⟨i1, i2, i3⟩ := ih (t.enter E A k) rfl (fun k' h => hk k' (by simp [h]))
    obtain ⟨h1, h2, h3⟩ := enter_keys (E := E) (A := A) (L := L) (N := N) he (hk k (by simp)) (entered ks)
    have e : entered (k :: ks) = k ++ [cCr] ++ entered ks := by simp [entered]
    rw [e, h1, h3, i1, i3]
    exact ⟨rfl, h2 i2, rfl⟩

end Ush
