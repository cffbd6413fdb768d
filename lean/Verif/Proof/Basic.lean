import Mathlib.Data.List.TakeWhile
import Verif.Model.Service
/-!
# Basic lemmas about checked memory access
-/
namespace Ush

@[simp] theorem M.ok_bind {α β : Type} (a : α) (f : α → M β) : ((.ok a : M α) >>= f) = f a := rfl
@[simp] theorem M.error_bind {α β : Type} (e : Fault) (f : α → M β) : ((.error e : M α) >>= f) = .error e := rfl
@[simp] theorem M.pure_eq {α : Type} (a : α) : (pure a : M α) = .ok a := rfl

theorem M.bind_eq_ok {α β : Type} {x : M α} {f : α → M β} {b : β} :
    (x >>= f) = .ok b ↔ ∃ a, x = .ok a ∧ f a = .ok b := by
  cases x with
  | error e => simp
  | ok a => simp

@[simp] theorem assertM_true : assertM true = .ok () := rfl
@[simp] theorem assertM_false : assertM false = .error .assert := rfl

theorem vla_ok {n : Nat} (h : 0 < n) : vla n = .ok () := by
  unfold vla; rw [if_neg (by omega)]

theorem rd_ok {b : List UInt8} {i : Nat} (h : i < b.length) : rd b i = .ok b[i] := by
  simp [rd, h]

theorem rd_eq_ok {b : List UInt8} {i : Nat} {x : UInt8} : rd b i = .ok x ↔ b[i]? = some x := by
  unfold rd; cases h : b[i]? <;> simp

theorem rd_append_length (a : List UInt8) (x : UInt8) (c : List UInt8) : rd (a ++ x :: c) a.length = .ok x := by
  simp [rd]

theorem wr_ok {b : List UInt8} {i : Nat} (x : UInt8) (h : i < b.length) : wr b i x = .ok (b.set i x) := by
  simp [wr, h]

theorem wr_append_length (a : List UInt8) (x y : UInt8) (c : List UInt8) :
    wr (a ++ x :: c) a.length y = .ok (a ++ y :: c) := by
  simp [wr]

theorem takeWhile_ne_nul (s rest : Str) (hs : cNul ∉ s) :
    (s ++ cNul :: rest).takeWhile (· ≠ cNul) = s := by
  induction s with
  | nil => simp
  | cons c s ih =>
    simp only [List.mem_cons, not_or] at hs
    simp only [List.cons_append, List.takeWhile_cons]
    have : (decide (c ≠ cNul)) = true := by simpa using fun h => hs.1 h.symm
    rw [this]; simp only [if_true]; rw [ih hs.2]

/-- The C string at the end of a prefix. -/
theorem cstrAt_append (a s rest : Str) (hs : cNul ∉ s) :
    cstrAt (a ++ (s ++ cNul :: rest)) a.length = .ok s := by
  unfold cstrAt
  simp only [List.drop_left']
  rw [if_pos (by simp), takeWhile_ne_nul s rest hs]

theorem cstrAt_zero (s rest : Str) (hs : cNul ∉ s) : cstrAt (s ++ cNul :: rest) 0 = .ok s := by
  simpa using cstrAt_append [] s rest hs

theorem cstrAt_eq_ok {b : List UInt8} {off : Nat} {s : Str} (h : cstrAt b off = .ok s) :
    cNul ∉ s ∧ ∃ rest, b.drop off = s ++ cNul :: rest := by
  unfold cstrAt at h
  split at h
  · rename_i hm
    simp only [Except.ok.injEq] at h
    subst h
    constructor
    · intro hc
      have := List.mem_takeWhile_imp hc
      simp at this
    · have h1 := List.takeWhile_append_dropWhile (p := fun x => decide (x ≠ cNul)) (l := b.drop off)
      cases hd : (b.drop off).dropWhile (fun x => decide (x ≠ cNul)) with
      | nil =>
        rw [hd, List.append_nil] at h1
        rw [← h1] at hm
        have := List.mem_takeWhile_imp hm
        simp at this
      | cons x xs =>
        have hx : x = cNul := by
          have := List.head?_dropWhile_not (fun x => decide (x ≠ cNul)) (b.drop off)
          rw [hd] at this
          simpa using this
        subst hx
        exact ⟨xs, by rw [hd] at h1; exact h1.symm⟩
  · cases h

theorem cstrAt_of_drop {b : List UInt8} {off : Nat} {s rest : Str} (hs : cNul ∉ s)
    (h : b.drop off = s ++ cNul :: rest) : cstrAt b off = .ok s := by
  unfold cstrAt
  rw [h, if_pos (by simp), takeWhile_ne_nul s rest hs]

theorem strlenAt_of_drop {b : List UInt8} {off : Nat} {s rest : Str} (hs : cNul ∉ s)
    (h : b.drop off = s ++ cNul :: rest) : strlenAt b off = .ok s.length := by
  unfold strlenAt; rw [cstrAt_of_drop hs h]; rfl

theorem storeStr_length {b : List UInt8} {off : Nat} {s : Str} {b' : List UInt8}
    (h : storeStr b off s = .ok b') : b'.length = b.length := by
  unfold storeStr at h
  split at h
  · simp only [Except.ok.injEq] at h
    subst h; simp; omega
  · cases h

theorem wr_length {b : List UInt8} {i : Nat} {x : UInt8} {b' : List UInt8}
    (h : wr b i x = .ok b') : b'.length = b.length := by
  unfold wr at h
  split at h
  · simp only [Except.ok.injEq] at h
    subst h; simp
  · cases h

theorem storeStr_ok {b : List UInt8} {off : Nat} {s : Str} (h : off + s.length < b.length) :
    storeStr b off s = .ok (b.take off ++ s ++ [cNul] ++ b.drop (off + s.length + 1)) := by
  simp [storeStr, h]

theorem strcpy_ok {cap : Nat} {s : Str} (h : s.length < cap) : strcpy cap s = .ok s := by
  simp [strcpy, h]

theorem strcat_ok {cap : Nat} {d s : Str} (h : d.length + s.length < cap) : strcat cap d s = .ok (d ++ s) := by
  simp [strcat, h]

end Ush
