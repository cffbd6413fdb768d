import Verif.Proof.Feed
/-!
# `ush_printf` with a format error
-/
namespace Ush
open Spec

/-- The first part of `ush_printf`: what `vsnprintf` leaves in the buffer before the message is added. -/
theorem ushPrintf_error {E : Env} {u : Ush} {a s t : Str} (hz : Sized E u) (hw : u.writeBuf = .outBuf) (hb : u.outBuf = a ++ cNul :: t)
    (ha : cNul ∉ a) (hs : cNul ∉ s) : ∃ t', (a ++ s.take (E.outSize - a.length - 1) ++ cNul :: t').length = E.outSize ∧
    ushPrintf E u (.error s) = printfError E { u with state := .writeChar, writeNext := .resetPrompt, outBuf := a ++ s.take (E.outSize - a.length - 1) ++ cNul :: t', writeSize := u.writeSize + (s.take (E.outSize - a.length - 1)).length } msgFormatError := by
  have hlen : (a ++ cNul :: t).length = E.outSize := by rw [← hb]; exact hz.outLen
  have hal : a.length < E.outSize := by simp at hlen; omega
  have hs' : cNul ∉ s.take (E.outSize - a.length - 1) := fun h => hs (List.take_subset _ _ h)
  obtain ⟨t', h1⟩ := storeStr_at (a := a) (t := t) (s := s.take (E.outSize - a.length - 1)) (x := cNul)
    (by rw [hlen, List.length_append, List.length_take]; omega)
  refine ⟨t', by rw [storeStr_length h1]; exact hlen, ?_⟩
  unfold ushPrintf
  rw [if_neg (by simp [hw])]
  simp only [M.pure_eq, M.ok_bind]
  rw [hb, strlenAt_zero ha]
  simp only [M.ok_bind]
  rw [h1]
  simp only [M.ok_bind]
  rw [List.append_assoc, strlenAt_append hs']
  simp only [M.ok_bind]

/-- There is room for the message and its NUL byte. -/
theorem ushPrintf_error_fits {E : Env} {u : Ush} {a s t : Str} (hz : Sized E u) (hw : u.writeBuf = .outBuf) (hb : u.outBuf = a ++ cNul :: t)
    (ha : cNul ∉ a) (hs : cNul ∉ s) (hf : a.length + s.length + 17 < E.outSize) :
    ∃ t', (a ++ s ++ msgFormatError ++ cNul :: t').length = E.outSize ∧ ushPrintf E u (.error s) =
      .ok { u with state := .writeChar, writeNext := .resetPrompt, outBuf := a ++ s ++ msgFormatError ++ cNul :: t', writeSize := u.writeSize + s.length + 17 } := by
  obtain ⟨t1, hl, h1⟩ := ushPrintf_error hz hw hb ha hs
  have hml : msgFormatError.length = 17 := rfl
  have e : s.take (E.outSize - a.length - 1) = s := List.take_of_length_le (by omega)
  rw [e] at hl h1
  rw [h1]
  have hcat : cNul ∉ a ++ s := not_mem_append ha hs
  obtain ⟨t', h2⟩ := storeStr_at (a := a ++ s) (t := t1) (s := msgFormatError) (x := cNul) (by rw [hl, List.length_append, List.length_append, hml]; exact hf)
  refine ⟨t', by rw [storeStr_length h2]; exact hl, ?_⟩
  unfold printfError
  simp only
  rw [strlenAt_zero hcat]
  simp only [M.ok_bind]
  rw [if_pos (by rw [List.length_append, hml]; omega), h2]
  simp only [M.ok_bind]
  rw [List.append_assoc, strlenAt_append (by decide), hml]
  simp only [M.ok_bind, M.pure_eq]

/-- There is exactly room for the characters of the message: its NUL byte is written behind the buffer. -/
theorem ushPrintf_error_exact {E : Env} {u : Ush} {a s t : Str} (hz : Sized E u) (hw : u.writeBuf = .outBuf) (hb : u.outBuf = a ++ cNul :: t)
    (ha : cNul ∉ a) (hs : cNul ∉ s) (hf : a.length + s.length + 17 = E.outSize) : ushPrintf E u (.error s) = .error .oob := by
  obtain ⟨t1, hl, h1⟩ := ushPrintf_error hz hw hb ha hs
  have hml : msgFormatError.length = 17 := rfl
  have e : s.take (E.outSize - a.length - 1) = s := List.take_of_length_le (by omega)
  rw [e] at hl h1
  rw [h1]
  unfold printfError
  simp only
  rw [strlenAt_zero (not_mem_append ha hs)]
  simp only [M.ok_bind]
  rw [if_pos (by rw [List.length_append, hml]; omega)]
  have h2 : storeStr (a ++ s ++ cNul :: t1) (a ++ s).length msgFormatError = .error .oob := by
    unfold storeStr; rw [if_neg (by rw [hl, List.length_append, hml]; omega)]
  rw [h2]; rfl

/-- There is not enough room: the message replaces the end of the text. -/
theorem ushPrintf_error_long {E : Env} {u : Ush} {a s t : Str} (hz : Sized E u) (hw : u.writeBuf = .outBuf) (hb : u.outBuf = a ++ cNul :: t)
    (ha : cNul ∉ a) (hs : cNul ∉ s) (hf : E.outSize < a.length + s.length + 17) (ho : 18 ≤ E.outSize) : ushPrintf E u (.error s) =
    .ok { u with state := .writeChar, writeNext := .resetPrompt, outBuf := (a ++ s).take (E.outSize - 18) ++ msgFormatError ++ [cNul], writeSize := E.outSize } := by
  obtain ⟨t1, hl, h1⟩ := ushPrintf_error hz hw hb ha hs
  have hml : msgFormatError.length = 17 := rfl
  have hal : a.length < E.outSize := by
    have := hz.outLen
    rw [hb] at this; simp at this; omega
  have hs' : cNul ∉ s.take (E.outSize - a.length - 1) := fun h => hs (List.take_subset _ _ h)
  have hcl : (a ++ s.take (E.outSize - a.length - 1)).length + 17 > E.outSize := by
    rw [List.length_append, List.length_take]; omega
  rw [h1]
  unfold printfError
  simp only
  rw [strlenAt_zero (not_mem_append ha hs')]
  simp only [M.ok_bind]
  rw [if_neg (by rw [hml]; omega), if_neg (by rw [hml]; omega), hml, storeStr_ok (by rw [hl, hml]; omega)]
  simp only [M.ok_bind, M.pure_eq, Except.ok.injEq, hml]
  congr 1
  have htake : a ++ s.take (E.outSize - a.length - 1) = (a ++ s).take (E.outSize - 1) := by
    have e1 : a.take (E.outSize - 1) = a := List.take_of_length_le (by omega)
    have e2 : E.outSize - 1 - a.length = E.outSize - a.length - 1 := by omega
    rw [List.take_append, e1, e2]
  rw [List.drop_of_length_le (by rw [hl]; omega), List.append_nil, List.take_append_of_le_length (by omega), htake, List.take_take]
  congr 3; omega

end Ush
