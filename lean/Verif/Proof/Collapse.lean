import Verif.Proof.Basic
import Verif.Spec.Path
/-!
# Lemmas about `collapsePath`
-/
namespace Ush
open Spec

/-- A part of a path as the scanner sees it: after a `/` the next character starts the part whatever it is. -/
def Chunk (c : Str) : Prop := cSlash ∉ c.tail ∧ cNul ∉ c

/-- Text of a list of parts. -/
def chunks (cs : List Str) : Str := cs.flatMap (fun c => cSlash :: c)

/-- The same text after the scanner replaced the separators by NUL. -/
def chunksNul (cs : List Str) : Str := cs.flatMap (fun c => cNul :: c)

/-- Offsets of the parts when the text starts at offset `p`. -/
def offsets : Nat → List Str → List Nat
  | _, [] => []
  | p, c :: cs => (p + 1) :: offsets (p + 1 + c.length) cs

@[simp] theorem chunks_cons (c : Str) (cs : List Str) : chunks (c :: cs) = cSlash :: c ++ chunks cs := rfl
@[simp] theorem chunksNul_cons (c : Str) (cs : List Str) : chunksNul (c :: cs) = cNul :: c ++ chunksNul cs := rfl
@[simp] theorem chunks_nil : chunks [] = [] := rfl
@[simp] theorem chunksNul_nil : chunksNul [] = [] := rfl

theorem chunksNul_length (cs : List Str) : (chunksNul cs).length = (chunks cs).length := by
  induction cs with
  | nil => rfl
  | cons c cs ih => simp [ih]

@[simp] theorem offsets_length (p : Nat) (cs : List Str) : (offsets p cs).length = cs.length := by
  induction cs generalizing p with
  | nil => rfl
  | cons c cs ih => simp [offsets, ih]

/-- Scanning ordinary characters in state 0. -/
theorem collapseScan_text (levels : Nat) (t : Str) : ∀ (fuel : Nat) (pre rest : List UInt8) (nodes : List Nat),
    cSlash ∉ t → cNul ∉ t →
    collapseScan levels (fuel + t.length) (pre ++ (t ++ rest)) pre.length false nodes =
      collapseScan levels fuel (pre ++ t ++ rest) (pre ++ t).length false nodes := by
  induction t with
  | nil => intro fuel pre rest nodes _ _; simp
  | cons c t ih =>
    intro fuel pre rest nodes hs hn
    simp only [List.mem_cons, not_or] at hs hn
    have h1 := ih fuel (pre ++ [c]) rest nodes hs.2 hn.2
    simp only [List.length_cons, ← Nat.add_assoc]
    rw [collapseScan]
    simp only [List.cons_append, rd_append_length, M.ok_bind, if_true]
    rw [if_neg (fun h => hn.1 h.symm), if_neg (fun h => hs.1 h.symm)]
    simpa using h1

/-- The scanner finds exactly the parts. -/
theorem collapseScan_chunks (levels : Nat) (cs : List Str) :
    ∀ (fuel : Nat) (pre : List UInt8) (nodes : List Nat),
    (∀ c ∈ cs, Chunk c) → (∀ c ∈ cs.dropLast, c ≠ []) → nodes.length + cs.length ≤ levels →
    (chunks cs).length < fuel →
    collapseScan levels fuel (pre ++ (chunks cs ++ [cNul])) pre.length false nodes =
      .ok (pre ++ (chunksNul cs ++ [cNul]), nodes ++ offsets pre.length cs) := by
  induction cs with
  | nil =>
    intro fuel pre nodes _ _ _ hf
    obtain ⟨fuel, rfl⟩ : ∃ k, fuel = k + 1 := ⟨fuel - 1, by omega⟩
    rw [collapseScan]
    simp [rd_append_length, offsets]
  | cons c cs ih =>
    intro fuel pre nodes hc hne hl hf
    have hcc := hc c (by simp)
    simp only [chunks_cons, List.length_append, List.length_cons] at hf hl
    obtain ⟨fuel, rfl⟩ : ∃ k, fuel = k + 2 + c.tail.length := ⟨fuel - 2 - c.tail.length, by
      have : c.tail.length = c.length - 1 := by simp
      omega⟩
    rw [show fuel + 2 + c.tail.length = (fuel + 1 + c.tail.length) + 1 by omega, collapseScan]
    simp only [chunks_cons, List.cons_append, rd_append_length, M.ok_bind, if_true]
    rw [if_neg (by decide)]
    rw [wr_append_length]
    simp only [M.ok_bind]
    cases c with
    | nil =>
      -- an empty part is the last one
      have hcs : cs = [] := by
        cases cs with
        | nil => rfl
        | cons d ds => exact absurd rfl (hne [] (by simp))
      subst hcs
      simp only [List.tail_nil, List.length_nil, Nat.add_zero, List.nil_append, chunks_nil]
      rw [collapseScan]
      have e : rd (pre ++ cNul :: [cNul]) (pre.length + 1) = .ok cNul := by
        have := rd_append_length (pre ++ [cNul]) cNul []
        simpa using this
      rw [e]
      simp only [M.ok_bind]
      rw [if_neg (by decide), if_pos (by omega), if_pos trivial]
      simp [offsets]
    | cons x t =>
      simp only [List.tail_cons] at *
      rw [show fuel + 1 + t.length = (fuel + t.length) + 1 by omega, collapseScan]
      have hx : x ≠ cNul := by
        intro h; exact hcc.2 (by simp [h])
      have e : rd (pre ++ cNul :: (x :: t ++ chunks cs ++ [cNul])) (pre.length + 1) = .ok x := by
        have := rd_append_length (pre ++ [cNul]) x (t ++ chunks cs ++ [cNul])
        simpa using this
      simp only [List.append_assoc, List.cons_append] at e ⊢
      rw [e]
      simp only [M.ok_bind]
      rw [if_neg (by decide), if_pos (by omega), if_neg hx]
      have h1 := collapseScan_text levels t fuel (pre ++ [cNul, x]) (chunks cs ++ [cNul])
        (nodes ++ [pre.length + 1]) hcc.1 (fun h => hcc.2 (by simp [h]))
      simp only [List.append_assoc, List.cons_append, List.nil_append, List.length_append,
        List.length_cons, List.length_nil] at h1
      rw [show pre.length + 1 + 1 = pre.length + (0 + 1 + 1) by omega, h1]
      have h2 := ih fuel (pre ++ cNul :: x :: t) (nodes ++ [pre.length + 1]) (fun c h => hc c (by simp [h]))
        (by
          intro c h
          cases cs with
          | nil => simp at h
          | cons d ds => exact hne c (by simp only [List.dropLast_cons_cons, List.mem_cons]; exact Or.inr h))
        (by simp; omega) (by simp at hf; omega)
      simp only [List.append_assoc, List.cons_append, List.length_append, List.length_cons] at h2
      rw [h2]
      simp [offsets]
      congr 1
      omega

/-- The strings at the offsets found by the scanner are the parts. -/
theorem cstrAt_offsets (cs : List Str) : ∀ (pre : List UInt8), (∀ c ∈ cs, Chunk c) →
    (offsets pre.length cs).map (cstrAt (pre ++ (chunksNul cs ++ [cNul]))) = cs.map .ok := by
  induction cs with
  | nil => intro pre _; rfl
  | cons c cs ih =>
    intro pre hc
    simp only [offsets, List.map_cons, chunksNul_cons]
    have h1 := ih (pre ++ cNul :: c) (fun c h => hc c (by simp [h]))
    simp only [List.length_append, List.length_cons] at h1
    rw [show pre.length + 1 + c.length = pre.length + (c.length + 1) by omega]
    simp only [List.append_assoc, List.cons_append] at h1 ⊢
    rw [h1]
    congr 1
    have hn := (hc c (by simp)).2
    have h2 : ∃ r, chunksNul cs ++ [cNul] = cNul :: r := by
      cases cs with
      | nil => exact ⟨[], rfl⟩
      | cons d ds => exact ⟨d ++ (chunksNul ds ++ [cNul]), by simp⟩
    obtain ⟨r, hr⟩ := h2
    rw [hr]
    have := cstrAt_append (pre ++ [cNul]) c r hn
    simpa using this

/-- Filtering offsets is normalising the strings they point to. -/
theorem collapseFilter_eq (levels : Nat) (buf : List UInt8) (str : Nat → Str) :
    ∀ (ns out : List Nat), (∀ n ∈ ns, cstrAt buf n = .ok (str n)) → ns.length + out.length ≤ levels →
    ∃ out', collapseFilter levels buf ns out = .ok out' ∧
      out'.map str = (ns.map str).foldl pushComp (out.map str) ∧ (∀ n ∈ out', n ∈ ns ∨ n ∈ out) := by
  intro ns
  induction ns with
  | nil => intro out _ _; exact ⟨out, rfl, rfl, fun n h => Or.inr h⟩
  | cons n ns ih =>
    intro out hs hl
    have hs' : ∀ m ∈ ns, cstrAt buf m = .ok (str m) := fun m h => hs m (by simp [h])
    simp only [List.length_cons] at hl
    rw [collapseFilter, hs n (by simp)]
    simp only [M.ok_bind]
    split
    · rename_i h
      obtain ⟨o', h1, h2, h3⟩ := ih (if out.length > 0 then out.dropLast else out) hs' (by split <;> (try simp only [List.length_dropLast]) <;> omega)
      refine ⟨o', h1, ?_, ?_⟩
      · rw [h2]
        have : (if out.length > 0 then out.dropLast else out) = out.dropLast := by
          split
          · rfl
          · have : out = [] := by apply List.eq_nil_of_length_eq_zero; omega
            subst this; rfl
        rw [this, List.map_cons, List.foldl_cons]
        congr 1
        simp only [pushComp, h]
        rw [if_neg (by decide), if_pos trivial]
        simp [List.map_dropLast]
      · intro m hm
        rcases h3 m hm with h | h
        · exact Or.inl (by simp [h])
        · right
          split at h
          · exact List.dropLast_subset _ h
          · exact h
    · rename_i h
      split
      · rename_i h'
        obtain ⟨o', h1, h2, h3⟩ := ih out hs' (by omega)
        refine ⟨o', h1, ?_, ?_⟩
        · rw [h2, List.map_cons, List.foldl_cons]
          congr 1
          simp [pushComp, h']
        · intro m hm
          rcases h3 m hm with h | h
          · exact Or.inl (by simp [h])
          · exact Or.inr h
      · rename_i h'
        rw [if_pos (by omega)]
        obtain ⟨o', h1, h2, h3⟩ := ih (out ++ [n]) hs' (by simp; omega)
        refine ⟨o', h1, ?_, ?_⟩
        · rw [h2, List.map_cons, List.foldl_cons]
          congr 1
          simp only [pushComp, if_neg h', if_neg h]
          simp
        · intro m hm
          rcases h3 m hm with h | h
          · exact Or.inl (by simp [h])
          · simp only [List.mem_append, List.mem_singleton] at h
            rcases h with h | h
            · exact Or.inr h
            · exact Or.inl (by simp [h])

theorem collapseEmit_eq (cap : Nat) (buf : List UInt8) (str : Nat → Str) :
    ∀ (ns : List Nat) (out : Str), (∀ n ∈ ns, cstrAt buf n = .ok (str n)) →
    (out ++ chunks (ns.map str)).length < cap →
    collapseEmit cap buf ns out = .ok (out ++ chunks (ns.map str)) := by
  intro ns
  induction ns with
  | nil => intro out _ _; simp [collapseEmit]
  | cons n ns ih =>
    intro out hs hl
    simp only [List.map_cons, chunks_cons, List.length_append, List.length_cons] at hl
    rw [collapseEmit, strcat_ok (by simp; omega), M.ok_bind, hs n (by simp), M.ok_bind,
      strcat_ok (by simp; omega), M.ok_bind, ih _ (fun m h => hs m (by simp [h])) (by simp; omega)]
    simp

theorem levelsLoop_add (s : Str) : ∀ n k, levelsLoop s (n + k) = levelsLoop s n + k := by
  induction s with
  | nil => intro n k; rfl
  | cons c s ih =>
    intro n k
    simp only [levelsLoop]
    split
    · rw [show n + k + 1 = (n + 1) + k by omega, ih]
    · rw [ih]

/-- Number of levels: one plus the number of `/` after the first character. -/
theorem levelsLoop_eq (s : Str) (n : Nat) : levelsLoop s n = n + s.tail.count cSlash := by
  induction s generalizing n with
  | nil => simp [levelsLoop]
  | cons c s ih =>
    rw [levelsLoop, ih]
    cases s with
    | nil => simp
    | cons d s =>
      simp only [List.head?_cons, Option.some.injEq, List.tail_cons, List.count_cons]
      by_cases h : d = cSlash
      · simp [h]; omega
      · simp [h]

theorem chunks_count (cs : List Str) : cs.length ≤ (chunks cs).count cSlash := by
  induction cs with
  | nil => simp
  | cons c cs ih =>
    simp only [chunks_cons, List.cons_append, List.count_cons, List.count_append, List.length_cons, beq_self_eq_true, if_true]
    omega

theorem levels_chunks (cs : List Str) (h : cs ≠ []) (h' : chunks cs ≠ b!"/") :
    cs.length ≤ pathLevelsCount (chunks cs) := by
  unfold pathLevelsCount
  rw [if_neg h']
  cases cs with
  | nil => exact absurd rfl h
  | cons c cs =>
    rw [if_neg (by simp), levelsLoop_eq]
    have := chunks_count cs
    simp only [chunks_cons, List.cons_append, List.tail_cons, List.count_append, List.length_cons]
    omega

theorem foldl_pushComp_length (cs st : List Str) :
    (chunks (cs.foldl pushComp st)).length ≤ (chunks st).length + (chunks cs).length := by
  induction cs generalizing st with
  | nil => simp
  | cons c cs ih =>
    rw [List.foldl_cons]
    refine Nat.le_trans (ih _) ?_
    have : (chunks (pushComp st c)).length ≤ (chunks st).length + (c.length + 1) := by
      unfold pushComp
      split
      · omega
      · split
        · have : (chunks st.dropLast).length ≤ (chunks st).length := by
            rcases List.eq_nil_or_concat st with rfl | ⟨l, a, rfl⟩
            · simp
            · simp [chunks]
          omega
        · unfold chunks; simp
    simp only [chunks_cons, List.length_append, List.length_cons]
    omega

/-- `collapsePath` on every absolute path, in terms of the parts the scanner sees. -/
theorem collapsePath_chunks (cap : Nat) (cs : List Str) (hcs : cs ≠ []) (hne : cs ≠ [[]])
    (hc : ∀ c ∈ cs, Chunk c) (hd : ∀ c ∈ cs.dropLast, c ≠ []) (hcap : (chunks cs).length < cap) :
    collapsePath cap (chunks cs) =
      .ok (if normalize cs = [] then b!"/" else chunks (normalize cs)) := by
  have hsl : chunks cs ≠ b!"/" := by
    intro h
    cases cs with
    | nil => exact hcs rfl
    | cons c cs =>
      simp only [chunks_cons, List.cons_append, List.cons.injEq, List.append_eq_nil_iff, true_and] at h
      obtain ⟨rfl, h⟩ := h
      cases cs with
      | nil => exact hne rfl
      | cons d ds => simp at h
  have hlev := levels_chunks cs hcs hsl
  have hpos : 0 < cs.length := List.length_pos_iff.mpr hcs
  unfold collapsePath
  rw [strcpy_ok hcap, M.ok_bind, if_neg hsl]
  simp only
  rw [vla_ok (by omega), M.ok_bind]
  have h1 := collapseScan_chunks (pathLevelsCount (chunks cs)) cs ((chunks cs).length + 2) [] [] hc hd
    (by simpa using hlev) (by omega)
  simp only [List.nil_append, List.length_nil] at h1
  rw [h1]
  simp only [M.ok_bind]
  have h2 := cstrAt_offsets cs [] hc
  simp only [List.nil_append, List.length_nil] at h2
  let buf := chunksNul cs ++ [cNul]
  let str : Nat → Str := fun n => match cstrAt buf n with | .ok s => s | .error _ => []
  have h3 : ∀ n ∈ offsets 0 cs, cstrAt buf n = .ok (str n) := by
    intro n hn
    have : cstrAt buf n ∈ (offsets 0 cs).map (cstrAt buf) := List.mem_map_of_mem hn
    rw [h2] at this
    obtain ⟨s, _, hs⟩ := List.mem_map.mp this
    simp only [str, ← hs]
  have h4 : (offsets 0 cs).map str = cs := by
    have e1 : (offsets 0 cs).map (cstrAt buf) = (offsets 0 cs).map (fun n => .ok (str n)) :=
      List.map_congr_left h3
    rw [h2, show (fun n => (.ok (str n) : M Str)) = Except.ok ∘ str from rfl, ← List.map_map] at e1
    exact (List.map_inj_right (fun a b h => by simpa using h) |>.mp e1).symm
  obtain ⟨out, h5, h6, h7⟩ := collapseFilter_eq (pathLevelsCount (chunks cs)) buf str (offsets 0 cs) [] h3
    (by simpa using hlev)
  rw [h5]
  simp only [M.ok_bind]
  rw [h4] at h6
  have h6' : out.map str = normalize cs := h6
  have hlen := foldl_pushComp_length cs []
  by_cases h8 : out.length = 0
  · rw [if_pos h8]
    have : out = [] := List.eq_nil_of_length_eq_zero h8
    subst this
    rw [if_pos (by simpa using h6'.symm)]
    have : 0 < (chunks cs).length := by
      cases cs with
      | nil => exact absurd rfl hcs
      | cons c cs => simp
    simp [strcat]; omega
  · rw [if_neg h8]
    have hn : normalize cs ≠ [] := by
      rw [← h6']; intro h; apply h8; simpa using congrArg List.length h
    rw [if_neg hn, collapseEmit_eq cap buf str out [] ?_ ?_]
    · rw [h6']; simp
    · intro n hn
      rcases h7 n hn with h | h
      · exact h3 n h
      · cases h
    · rw [h6']
      have : (chunks (normalize cs)).length ≤ (chunks ([] : List Str)).length + (chunks cs).length := hlen
      simp only [chunks_nil, List.length_nil, Nat.zero_add] at this
      simp only [List.nil_append]; omega

end Ush
