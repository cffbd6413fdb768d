import Verif.Spec.Paths
import Verif.Proof.Resolve
/-!
# The path functions on every text
-/
namespace Ush
open Spec

/-- A text with a `/` is: a text without, the `/`, the rest. -/
theorem split_first (p : Str) (h : cSlash ∈ p) : ∃ q s, p = q ++ cSlash :: s ∧ cSlash ∉ q := by
  induction p with
  | nil => cases h
  | cons c p ih =>
    by_cases hc : c = cSlash
    · exact ⟨[], p, by simp [hc], by simp⟩
    · obtain ⟨q, s, rfl, hq⟩ := ih (by
        rcases List.mem_cons.mp h with h | h
        · exact absurd h.symm hc
        · exact h)
      exact ⟨c :: q, s, rfl, by simp [hq, Ne.symm hc]⟩

theorem split_last (p : Str) (h : cSlash ∈ p) : ∃ q s, p = q ++ cSlash :: s ∧ cSlash ∉ s := by
  obtain ⟨q, s, e, hq⟩ := split_first p.reverse (by simpa using h)
  refine ⟨s.reverse, q.reverse, ?_, by simpa using hq⟩
  have := congrArg List.reverse e
  simpa using this

theorem dropWhile_split (q s : Str) (h : cSlash ∉ q) : (q ++ cSlash :: s).dropWhile (· ≠ cSlash) = cSlash :: s := by
  induction q with
  | nil => simp
  | cons c q ih =>
    simp only [List.mem_cons, not_or] at h
    simp only [List.cons_append, List.dropWhile_cons]
    rw [if_pos (by simpa using Ne.symm h.1)]
    exact ih h.2

theorem partsOf_split (q s : Str) (h : cSlash ∉ q) : partsOf (q ++ cSlash :: s) = parts true s := by
  unfold partsOf
  rw [dropWhile_split q s h]

theorem partsOf_none (p : Str) (h : cSlash ∉ p) : partsOf p = [] := by
  unfold partsOf
  have : p.dropWhile (· ≠ cSlash) = [] := by
    rw [List.dropWhile_eq_nil_iff]
    intro x hx
    simp only [decide_eq_true_eq]
    exact fun e => h (e ▸ hx)
  rw [this]

theorem levelCount_eq (p : Str) : pathLevelsCount p = levelCount p := by
  unfold pathLevelsCount levelCount
  by_cases h1 : p = b!"/"
  · simp [h1]
  · by_cases h2 : p = []
    · simp [h2]
    · rw [if_neg h1, if_neg h2, if_neg (by simp [h1, h2]), levelsLoop_eq]

/-- `collapsePath` on a text that does not begin with `/`. -/
theorem collapsePath_prefix (cap : Nat) (q : Str) (cs : List Str) (hq : q ≠ []) (hqs : cSlash ∉ q) (hqn : cNul ∉ q)
    (hc : ∀ c ∈ cs, Chunk c) (hd : ∀ c ∈ cs.dropLast, c ≠ []) (hcap : (q ++ chunks cs).length < cap) :
    collapsePath cap (q ++ chunks cs) = .ok (render (normalize cs)) := by
  obtain ⟨x, q', rfl⟩ : ∃ x q', q = x :: q' := by
    cases q with
    | nil => exact absurd rfl hq
    | cons x q' => exact ⟨x, q', rfl⟩
  have hx : x ≠ cSlash := fun h => hqs (by simp [h])
  have hsl : x :: q' ++ chunks cs ≠ b!"/" := by
    intro h
    simp only [List.cons_append, List.cons.injEq] at h
    exact hx h.1
  have hlev : cs.length + 1 ≤ pathLevelsCount (x :: q' ++ chunks cs) := by
    rw [levelCount_eq]
    unfold levelCount
    rw [if_neg (by simp only [hsl, false_or]; simp)]
    have := chunks_count cs
    simp only [List.cons_append, List.tail_cons, List.count_append]
    omega
  unfold collapsePath
  rw [strcpy_ok hcap, M.ok_bind, if_neg hsl]
  simp only
  rw [vla_ok (by omega), M.ok_bind]
  have h0 := collapseScan_text (pathLevelsCount (x :: q' ++ chunks cs)) (x :: q') ((chunks cs).length + 2) []
    (chunks cs ++ [cNul]) [] hqs hqn
  have h1 := collapseScan_chunks (pathLevelsCount (x :: q' ++ chunks cs)) cs ((chunks cs).length + 2) (x :: q') [] hc hd
    (by simp only [List.length_nil]; omega) (by omega)
  rw [List.nil_append, List.nil_append, h1] at h0
  rw [show (x :: q' ++ chunks cs).length + 2 = (chunks cs).length + 2 + (x :: q').length by simp; omega,
    List.append_assoc]
  simp only [List.nil_append, List.length_nil] at h0
  rw [h0]
  simp only [M.ok_bind]
  have h2 := cstrAt_offsets cs (x :: q') hc
  generalize hbuf : x :: q' ++ (chunksNul cs ++ [cNul]) = buf at h2 ⊢
  generalize hoff : offsets (x :: q').length cs = off at h2 ⊢
  let str : Nat → Str := fun n => match cstrAt buf n with | .ok s => s | .error _ => []
  have h3 : ∀ n ∈ off, cstrAt buf n = .ok (str n) := by
    intro n hn
    have : cstrAt buf n ∈ off.map (cstrAt buf) := List.mem_map_of_mem hn
    rw [h2] at this
    obtain ⟨s, _, hs⟩ := List.mem_map.mp this
    simp only [str, ← hs]
  have h4 : off.map str = cs := by
    have e1 : off.map (cstrAt buf) = off.map (fun n => .ok (str n)) := List.map_congr_left h3
    rw [h2, show (fun n => (.ok (str n) : M Str)) = Except.ok ∘ str from rfl, ← List.map_map] at e1
    exact (List.map_inj_right (fun a b h => by simpa using h) |>.mp e1).symm
  have hol : off.length = cs.length := by rw [← h4, List.length_map]
  obtain ⟨out, h5, h6, h7⟩ := collapseFilter_eq (pathLevelsCount (x :: q' ++ chunks cs)) buf str off [] h3
    (by simp only [List.length_nil]; omega)
  rw [h5]
  simp only [M.ok_bind]
  rw [h4] at h6
  have h6' : out.map str = normalize cs := h6
  have hlen := foldl_pushComp_length cs []
  by_cases h8 : out.length = 0
  · rw [if_pos h8]
    have : out = [] := List.eq_nil_of_length_eq_zero h8
    subst this
    have hn : normalize cs = [] := by simpa using h6'.symm
    rw [hn]
    simp only [List.cons_append, List.length_cons, List.length_append] at hcap
    rw [strcat_ok (by simp; omega)]
    rfl
  · rw [if_neg h8]
    have hn : normalize cs ≠ [] := by
      rw [← h6']; intro h; apply h8; simpa using congrArg List.length h
    rw [render_ne _ hn, collapseEmit_eq cap buf str out [] ?_ ?_]
    · rw [h6']; simp
    · intro n hn
      rcases h7 n hn with h | h
      · exact h3 n h
      · cases h
    · rw [h6']
      have : (chunks (normalize cs)).length ≤ (chunks ([] : List Str)).length + (chunks cs).length := hlen
      simp only [chunks_nil, List.length_nil, Nat.zero_add] at this
      simp only [List.nil_append]
      simp only [List.length_append] at hcap
      omega

theorem collapsePath_all (cap : Nat) (p : Str) (h0 : p ≠ []) (hn : cNul ∉ p) (hcap : p.length < cap) :
    collapsePath cap p = .ok (if p = b!"/" then b!"/" else render (normalize (partsOf p))) := by
  by_cases hs : cSlash ∈ p
  · obtain ⟨q, s, rfl, hq⟩ := split_first p hs
    have hsn : cNul ∉ s := fun h => hn (by simp [h])
    rw [partsOf_split q s hq]
    cases q with
    | nil => exact collapsePath_parts cap s hsn (by simpa using hcap)
    | cons x q' =>
      have hx : x ≠ cSlash := fun h => hq (by simp [h])
      rw [if_neg (by
        intro h
        simp only [List.cons_append, List.cons.injEq] at h
        exact hx h.1)]
      obtain ⟨h1, h2, h3⟩ := parts_ok s hsn
      rw [← h1] at hcap ⊢
      exact collapsePath_prefix cap (x :: q') _ (by simp) hq (fun h => hn (List.mem_append_left _ h)) h2 h3 hcap
  · rw [partsOf_none p hs, if_neg (by rintro rfl; exact hs (by simp))]
    have := collapsePath_prefix cap p [] h0 hs hn (by simp) (by simp) (by simpa using hcap)
    simpa using this

theorem pathLevelLoop_every (level : Nat) (s : Str) : ∀ (i : Nat) (c : UInt8) (out : Str), i ≤ level →
    pathLevelLoop level i (c :: s) out = out ++ c :: upToSlash (level + 1 - i) s := by
  induction s with
  | nil => intro i c out h; simp [pathLevelLoop, h, upToSlash]
  | cons d s ih =>
    intro i c out h
    rw [pathLevelLoop, if_pos h]
    obtain ⟨k, hk⟩ : ∃ k, level + 1 - i = k + 1 := ⟨level - i, by omega⟩
    rw [hk, upToSlash]
    by_cases hd : d = cSlash
    · simp only [hd, List.head?_cons, if_true]
      by_cases hk0 : k = 0
      · rw [if_pos hk0, pathLevelLoop, if_neg (by omega)]
      · rw [if_neg hk0, ih (i + 1) cSlash _ (by omega), show level + 1 - (i + 1) = k by omega]
        simp
    · rw [if_neg (by simpa using hd), if_neg hd, ih i d _ h, hk]
      simp

theorem upToSlash_length (s : Str) : ∀ n, (upToSlash n s).length ≤ s.length := by
  induction s with
  | nil => intro n; simp [upToSlash]
  | cons c s ih =>
    intro n
    cases n with
    | zero => simp [upToSlash]
    | succ n =>
      unfold upToSlash
      have h1 := ih n
      have h2 := ih (n + 1)
      split
      · split <;> simp; omega
      · simp; omega

theorem pathLevel_all (cap n : Nat) (p : Str) (hcap : p.length < cap) (h1 : 1 < cap) :
    pathLevel cap n p = .ok (firstLevels n p) := by
  unfold pathLevel firstLevels
  by_cases hn : n = 0
  · rw [if_pos hn, if_pos hn, strcpy_ok (by simpa using h1)]
  · rw [if_neg hn, if_neg hn]
    cases p with
    | nil => rw [strcpy_ok (by simp [pathLevelLoop]; omega)]; rfl
    | cons c s =>
      have := upToSlash_length s n
      simp only [List.length_cons] at hcap
      rw [pathLevelLoop_every n s 1 c [] (by omega), Nat.add_sub_cancel, strcpy_ok (by simp; omega)]
      rfl

theorem afterSlash_split (q s : Str) (h : cSlash ∉ s) : afterSlash (q ++ cSlash :: s) = s := by
  unfold afterSlash
  rw [List.reverse_append, List.reverse_cons, List.append_assoc, List.takeWhile_append_of_pos]
  · simp
  · intro c hc
    simp only [List.mem_reverse] at hc
    simp only [decide_eq_true_eq]
    exact fun e => h (e ▸ hc)

theorem afterSlash_none (s : Str) (h : cSlash ∉ s) : afterSlash s = s := by
  unfold afterSlash
  rw [List.takeWhile_eq_self_iff.mpr]
  · simp
  · intro c hc
    simp only [List.mem_reverse] at hc
    simp only [decide_eq_true_eq]
    exact fun e => h (e ▸ hc)

theorem pathLastLoop_none (p : Str) (h : cSlash ∉ p) : ∀ n, pathLastLoop p n = 0 := by
  intro n
  induction n with
  | zero => rfl
  | succ n ih =>
    rw [pathLastLoop, if_pos, ih]
    intro e
    exact h (List.mem_of_getElem? e)

theorem pathUpperLoop_none (p : Str) (h : cSlash ∉ p) : ∀ n, pathUpperLoop p n = p := by
  intro n
  induction n with
  | zero => rfl
  | succ n ih =>
    rw [pathUpperLoop, if_pos, ih]
    intro e
    exact h (List.mem_of_getElem? e)

theorem pathLast_all (p : Str) : pathLast p = if p.length = 1 then p else afterSlash p := by
  unfold pathLast pathLastOff
  split
  · rfl
  · by_cases hs : cSlash ∈ p
    · obtain ⟨q, s, rfl, h⟩ := split_last p hs
      rw [show (q ++ cSlash :: s).length = q.length + 1 + s.length by simp; omega,
        pathLastLoop_eq q s h s.length (Nat.le_refl _), afterSlash_split q s h,
        show q.length + 1 = (q ++ [cSlash]).length by simp, show q ++ cSlash :: s = (q ++ [cSlash]) ++ s by simp]
      exact List.drop_left
    · rw [pathLastLoop_none p hs, afterSlash_none p hs]
      rfl

theorem pathUpper_all (p : Str) : pathUpper p = if p.length = 1 then [] else beforeSlash p := by
  unfold pathUpper
  split
  · rfl
  · unfold beforeSlash
    by_cases hs : cSlash ∈ p
    · obtain ⟨q, s, rfl, h⟩ := split_last p hs
      rw [if_neg (by simp), afterSlash_split q s h,
        show (q ++ cSlash :: s).length = q.length + 1 + s.length by simp; omega,
        pathUpperLoop_eq q s h s.length (Nat.le_refl _)]
      by_cases hq : q = []
      · subst hq; simp
      · have : 0 < q.length := List.length_pos_iff.mpr hq
        rw [if_neg hq, if_neg (by omega), show q.length + 1 + s.length - s.length - 1 = q.length by omega]
        exact List.take_left.symm
    · rw [if_pos hs, pathUpperLoop_none p hs]

end Ush
