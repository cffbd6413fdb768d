import Verif.Proof.Collapse
import Verif.Spec.Text
/-!
# Lemmas about the path splitting functions, the escape decoder and the last-word function
-/
namespace Ush
open Spec

/-! ## Paths -/

theorem render_ne (cs : List Str) (h : cs ≠ []) : render cs = chunks cs := by
  unfold render chunks; rw [if_neg h]

theorem render_nil : render [] = b!"/" := rfl

theorem render_concat (cs : List Str) (c : Str) :
    render (cs ++ [c]) = (if cs = [] then [] else render cs) ++ cSlash :: c := by
  rw [render_ne _ (by simp)]
  split
  · rename_i h; subst h; simp [chunks]
  · rename_i h; rw [render_ne _ h]; simp [chunks]

theorem Spec.GoodComp.chunk {c : Str} (h : GoodComp c) : Chunk c :=
  ⟨fun h' => h.2.1 (List.mem_of_mem_tail h'), h.2.2⟩

theorem render_ne_slash (cs : List Str) (h : ∀ c ∈ cs, GoodComp c) (hne : cs ≠ []) : render cs ≠ b!"/" := by
  rw [render_ne _ hne]
  cases cs with
  | nil => exact absurd rfl hne
  | cons c cs =>
    intro h'
    simp only [chunks_cons, List.cons_append, List.cons.injEq, List.append_eq_nil_iff, true_and] at h'
    exact (h c (by simp)).1 h'.1

theorem good_of_normalize (cs : List Str) (h : ∀ c ∈ cs, GoodComp c) : ∀ c ∈ normalize cs, GoodComp c := by
  have : ∀ st : List Str, (∀ c ∈ st, GoodComp c) → ∀ c ∈ cs.foldl pushComp st, GoodComp c := by
    induction cs with
    | nil => intro st hst; exact hst
    | cons d ds ih =>
      intro st hst
      apply ih (fun c hc => h c (by simp [hc]))
      intro c hc
      unfold pushComp at hc
      split at hc
      · exact hst c hc
      · split at hc
        · exact hst c (List.dropLast_subset _ hc)
        · simp only [List.mem_append, List.mem_singleton] at hc
          rcases hc with hc | rfl
          · exact hst c hc
          · exact h c (by simp)
  exact this [] (by simp)

theorem render_length_pos (cs : List Str) : 0 < (render cs).length := by
  unfold render
  split
  · simp
  · cases cs with
    | nil => contradiction
    | cons c cs => simp

theorem collapsePath_render (cap : Nat) (cs : List Str) (hc : ∀ c ∈ cs, GoodComp c)
    (hcap : (render cs).length < cap) : collapsePath cap (render cs) = .ok (render (normalize cs)) := by
  by_cases h : cs = []
  · subst h
    have : (b!"/").length < cap := hcap
    rw [render_nil]
    unfold collapsePath
    rw [strcpy_ok this, M.ok_bind, if_pos rfl]
    rfl
  · rw [render_ne _ h] at hcap ⊢
    rw [collapsePath_chunks cap cs h ?_ (fun c h' => Spec.GoodComp.chunk (hc c h'))
      (fun c h' => (hc c (List.dropLast_subset _ h')).1) hcap]
    · rfl
    · rintro rfl
      exact (hc [] (by simp)).1 rfl

/-- Counting with every part free of `/`. -/
theorem chunks_count_good (cs : List Str) (h : ∀ c ∈ cs, GoodComp c) : (chunks cs).count cSlash = cs.length := by
  induction cs with
  | nil => rfl
  | cons c cs ih =>
    simp only [chunks_cons, List.cons_append, List.count_cons, List.count_append, List.length_cons,
      beq_self_eq_true, if_true]
    rw [ih (fun c h' => h c (by simp [h'])), List.count_eq_zero_of_not_mem (h c (by simp)).2.1]
    omega

theorem pathLevelsCount_render (cs : List Str) (h : ∀ c ∈ cs, GoodComp c) :
    pathLevelsCount (render cs) = cs.length := by
  by_cases hne : cs = []
  · subst hne; rfl
  · unfold pathLevelsCount
    rw [if_neg (render_ne_slash cs h hne), render_ne _ hne]
    cases cs with
    | nil => exact absurd rfl hne
    | cons c cs =>
      rw [if_neg (by simp), levelsLoop_eq]
      simp only [chunks_cons, List.cons_append, List.tail_cons, List.count_append, List.length_cons]
      rw [chunks_count_good cs (fun c h' => h c (by simp [h'])),
        List.count_eq_zero_of_not_mem (h c (by simp)).2.1]
      omega

theorem pathLevelLoop_text (level : Nat) (t : Str) : ∀ (i : Nat) (c : UInt8) (rest out : Str),
    cSlash ∉ t → i ≤ level →
    pathLevelLoop level i (c :: t ++ rest) out =
      pathLevelLoop level (if rest.head? = some cSlash then i + 1 else i) rest (out ++ c :: t) := by
  induction t with
  | nil =>
    intro i c rest out _ hi
    simp only [List.cons_append, List.nil_append, pathLevelLoop, if_pos hi]
  | cons d t ih =>
    intro i c rest out ht hi
    simp only [List.mem_cons, not_or] at ht
    rw [List.cons_append, pathLevelLoop, if_pos hi]
    have : ((d :: t ++ rest).head? = some cSlash) = False := by
      simp only [List.cons_append, List.head?_cons, Option.some.injEq, eq_iff_iff, iff_false]
      exact fun h => ht.1 h.symm
    rw [if_neg (by rw [this]; exact id), ih i d rest _ ht.2 hi]
    simp

theorem pathLevelLoop_chunks (level : Nat) (cs : List Str) (h : ∀ c ∈ cs, GoodComp c) :
    ∀ (i : Nat) (out : Str), i ≤ level + 1 →
    pathLevelLoop level i (chunks cs) out = out ++ chunks (cs.take (level + 1 - i)) := by
  induction cs with
  | nil => intro i out _; simp [pathLevelLoop]
  | cons c cs ih =>
    intro i out hi
    by_cases hi' : i ≤ level
    · have hg := h c (by simp)
      rw [chunks_cons, pathLevelLoop_text level c i cSlash (chunks cs) out hg.2.1 hi']
      rw [show level + 1 - i = (level - i) + 1 by omega, List.take_succ_cons, chunks_cons]
      cases cs with
      | nil => simp [pathLevelLoop]
      | cons d ds =>
        rw [if_pos (by simp), ih (fun c h' => h c (by simp [h'])) (i + 1) _ (by omega)]
        rw [show level + 1 - (i + 1) = level - i by omega]
        simp
    · have : i = level + 1 := by omega
      subst this
      rw [chunks_cons, List.cons_append, pathLevelLoop, if_neg hi']
      simp

theorem pathLevel_render (cap i : Nat) (cs : List Str) (h : ∀ c ∈ cs, GoodComp c) (hne : cs ≠ [])
    (hcap : (render cs).length < cap) : pathLevel cap i (render cs) = .ok (render (cs.take i)) := by
  have hpos := render_length_pos cs
  unfold pathLevel
  by_cases hi : i = 0
  · subst hi
    rw [if_pos rfl, strcpy_ok (by simp; omega)]
    simp [render]
  · rw [if_neg hi, render_ne _ hne, pathLevelLoop_chunks i cs h 1 [] (by omega)]
    have ht : cs.take i ≠ [] := by simp [hi, hne]
    rw [render_ne _ ht]
    rw [render_ne _ hne] at hcap
    have hle : (chunks (cs.take i)).length ≤ (chunks cs).length := by
      have e : chunks cs = chunks (cs.take i) ++ chunks (cs.drop i) := by
        unfold chunks; rw [← List.flatMap_append, List.take_append_drop]
      rw [e]; simp
    simp only [List.nil_append, Nat.add_sub_cancel]
    rw [strcpy_ok (by omega)]

theorem pathUpperLoop_eq (q c : Str) (hc : cSlash ∉ c) : ∀ k, k ≤ c.length →
    pathUpperLoop (q ++ cSlash :: c) (q.length + 1 + k) = if q = [] then b!"/" else q := by
  intro k
  induction k with
  | zero =>
    intro _
    simp only [pathUpperLoop]
    rw [if_neg (by simp)]
    by_cases hq : q = []
    · subst hq; rfl
    · rw [if_neg hq, if_neg (by simpa using hq)]
      simp
  | succ k ih =>
    intro hk
    rw [← Nat.add_assoc, pathUpperLoop, if_pos, ih (by omega)]
    rw [List.getElem?_append_right (by omega), show q.length + 1 + k - q.length = k + 1 by omega,
      List.getElem?_cons_succ, List.getElem?_eq_getElem (by omega)]
    simp only [ne_eq, Option.some.injEq]
    intro h
    exact hc (h ▸ List.getElem_mem _)

theorem pathUpper_concat (cs : List Str) (c : Str) (hc : GoodComp c) :
    pathUpper (render (cs ++ [c])) = render cs := by
  rw [render_concat]
  generalize hq : (if cs = [] then ([] : Str) else render cs) = q
  have hcl : 0 < c.length := List.length_pos_iff.mpr hc.1
  unfold pathUpper
  rw [if_neg (by simp; omega)]
  have := pathUpperLoop_eq q c hc.2.1 c.length (Nat.le_refl _)
  rw [show (q ++ cSlash :: c).length = q.length + 1 + c.length by simp; omega, this]
  by_cases h : cs = []
  · subst h; subst hq; rfl
  · rw [if_neg h] at hq
    subst hq
    rw [if_neg]
    intro h'
    have := render_length_pos cs
    rw [h'] at this
    simp at this

theorem pathLastLoop_eq (q c : Str) (hc : cSlash ∉ c) : ∀ k, k ≤ c.length →
    pathLastLoop (q ++ cSlash :: c) (q.length + 1 + k) = q.length + 1 := by
  intro k
  induction k with
  | zero =>
    intro _
    simp [pathLastLoop]
  | succ k ih =>
    intro hk
    rw [← Nat.add_assoc, pathLastLoop, if_pos, ih (by omega)]
    rw [List.getElem?_append_right (by omega), show q.length + 1 + k - q.length = k + 1 by omega,
      List.getElem?_cons_succ, List.getElem?_eq_getElem (by omega)]
    simp only [ne_eq, Option.some.injEq]
    intro h
    exact hc (h ▸ List.getElem_mem _)

theorem pathLast_concat (cs : List Str) (c : Str) (hc : GoodComp c) : pathLast (render (cs ++ [c])) = c := by
  rw [render_concat]
  generalize (if cs = [] then ([] : Str) else render cs) = q
  have hcl : 0 < c.length := List.length_pos_iff.mpr hc.1
  unfold pathLast pathLastOff
  rw [if_neg (by simp; omega)]
  have := pathLastLoop_eq q c hc.2.1 c.length (Nat.le_refl _)
  rw [show (q ++ cSlash :: c).length = q.length + 1 + c.length by simp; omega, this]
  rw [show q.length + 1 = (q ++ [cSlash]).length by simp, show q ++ cSlash :: c = (q ++ [cSlash]) ++ c by simp]
  exact List.drop_left

theorem joinPath_render (cap : Nat) (cs : List Str) (name : Str) (h : ∀ c ∈ cs, GoodComp c)
    (hcap : (render (cs ++ [name])).length < cap) :
    joinPath cap (render cs) name = .ok (render (cs ++ [name])) := by
  have hpos := render_length_pos cs
  rw [render_concat] at hcap ⊢
  unfold joinPath
  by_cases hne : cs = []
  · subst hne
    simp only [if_true, List.nil_append, List.length_cons] at hcap
    rw [render_nil, strcpy_ok (by simp; omega), M.ok_bind, if_pos rfl, strcat_ok (by simp; omega)]
    rfl
  · rw [if_neg hne] at hcap ⊢
    simp only [List.length_append, List.length_cons] at hcap
    rw [strcpy_ok (by omega), M.ok_bind, if_neg (render_ne_slash cs h hne), strcat_ok (by simp; omega),
      M.ok_bind, strcat_ok (by simp; omega)]
    simp

/-! ## Escape decoder -/

set_option maxRecDepth 4000 in
theorem hexToDec_eq (a b : UInt8) :
    (hexToDec a <<< 4) ||| hexToDec b = UInt8.ofNat (16 * nibble a + nibble b) := by
  have h1 : ∀ n : Fin 256, (hexToDec (UInt8.ofNat n.val)).toNat = nibble (UInt8.ofNat n.val) ∧
      nibble (UInt8.ofNat n.val) < 16 := by decide
  have h2 : ∀ c : UInt8, (hexToDec c).toNat = nibble c ∧ nibble c < 16 := by
    intro c
    have := h1 ⟨c.toNat, c.toNat_lt⟩
    simpa using this
  have h3 : ∀ x y : Fin 16, (UInt8.ofNat x.val <<< 4) ||| UInt8.ofNat y.val = UInt8.ofNat (16 * x.val + y.val) := by
    decide
  have h4 := h3 ⟨nibble a, (h2 a).2⟩ ⟨nibble b, (h2 b).2⟩
  rw [← h4]
  simp only [← (h2 a).1, ← (h2 b).1]
  simp

theorem decodeLoop_max (maxSize : Nat) (s : Str) (st : Nat) (v : UInt8) (out : Str) (h : maxSize ≤ out.length) :
    decodeLoop maxSize s st v out = out := by
  cases s with
  | nil => rfl
  | cons c s => rw [decodeLoop, if_neg (by omega)]

theorem decodeSpec_nil : decodeSpec [] = [] := by rw [decodeSpec]

theorem decodeSpec_lit (c : UInt8) (r : Str) (h : c ≠ cBackslash) : decodeSpec (c :: r) = c :: decodeSpec r := by
  cases r with
  | nil => simp [decodeSpec, h]
  | cons d r => rw [decodeSpec.eq_def]; simp [h]

theorem decodeSpec_bs : decodeSpec [cBackslash] = [] := by simp [decodeSpec]

theorem decodeSpec_esc (d : UInt8) (r : Str) (h : d ≠ cX) :
    decodeSpec (cBackslash :: d :: r) = d :: decodeSpec r := by
  rw [decodeSpec.eq_def]; simp [h]

theorem decodeSpec_hex (a b : UInt8) (r : Str) :
    decodeSpec (cBackslash :: cX :: a :: b :: r) = UInt8.ofNat (16 * nibble a + nibble b) :: decodeSpec r := by
  rw [decodeSpec.eq_def]; simp

theorem decodeSpec_hex1 (a : UInt8) : decodeSpec [cBackslash, cX, a] = [] := by
  rw [decodeSpec.eq_def]; simp

theorem decodeSpec_hex0 : decodeSpec [cBackslash, cX] = [] := by
  rw [decodeSpec.eq_def]; simp

/-- Induction along the escapes. -/
theorem decode_induct {P : Str → Prop} (nil : P []) (bs : P [cBackslash]) (hex0 : P [cBackslash, cX])
    (hex1 : ∀ a, P [cBackslash, cX, a]) (lit : ∀ c r, c ≠ cBackslash → P r → P (c :: r))
    (esc : ∀ d r, d ≠ cX → P r → P (cBackslash :: d :: r))
    (hex : ∀ a b r, P r → P (cBackslash :: cX :: a :: b :: r)) (s : Str) : P s := by
  have h : ∀ n, ∀ s : Str, s.length ≤ n → P s := by
    intro n
    induction n with
    | zero => intro s hs; rw [List.eq_nil_of_length_eq_zero (Nat.le_zero.mp hs)]; exact nil
    | succ n ih =>
      intro s hs
      match s with
      | [] => exact nil
      | c :: r =>
        simp only [List.length_cons] at hs
        by_cases hc : c = cBackslash
        · subst hc
          match r with
          | [] => exact bs
          | d :: r =>
            simp only [List.length_cons] at hs
            by_cases hd : d = cX
            · subst hd
              match r with
              | [] => exact hex0
              | [a] => exact hex1 a
              | a :: b :: r => exact hex a b r (ih r (by simp only [List.length_cons] at hs; omega))
            · exact esc d r hd (ih r (by omega))
        · exact lit c r hc (ih r (by omega))
  exact h _ s (Nat.le_refl _)

theorem decodeLoop_eq (maxSize : Nat) (s : Str) : ∀ (v : UInt8) (out : Str), out.length ≤ maxSize →
    decodeLoop maxSize s 0 v out = (out ++ decodeSpec s).take maxSize := by
  have full : ∀ (s : Str) (st : Nat) (v : UInt8) (out : Str), out.length ≤ maxSize → ¬ out.length < maxSize →
      decodeLoop maxSize s st v out = (out ++ decodeSpec s).take maxSize := by
    intro s st v out h h'
    have : out.length = maxSize := by omega
    rw [decodeLoop_max _ _ _ _ _ (by omega)]
    simp [← this]
  induction s using decode_induct with
  | nil => intro v out h; simp [decodeLoop, decodeSpec_nil, List.take_of_length_le h]
  | bs => intro v out h; simp [decodeLoop, decodeSpec_bs, List.take_of_length_le h]
  | hex0 => intro v out h; simp [decodeLoop, decodeSpec_hex0, List.take_of_length_le h]
  | hex1 a => intro v out h; simp [decodeLoop, decodeSpec_hex1, List.take_of_length_le h]
  | lit c r hc ih =>
    intro v out h
    by_cases h' : out.length < maxSize
    · rw [decodeLoop, if_pos h', if_pos rfl, if_neg hc, ih _ _ (by simp; omega), decodeSpec_lit c r hc]
      simp
    · exact full _ _ _ _ h h'
  | esc d r hd ih =>
    intro v out h
    by_cases h' : out.length < maxSize
    · rw [decodeLoop, if_pos h', if_pos rfl, if_pos rfl, decodeLoop, if_pos h', if_neg (by decide), if_pos rfl,
        if_neg hd, ih _ _ (by simp; omega), decodeSpec_esc d r hd]
      simp
    · exact full _ _ _ _ h h'
  | hex a b r ih =>
    intro v out h
    by_cases h' : out.length < maxSize
    · simp only [decodeLoop, if_pos h', if_true]
      rw [if_neg (by decide), if_neg (by decide), if_neg (by decide), if_neg (by decide),
        if_neg (by decide), if_neg (by decide), ih _ _ (by simp; omega), hexToDec_eq, decodeSpec_hex]
      simp
    · exact full _ _ _ _ h h'

theorem decodeSpec_length (s : Str) : (decodeSpec s).length ≤ s.length := by
  induction s using decode_induct with
  | nil => simp [decodeSpec_nil]
  | bs => simp [decodeSpec_bs]
  | hex0 => simp [decodeSpec_hex0]
  | hex1 a => simp [decodeSpec_hex1]
  | lit c r hc ih => rw [decodeSpec_lit c r hc]; simp; omega
  | esc d r hd ih => rw [decodeSpec_esc d r hd]; simp; omega
  | hex a b r ih => rw [decodeSpec_hex]; simp; omega

/-- In-place decoding: `P` is everything before the write position, `gap` the bytes between the write and
the read position. -/
theorem decodeInPlaceLoop_eq (maxSize : Nat) (s : Str) : ∀ (fuel : Nat) (P gap : List UInt8) (v : UInt8) (ret : Nat)
    (tail : List UInt8), cNul ∉ s → ret ≤ maxSize → s.length < fuel →
    decodeInPlaceLoop maxSize fuel (P ++ (gap ++ (s ++ cNul :: tail))) (P.length + gap.length) P.length 0 v ret =
      .ok (P ++ ((decodeSpec s).take (maxSize - ret) ++
        (gap ++ (s ++ cNul :: tail)).drop ((decodeSpec s).take (maxSize - ret)).length),
        ret + ((decodeSpec s).take (maxSize - ret)).length) := by
  have rdp : ∀ (P gap : List UInt8) (c : UInt8) (r : List UInt8),
      rd (P ++ (gap ++ c :: r)) (P.length + gap.length) = .ok c := by
    intro P gap c r
    have := rd_append_length (P ++ gap) c r
    simpa using this
  have rdp1 : ∀ (P gap : List UInt8) (x c : UInt8) (r : List UInt8),
      rd (P ++ (gap ++ x :: c :: r)) (P.length + gap.length + 1) = .ok c := by
    intro P gap x c r
    have := rd_append_length (P ++ gap ++ [x]) c r
    simpa [Nat.add_assoc] using this
  have rdp2 : ∀ (P gap : List UInt8) (x y c : UInt8) (r : List UInt8),
      rd (P ++ (gap ++ x :: y :: c :: r)) (P.length + gap.length + 1 + 1) = .ok c := by
    intro P gap x y c r
    have := rd_append_length (P ++ gap ++ [x, y]) c r
    simpa [Nat.add_assoc] using this
  have rdp3 : ∀ (P gap : List UInt8) (x y z c : UInt8) (r : List UInt8),
      rd (P ++ (gap ++ x :: y :: z :: c :: r)) (P.length + gap.length + 1 + 1 + 1) = .ok c := by
    intro P gap x y z c r
    have := rd_append_length (P ++ gap ++ [x, y, z]) c r
    simpa [Nat.add_assoc] using this
  have wrp : ∀ (P gap : List UInt8) (x : UInt8) (r : List UInt8) (c : UInt8),
      wr (P ++ (gap ++ x :: r)) P.length c = .ok (P ++ [c] ++ ((gap ++ [x]).drop 1 ++ r)) := by
    intro P gap x r c
    cases gap with
    | nil => simp [wr_append_length]
    | cons g gap => simp [wr_append_length]
  have full : ∀ (s : Str) (fuel : Nat) (P gap : List UInt8) (v : UInt8) (ret : Nat) (tail : List UInt8),
      ret ≤ maxSize → s.length < fuel → ¬ ret < maxSize →
      decodeInPlaceLoop maxSize fuel (P ++ (gap ++ (s ++ cNul :: tail))) (P.length + gap.length) P.length 0 v ret =
      .ok (P ++ ((decodeSpec s).take (maxSize - ret) ++
        (gap ++ (s ++ cNul :: tail)).drop ((decodeSpec s).take (maxSize - ret)).length),
        ret + ((decodeSpec s).take (maxSize - ret)).length) := by
    intro s fuel P gap v ret tail h1 h2 h3
    obtain ⟨fuel, rfl⟩ : ∃ k, fuel = k + 1 := ⟨fuel - 1, by omega⟩
    have e : maxSize - ret = 0 := by omega
    have hrd : ∃ c, rd (P ++ (gap ++ (s ++ cNul :: tail))) (P.length + gap.length) = .ok c := by
      cases s with
      | nil => exact ⟨_, rdp P gap cNul tail⟩
      | cons c s => exact ⟨_, rdp P gap c (s ++ cNul :: tail)⟩
    obtain ⟨c, hrd⟩ := hrd
    rw [decodeInPlaceLoop, hrd, e]
    simp [h3]
  induction s using decode_induct with
  | nil =>
    intro fuel P gap v ret tail _ _ hf
    obtain ⟨fuel, rfl⟩ : ∃ k, fuel = k + 1 := ⟨fuel - 1, by omega⟩
    rw [decodeInPlaceLoop, List.nil_append, rdp]
    simp [decodeSpec_nil]
  | bs =>
    intro fuel P gap v ret tail _ h1 hf
    by_cases h' : ret < maxSize
    · obtain ⟨fuel, rfl⟩ : ∃ k, fuel = k + 2 := ⟨fuel - 2, by simp at hf; omega⟩
      rw [decodeInPlaceLoop]
      simp only [List.cons_append, List.nil_append, rdp, M.ok_bind]
      rw [if_pos (by simp [h']; decide), if_pos (by trivial), if_pos (by trivial), decodeInPlaceLoop, rdp1]
      simp [decodeSpec_bs]
    · exact full _ _ _ _ _ _ _ h1 hf h'
  | hex0 =>
    intro fuel P gap v ret tail _ h1 hf
    by_cases h' : ret < maxSize
    · obtain ⟨fuel, rfl⟩ : ∃ k, fuel = k + 3 := ⟨fuel - 3, by simp at hf; omega⟩
      rw [decodeInPlaceLoop]
      simp only [List.cons_append, List.nil_append, rdp, M.ok_bind]
      rw [if_pos (by simp [h']; decide), if_pos (by trivial), if_pos (by trivial), decodeInPlaceLoop, rdp1, M.ok_bind,
        if_pos (by simp [h']; decide), if_neg (by decide), if_pos (by trivial), if_pos (by trivial), decodeInPlaceLoop, rdp2]
      simp [decodeSpec_hex0]
    · exact full _ _ _ _ _ _ _ h1 hf h'
  | hex1 a =>
    intro fuel P gap v ret tail hn h1 hf
    simp only [List.mem_cons, not_or] at hn
    have ha : a ≠ cNul := fun h => hn.2.2.1 h.symm
    by_cases h' : ret < maxSize
    · obtain ⟨fuel, rfl⟩ : ∃ k, fuel = k + 4 := ⟨fuel - 4, by simp at hf; omega⟩
      rw [decodeInPlaceLoop]
      simp only [List.cons_append, List.nil_append, rdp, M.ok_bind]
      rw [if_pos (by simp [h']; decide), if_pos (by trivial), if_pos (by trivial), decodeInPlaceLoop, rdp1, M.ok_bind,
        if_pos (by simp [h']; decide), if_neg (by decide), if_pos (by trivial), if_pos (by trivial), decodeInPlaceLoop, rdp2,
        M.ok_bind, if_pos (by simp [h', ha]), if_neg (by decide), if_neg (by decide), if_pos (by trivial),
        decodeInPlaceLoop, rdp3]
      simp [decodeSpec_hex1]
    · exact full _ _ _ _ _ _ _ h1 hf h'
  | lit c r hc ih =>
    intro fuel P gap v ret tail hn h1 hf
    simp only [List.mem_cons, not_or] at hn
    have hcn : c ≠ cNul := fun h => hn.1 h.symm
    by_cases h' : ret < maxSize
    · obtain ⟨fuel, rfl⟩ : ∃ k, fuel = k + 1 := ⟨fuel - 1, by omega⟩
      rw [decodeInPlaceLoop]
      simp only [List.cons_append, rdp, M.ok_bind]
      rw [if_pos (by simp [h', hcn]), if_pos (by trivial), if_neg hc, wrp, M.ok_bind]
      have := ih fuel (P ++ [c]) ((gap ++ [c]).drop 1) v (ret + 1) tail hn.2 (by omega) (by simp at hf; omega)
      have e1 : (P ++ [c]).length + ((gap ++ [c]).drop 1).length = P.length + gap.length + 1 := by simp; omega
      rw [e1] at this
      rw [show (P ++ [c]).length = P.length + 1 by simp] at this
      rw [this, decodeSpec_lit c r hc]
      obtain ⟨k, hk⟩ : ∃ k, maxSize - ret = k + 1 := ⟨maxSize - ret - 1, by omega⟩
      rw [hk, show maxSize - (ret + 1) = k by omega, List.take_succ_cons]
      have e2 : gap ++ c :: (r ++ cNul :: tail) = (gap ++ [c]) ++ (r ++ cNul :: tail) := by simp
      have e3 : ∃ g G, gap ++ [c] = g :: G := by
        cases gap with
        | nil => exact ⟨c, [], rfl⟩
        | cons g G => exact ⟨g, G ++ [c], rfl⟩
      obtain ⟨g, G, e3⟩ := e3
      rw [e2, e3]
      simp; omega
    · exact full _ _ _ _ _ _ _ h1 hf h'
  | esc d r hd ih =>
    intro fuel P gap v ret tail hn h1 hf
    simp only [List.mem_cons, not_or] at hn
    have hdn : d ≠ cNul := fun h => hn.2.1 h.symm
    by_cases h' : ret < maxSize
    · obtain ⟨fuel, rfl⟩ : ∃ k, fuel = k + 2 := ⟨fuel - 2, by simp at hf; omega⟩
      rw [decodeInPlaceLoop]
      simp only [List.cons_append, rdp, M.ok_bind]
      rw [if_pos (by simp [h']; decide), if_pos (by trivial), if_pos (by trivial), decodeInPlaceLoop, rdp1, M.ok_bind,
        if_pos (by simp [h', hdn]), if_neg (by decide), if_pos (by trivial), if_neg hd, wrp, M.ok_bind]
      have := ih fuel (P ++ [d]) ((gap ++ [cBackslash]).drop 1 ++ [d]) v (ret + 1) tail hn.2.2 (by omega)
        (by simp at hf; omega)
      have e1 : (P ++ [d]).length + ((gap ++ [cBackslash]).drop 1 ++ [d]).length =
        P.length + gap.length + 1 + 1 := by simp; omega
      rw [e1] at this
      rw [show (P ++ [d]).length = P.length + 1 by simp] at this
      rw [show (gap ++ [cBackslash]).drop 1 ++ d :: (r ++ cNul :: tail) =
        (gap ++ [cBackslash]).drop 1 ++ [d] ++ (r ++ cNul :: tail) by simp]
      rw [this, decodeSpec_esc d r hd]
      obtain ⟨k, hk⟩ : ∃ k, maxSize - ret = k + 1 := ⟨maxSize - ret - 1, by omega⟩
      rw [hk, show maxSize - (ret + 1) = k by omega, List.take_succ_cons]
      have e2 : gap ++ cBackslash :: d :: (r ++ cNul :: tail) = (gap ++ [cBackslash]) ++ d :: (r ++ cNul :: tail) := by simp
      have e3 : ∃ g G, gap ++ [cBackslash] = g :: G := by
        cases gap with
        | nil => exact ⟨_, [], rfl⟩
        | cons g G => exact ⟨g, G ++ _, rfl⟩
      obtain ⟨g, G, e3⟩ := e3
      rw [e2, e3]
      simp; omega
    · exact full _ _ _ _ _ _ _ h1 hf h'
  | hex a b r ih =>
    intro fuel P gap v ret tail hn h1 hf
    simp only [List.mem_cons, not_or] at hn
    have han : a ≠ cNul := fun h => hn.2.2.1 h.symm
    have hbn : b ≠ cNul := fun h => hn.2.2.2.1 h.symm
    by_cases h' : ret < maxSize
    · obtain ⟨fuel, rfl⟩ : ∃ k, fuel = k + 4 := ⟨fuel - 4, by simp at hf; omega⟩
      rw [decodeInPlaceLoop]
      simp only [List.cons_append, rdp, M.ok_bind]
      rw [if_pos (by simp [h']; decide), if_pos (by trivial), if_pos (by trivial), decodeInPlaceLoop, rdp1, M.ok_bind,
        if_pos (by simp [h']; decide), if_neg (by decide), if_pos (by trivial), if_pos (by trivial), decodeInPlaceLoop, rdp2,
        M.ok_bind, if_pos (by simp [h', han]), if_neg (by decide), if_neg (by decide), if_pos (by trivial),
        decodeInPlaceLoop, rdp3, M.ok_bind, if_pos (by simp [h', hbn]), if_neg (by decide), if_neg (by decide),
        if_neg (by decide)]
      simp only
      rw [wrp, M.ok_bind]
      generalize hv : hexToDec a <<< 4 ||| hexToDec b = w
      rw [hexToDec_eq] at hv
      have := ih fuel (P ++ [w]) ((gap ++ [cBackslash]).drop 1 ++ [cX, a, b]) w (ret + 1) tail hn.2.2.2.2 (by omega)
        (by simp at hf; omega)
      have e1 : (P ++ [w]).length + ((gap ++ [cBackslash]).drop 1 ++ [cX, a, b]).length =
        P.length + gap.length + 1 + 1 + 1 + 1 := by simp; omega
      rw [e1] at this
      rw [show (P ++ [w]).length = P.length + 1 by simp] at this
      rw [show (gap ++ [cBackslash]).drop 1 ++ cX :: a :: b :: (r ++ cNul :: tail) =
        (gap ++ [cBackslash]).drop 1 ++ [cX, a, b] ++ (r ++ cNul :: tail) by simp]
      rw [this, decodeSpec_hex, hv]
      obtain ⟨k, hk⟩ : ∃ k, maxSize - ret = k + 1 := ⟨maxSize - ret - 1, by omega⟩
      rw [hk, show maxSize - (ret + 1) = k by omega, List.take_succ_cons]
      have e2 : gap ++ cBackslash :: cX :: a :: b :: (r ++ cNul :: tail) =
        (gap ++ [cBackslash]) ++ cX :: a :: b :: (r ++ cNul :: tail) := by simp
      have e3 : ∃ g G, gap ++ [cBackslash] = g :: G := by
        cases gap with
        | nil => exact ⟨_, [], rfl⟩
        | cons g G => exact ⟨g, G ++ _, rfl⟩
      obtain ⟨g, G, e3⟩ := e3
      rw [e2, e3]
      simp; omega
    · exact full _ _ _ _ _ _ _ h1 hf h'

/-- Decoding in place: the decoded bytes replace the beginning of the string, nothing else changes. -/
theorem decodeInPlace_eq (pre s tail : List UInt8) (maxSize : Nat) (hs : cNul ∉ s) :
    decodeInPlace (pre ++ (s ++ cNul :: tail)) pre.length maxSize =
      .ok (pre ++ ((decodeSpec s).take maxSize ++ (s ++ cNul :: tail).drop ((decodeSpec s).take maxSize).length),
        ((decodeSpec s).take maxSize).length) := by
  have := decodeInPlaceLoop_eq maxSize s ((pre ++ (s ++ cNul :: tail)).length + 1) pre [] 0 0 tail hs
    (by omega) (by simp; omega)
  simpa [decodeInPlace] using this

set_option maxRecDepth 4000 in
theorem decode_encode_byte : ∀ n : Fin 256,
    16 * nibble (digit (n.val / 16)) + nibble (digit (n.val % 16)) = n.val := by decide

theorem decodeSpec_encode (bs : Str) : decodeSpec (encode bs) = bs := by
  induction bs with
  | nil => rfl
  | cons b bs ih =>
    have : encode (b :: bs) = cBackslash :: cX :: digit (b.toNat / 16) :: digit (b.toNat % 16) :: encode bs := rfl
    rw [this, decodeSpec_hex, ih]
    have := decode_encode_byte ⟨b.toNat, b.toNat_lt⟩
    simp only at this
    rw [this]; simp

/-! ## Last word -/

theorem lastArgLoop_none (s : Str) : ∀ n, (∀ i, 1 ≤ i → i ≤ n → s[i]? ≠ some cSpace) → lastArgLoop s n = 0 := by
  intro n
  induction n with
  | zero => intro _; rfl
  | succ n ih =>
    intro h
    rw [lastArgLoop, if_neg (h (n + 1) (by omega) (by omega)), ih (fun i h1 h2 => h i h1 (by omega))]

theorem lastArgLoop_found (s : Str) (k : Nat) (hk : 1 ≤ k) (hs : s[k]? = some cSpace) :
    ∀ n, k ≤ n → (∀ i, k < i → i ≤ n → s[i]? ≠ some cSpace) → lastArgLoop s n = k + 1 := by
  intro n
  induction n with
  | zero => intro h; omega
  | succ n ih =>
    intro h h2
    by_cases e : k = n + 1
    · subst e; rw [lastArgLoop, if_pos hs]
    · rw [lastArgLoop, if_neg (h2 (n + 1) (by omega) (by omega)), ih (by omega) (fun i h1 h3 => h2 i h1 (by omega))]

theorem lastWord_split (q w : Str) (hw : cSpace ∉ w) : lastWord (q ++ cSpace :: w) = w := by
  unfold lastWord
  have : ∀ a ∈ w.reverse, (a != cSpace) = true := by
    intro a ha
    simp only [bne_iff_ne, ne_eq]
    rintro rfl
    exact hw (by simpa using ha)
  rw [List.reverse_append, List.reverse_cons, List.append_assoc, List.takeWhile_append_of_pos this]
  simp

theorem lastWord_nospace (w : Str) (hw : cSpace ∉ w) : lastWord w = w := by
  unfold lastWord
  rw [List.takeWhile_eq_self_iff.mpr]
  · simp
  · intro a ha
    simp only [bne_iff_ne, ne_eq]
    rintro rfl
    exact hw (by simpa using ha)

theorem exists_last_space (s : Str) (h : cSpace ∈ s) : ∃ q w, s = q ++ cSpace :: w ∧ cSpace ∉ w := by
  induction s with
  | nil => cases h
  | cons c s ih =>
    by_cases hs : cSpace ∈ s
    · obtain ⟨q, w, e, hw⟩ := ih hs
      exact ⟨c :: q, w, by simp [e], hw⟩
    · simp only [List.mem_cons, hs, or_false] at h
      subst h
      exact ⟨[], s, rfl, hs⟩

theorem lastArgOff_split (q w : Str) (hw : cSpace ∉ w) (hx : q ≠ [] ∨ w = []) :
    lastArgOff (q ++ cSpace :: w) = q.length + 1 := by
  unfold lastArgOff
  rw [if_neg (by simp)]
  by_cases hw0 : w = []
  · subst hw0
    simp
  · have hq : q ≠ [] := hx.resolve_right hw0
    have hq1 : 0 < q.length := List.length_pos_iff.mpr hq
    have hw1 : 0 < w.length := List.length_pos_iff.mpr hw0
    have hno : ∀ i, q.length < i → (q ++ cSpace :: w)[i]? ≠ some cSpace := by
      intro i h1 h3
      rw [List.getElem?_append_right (by omega)] at h3
      obtain ⟨j, hj⟩ : ∃ j, i - q.length = j + 1 := ⟨i - q.length - 1, by omega⟩
      rw [hj, List.getElem?_cons_succ] at h3
      exact hw (List.mem_of_getElem? h3)
    rw [if_neg (hno _ (by simp; omega)),
      lastArgLoop_found _ q.length (by omega) (by simp) _ (by simp) (fun i h1 _ => hno i h1)]

theorem lastArgOff_nospace (w : Str) (hw : cSpace ∉ w) : lastArgOff w = 0 := by
  have hno : ∀ i, w[i]? ≠ some cSpace := fun i h => hw (List.mem_of_getElem? h)
  unfold lastArgOff
  split
  · rfl
  · rw [if_neg (hno _), lastArgLoop_none _ _ (fun i _ _ => hno i)]

end Ush
