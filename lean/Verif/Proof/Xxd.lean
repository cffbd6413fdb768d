import Verif.Proof.Process
/-!
# `xxd`
-/
namespace Ush
open Spec

variable {E : Env} {W : World} {T : Talk} {u v w : Ush} {f : FileDesc} {argv : List Str}

/-! ## Numbers -/

theorem hexFixed_zero : ∀ k, hexFixed k 0 = List.replicate k 48 := by
  intro k
  induction k with
  | zero => rfl
  | succ k ih => rw [hexFixed, ih, List.replicate_succ']; rfl

theorem hexLoop_fixed : ∀ (k n fuel : Nat) (acc : Str), n < 16 ^ k → n < fuel → 0 < k →
    ∃ ds, hexLoop fuel n acc = ds ++ acc ∧ ds.length ≤ k ∧ List.replicate (k - ds.length) 48 ++ ds = hexFixed k n := by
  intro k
  induction k with
  | zero => intro n fuel acc _ _ h; omega
  | succ k ih =>
    intro n fuel acc hn hf _
    obtain ⟨fuel, rfl⟩ : ∃ m, fuel = m + 1 := ⟨fuel - 1, by omega⟩
    rw [hexLoop]
    by_cases h : n < 16
    · rw [if_pos h]
      refine ⟨[hexDigit n], rfl, by simp, ?_⟩
      rw [hexFixed, Nat.div_eq_of_lt h, hexFixed_zero, Nat.mod_eq_of_lt h]
      simp
      rfl
    · rw [if_neg h]
      have h1 : n / 16 < 16 ^ k := by
        rw [Nat.div_lt_iff_lt_mul (by decide)]
        rw [Nat.pow_succ] at hn
        exact hn
      have h2 : n / 16 < fuel := by omega
      have h3 : 0 < k := by
        rcases Nat.eq_zero_or_pos k with rfl | h3
        · simp at hn; omega
        · exact h3
      obtain ⟨ds, e1, e2, e3⟩ := ih (n / 16) fuel (hexDigit (n % 16) :: acc) h1 h2 h3
      refine ⟨ds ++ [hexDigit (n % 16)], by rw [e1]; simp, by simp; omega, ?_⟩
      rw [hexFixed, ← e3]
      simp
      rfl

theorem hex8_eq {n : Nat} (h : n < 16 ^ 8) : hex8 n = hexFixed 8 n := by
  obtain ⟨ds, e1, -, e3⟩ := hexLoop_fixed 8 n (n + 1) [] h (by omega) (by decide)
  unfold hex8
  rw [e1, List.append_nil]
  exact e3

theorem hex2_eq (b : UInt8) : hex2 b = hexFixed 2 b.toNat := by
  have h : b.toNat / 16 % 16 = b.toNat / 16 := Nat.mod_eq_of_lt (by have := b.toNat_lt; omega)
  simp only [hexFixed, List.nil_append, h]
  rfl

theorem hexFixed_length : ∀ k n, (hexFixed k n).length = k := by
  intro k
  induction k with
  | zero => intro n; rfl
  | succ k ih => intro n; simp [hexFixed, ih]

theorem hexChar_ne (n : Nat) (h : n < 16) : hexChar n ≠ cNul ∧ hexChar n ≠ cSpace :=
  (by decide : ∀ n : Fin 16, hexChar n.1 ≠ cNul ∧ hexChar n.1 ≠ cSpace) ⟨n, h⟩

theorem hexFixed_nul : ∀ k n, cNul ∉ hexFixed k n := by
  intro k
  induction k with
  | zero => intro n; simp [hexFixed]
  | succ k ih =>
    intro n
    rw [hexFixed]
    exact nul_append (ih _) (by simpa using fun h => (hexChar_ne _ (Nat.mod_lt n (by decide))).1 h.symm)

/-! ## Columns -/

theorem hexCols_take : ∀ n bs, hexCols n (bs.take n) = hexCols n bs := by
  intro n
  induction n with
  | zero => intro bs; rfl
  | succ n ih =>
    intro bs
    cases bs with
    | nil => rfl
    | cons b bs => simp [hexCols, ih]

theorem textCols_take : ∀ n bs, textCols n (bs.take n) = textCols n bs := by
  intro n
  induction n with
  | zero => intro bs; rfl
  | succ n ih =>
    intro bs
    cases bs with
    | nil => rfl
    | cons b bs => simp [textCols, ih]

theorem hexCols_length : ∀ n bs, (hexCols n bs).length = 3 * n := by
  intro n
  induction n with
  | zero => intro bs; rfl
  | succ n ih =>
    intro bs
    cases bs with
    | nil => simp [hexCols, ih]; omega
    | cons b bs => simp [hexCols, ih, hexFixed_length]; omega

theorem textCols_length : ∀ n bs, (textCols n bs).length = n := by
  intro n
  induction n with
  | zero => intro bs; rfl
  | succ n ih =>
    intro bs
    cases bs with
    | nil => simp [textCols, ih]
    | cons b bs => simp [textCols, ih]

theorem hexCols_nul : ∀ n bs, cNul ∉ hexCols n bs := by
  intro n
  induction n with
  | zero => intro bs; simp [hexCols]
  | succ n ih =>
    intro bs
    cases bs with
    | nil => exact nul_append (by decide) (ih _)
    | cons b bs => exact nul_append (nul_append (hexFixed_nul _ _) (by decide)) (ih _)

theorem textCols_nul : ∀ n bs, cNul ∉ textCols n bs := by
  intro n
  induction n with
  | zero => intro bs; simp [textCols]
  | succ n ih =>
    intro bs
    cases bs with
    | nil => exact nul_append (by decide) (ih _)
    | cons b bs =>
      rw [textCols]
      intro h
      rcases List.mem_cons.mp h with h | h
      · split at h
        · subst h
          rename_i hb
          exact absurd hb.1 (by decide)
        · exact absurd h (by decide)
      · exact ih _ h

/-! ## The loops -/

/-- Appending a text to the text in the output buffer. -/
theorem appendStr_eq {a s t : Str} (ha : cNul ∉ a) (h : (a ++ s).length < (a ++ cNul :: t).length) :
    ∃ t', appendStr (a ++ cNul :: t) s = .ok (a ++ s ++ cNul :: t') ∧ (a ++ s ++ cNul :: t').length = (a ++ cNul :: t).length := by
  obtain ⟨t', ht⟩ := storeStr_at (a := a) (t := t) (s := s) (x := cNul) h
  refine ⟨t', ?_, ?_⟩
  · unfold appendStr
    rw [strlenAt_zero ha]
    simp only [M.ok_bind]
    exact ht
  · rw [storeStr_ok (by simpa using h)] at ht
    have := congrArg List.length (Except.ok.inj ht)
    rw [← this]
    simp at h ⊢
    omega

theorem procDataAt_eq {d : Str} (hd : u.procData = some d) {off : Nat} {b : UInt8} {bs : Str} (h : d.drop off = b :: bs) :
    procDataAt u off = .ok b ∧ off < d.length := by
  have hg : d[off]? = some b := by
    have := congrArg (·[0]?) h
    simpa using this
  refine ⟨?_, (List.getElem?_eq_some_iff.mp hg).1⟩
  unfold procDataAt
  rw [hd]
  exact rd_eq_ok.mpr hg

theorem drop_nil_le {d : Str} {off : Nat} (h : d.drop off = []) : d.length ≤ off := by
  by_contra hc
  have := congrArg List.length h
  simp at this; omega

theorem xxdHexLoop_eq {d : Str} (hd : u.procData = some d) (hsz : u.procDataSize = d.length) : ∀ (n off : Nat) (a t : Str), cNul ∉ a →
    a.length + 3 * n < (a ++ cNul :: t).length →
    ∃ t', xxdHexLoop u n off (a ++ cNul :: t) = .ok (a ++ hexCols n (d.drop off) ++ cNul :: t') ∧
      (a ++ hexCols n (d.drop off) ++ cNul :: t').length = (a ++ cNul :: t).length := by
  intro n
  induction n with
  | zero => intro off a t _ _; exact ⟨t, by simp [xxdHexLoop, hexCols], by simp [hexCols]⟩
  | succ n ih =>
    intro off a t ha hfit
    rw [xxdHexLoop]
    cases hb : d.drop off with
    | nil =>
      have hge : ¬ off < u.procDataSize := by rw [hsz]; have := drop_nil_le hb; omega
      rw [if_neg hge]
      obtain ⟨t1, e1, l1⟩ := appendStr_eq (s := b!"   ") (t := t) ha (by simp at hfit ⊢; omega)
      rw [e1]
      simp only [M.ok_bind]
      obtain ⟨t2, e2, l2⟩ := ih (off + 1) (a ++ b!"   ") t1 (nul_append ha (by decide)) (by simp at l1 hfit ⊢; omega)
      have hb' : d.drop (off + 1) = [] := by rw [← List.drop_drop, hb]; rfl
      rw [hb'] at e2 l2
      refine ⟨t2, ?_, ?_⟩
      · rw [e2]; simp [hexCols]
      · rw [l1] at l2; rw [← l2]; simp [hexCols]
    | cons b bs =>
      obtain ⟨g1, g2⟩ := procDataAt_eq hd hb
      rw [if_pos (by rw [hsz]; exact g2), g1]
      simp only [M.ok_bind]
      rw [hex2_eq]
      obtain ⟨t1, e1, l1⟩ := appendStr_eq (s := hexFixed 2 b.toNat ++ b!" ") (t := t) ha (by simp [hexFixed_length] at hfit ⊢; omega)
      rw [e1]
      simp only [M.ok_bind]
      obtain ⟨t2, e2, l2⟩ := ih (off + 1) (a ++ (hexFixed 2 b.toNat ++ b!" ")) t1 (nul_append ha (nul_append (hexFixed_nul _ _) (by decide)))
        (by simp [hexFixed_length] at l1 hfit ⊢; omega)
      have hb' : d.drop (off + 1) = bs := by rw [← List.drop_drop, hb]; rfl
      rw [hb'] at e2 l2
      refine ⟨t2, ?_, ?_⟩
      · rw [e2]; simp [hexCols]
      · rw [l1] at l2; rw [← l2]; simp [hexCols]

theorem isPrintable_eq (b : UInt8) : (if isPrintable b then [b] else b!".") = [if 32 ≤ b.toNat ∧ b.toNat ≤ 126 then b else 46] := by
  unfold isPrintable
  have : (decide (0x20 ≤ b) && decide (b ≤ 0x7E)) = decide (32 ≤ b.toNat ∧ b.toNat ≤ 126) := by
    rw [Bool.decide_and]
    rfl
  rw [this]
  by_cases h : 32 ≤ b.toNat ∧ b.toNat ≤ 126
  · simp [h]
  · rw [if_neg (by simpa using h), if_neg h]

theorem xxdTextLoop_eq {d : Str} (hd : u.procData = some d) (hsz : u.procDataSize = d.length) : ∀ (n off : Nat) (a t : Str), cNul ∉ a →
    a.length + n < (a ++ cNul :: t).length →
    ∃ t', xxdTextLoop u n off (a ++ cNul :: t) = .ok (a ++ textCols n (d.drop off) ++ cNul :: t', off + n) ∧
      (a ++ textCols n (d.drop off) ++ cNul :: t').length = (a ++ cNul :: t).length := by
  intro n
  induction n with
  | zero => intro off a t _ _; exact ⟨t, by simp [xxdTextLoop, textCols], by simp [textCols]⟩
  | succ n ih =>
    intro off a t ha hfit
    rw [xxdTextLoop]
    cases hb : d.drop off with
    | nil =>
      have hge : ¬ off < u.procDataSize := by rw [hsz]; have := drop_nil_le hb; omega
      rw [if_neg hge]
      obtain ⟨t1, e1, l1⟩ := appendStr_eq (s := b!" ") (t := t) ha (by simp at hfit ⊢; omega)
      rw [e1]
      simp only [M.ok_bind]
      obtain ⟨t2, e2, l2⟩ := ih (off + 1) (a ++ b!" ") t1 (nul_append ha (by decide)) (by simp at l1 hfit ⊢; omega)
      have hb' : d.drop (off + 1) = [] := by rw [← List.drop_drop, hb]; rfl
      rw [hb'] at e2 l2
      refine ⟨t2, ?_, ?_⟩
      · rw [e2]; simp [textCols]; omega
      · rw [l1] at l2; rw [← l2]; simp [textCols]
    | cons b bs =>
      obtain ⟨g1, g2⟩ := procDataAt_eq hd hb
      rw [if_pos (by rw [hsz]; exact g2), g1]
      simp only [M.ok_bind]
      have hsel : (if isPrintable b = true then appendStr (a ++ cNul :: t) [b] else appendStr (a ++ cNul :: t) b!".") =
          appendStr (a ++ cNul :: t) [if 32 ≤ b.toNat ∧ b.toNat ≤ 126 then b else 46] := by
        rw [← isPrintable_eq]; split <;> rfl
      rw [hsel]
      let x : UInt8 := if 32 ≤ b.toNat ∧ b.toNat ≤ 126 then b else 46
      have hx : cNul ∉ [x] := by
        have := textCols_nul 1 [b]
        simpa [textCols, x] using this
      obtain ⟨t1, e1, l1⟩ := appendStr_eq (s := [x]) (t := t) ha (by simp at hfit ⊢; omega)
      rw [show appendStr (a ++ cNul :: t) [if 32 ≤ b.toNat ∧ b.toNat ≤ 126 then b else 46] = _ from e1]
      simp only [M.ok_bind]
      obtain ⟨t2, e2, l2⟩ := ih (off + 1) (a ++ [x]) t1 (nul_append ha hx) (by simp at l1 hfit ⊢; omega)
      have hb' : d.drop (off + 1) = bs := by rw [← List.drop_drop, hb]; rfl
      rw [hb'] at e2 l2
      refine ⟨t2, ?_, ?_⟩
      · rw [e2]; simp [textCols, x]; omega
      · rw [l1] at l2; rw [← l2]; simp [textCols, x]

/-! ## The process -/

/-- Sizes that `xxd` needs. -/
structure XxdFits (E : Env) : Prop where
  offset : 10 < E.outSize
  hex : 3 * E.xxdColumns + 1 < E.outSize

theorem wr_zero {b : List UInt8} (h : 0 < b.length) : ∃ t, wr b 0 cNul = .ok (cNul :: t) ∧ (cNul :: t).length = b.length := by
  cases b with
  | nil => simp at h
  | cons x t => exact ⟨t, rfl, rfl⟩

theorem xxdService_0 (hs : u.state = .processService) (hidx : u.procIndex = 0) {o : List UInt8}
    (h : storeStr u.outBuf 0 (hex8 u.procItem ++ b!": ") = .ok o) :
    xxdService E u = writePointer { u with outBuf := o, procIndex := 1 } .outBuf .processService := by
  unfold xxdService
  rw [hs]
  simp only
  rw [hidx]
  simp only
  rw [h]
  simp only [M.ok_bind]

theorem xxdService_1 (hs : u.state = .processService) (hidx : u.procIndex = 1) {o1 o2 o3 : List UInt8} (h1 : wr u.outBuf 0 cNul = .ok o1)
    (h2 : xxdHexLoop u E.xxdColumns u.procItem o1 = .ok o2) (h3 : appendStr o2 b!" " = .ok o3) :
    xxdService E u = writePointer { u with outBuf := o3, procIndex := 2 } .outBuf .processService := by
  unfold xxdService
  rw [hs]
  simp only
  rw [hidx]
  simp only
  rw [h1]
  simp only [M.ok_bind]
  rw [h2]
  simp only [M.ok_bind]
  rw [h3]
  simp only [M.ok_bind]

theorem xxdService_2 (hs : u.state = .processService) (hidx : u.procIndex = 2) {o1 o2 : List UInt8} {k : Nat} (h1 : wr u.outBuf 0 cNul = .ok o1)
    (h2 : xxdTextLoop u E.xxdColumns u.procItem o1 = .ok (o2, k)) :
    xxdService E u = writePointer { u with outBuf := o2, procIndex := 3, procItem := k } .outBuf .processService := by
  unfold xxdService
  rw [hs]
  simp only
  rw [hidx]
  simp only
  rw [h1]
  simp only [M.ok_bind]
  rw [h2]
  simp only [M.ok_bind]

theorem xxdService_3 (hs : u.state = .processService) (hidx : u.procIndex = 3) : xxdService E u =
    if u.procItem ≥ u.procDataSize then writePointer u (.str crlf) .processFinish
    else writePointer { u with procIndex := 0 } (.str crlf) .processService := by
  unfold xxdService
  rw [hs]
  simp only
  rw [hidx]
  simp only

/-- One row up to the new line. -/
theorem xxd_row (hf : f.process = some (.builtin .xxd)) (hx : XxdFits E) (i : List UInt8) {u : Ush} (S : Serving E W f argv u)
    (hs : u.state = .processService) (hidx : u.procIndex = 0) {d : Str} (hd : u.procData = some d) (hsz : u.procDataSize = d.length)
    (hoff : u.procItem < 16 ^ 8) :
    ∃ v, Run E u i v i (outs (hexFixed 8 u.procItem ++ b!": " ++ hexCols E.xxdColumns (d.drop u.procItem) ++ b!" " ++
        textCols E.xxdColumns (d.drop u.procItem))) ∧ Serving E W f argv v ∧ v.state = .processService ∧ v.procIndex = 3 ∧
      v.procItem = u.procItem + E.xxdColumns ∧ v.procData = some d ∧ v.procDataSize = d.length := by
  obtain ⟨t0, ht0, hl0⟩ := store_out S (s := hexFixed 8 u.procItem ++ b!": ") (by simp [hexFixed_length]; exact hx.offset)
  let u0 : Ush := { u with outBuf := hexFixed 8 u.procItem ++ b!": " ++ cNul :: t0, procIndex := 1 }
  obtain ⟨r0, S0⟩ := S.sayOut i (by rw [hs]; rfl) (u' := u0) (s := hexFixed 8 u.procItem ++ b!": ") (t := t0) (next := .processService) (by
    rw [processCall_xxd S.file hf]; exact xxdService_0 hs hidx (by rw [hex8_eq hoff]; exact ht0)) (nul_append (hexFixed_nul _ _) (by decide)) rfl
    ⟨⟨rfl, rfl, rfl, rfl⟩, rfl, rfl, rfl⟩ rfl hl0
  let v0 := said u0 .outBuf (hexFixed 8 u.procItem ++ b!": ") .processService
  have hlen0 : v0.outBuf.length = E.outSize := S0.sized.outLen
  obtain ⟨t1, ht1, hl1⟩ := wr_zero (b := v0.outBuf) (by rw [hlen0]; have := hx.offset; omega)
  obtain ⟨t2, ht2, hl2⟩ := xxdHexLoop_eq (u := v0) (d := d) hd hsz E.xxdColumns u.procItem [] t1 (by simp) (by
    rw [List.nil_append, hl1, hlen0]; have := hx.hex; simp; omega)
  rw [List.nil_append] at hl2 ht2
  rw [List.nil_append] at hl2 ht2
  obtain ⟨t3, ht3, hl3⟩ := appendStr_eq (a := hexCols E.xxdColumns (d.drop u.procItem)) (s := b!" ") (t := t2) (hexCols_nul _ _) (by
    rw [hl2, hl1, hlen0]; have := hx.hex; simp [hexCols_length]; omega)
  let h1 := hexCols E.xxdColumns (d.drop u.procItem) ++ b!" "
  let u1 : Ush := { v0 with outBuf := h1 ++ cNul :: t3, procIndex := 2 }
  obtain ⟨r1, S1⟩ := S0.sayOut i rfl (u' := u1) (s := h1) (t := t3) (next := .processService) (by
    rw [processCall_xxd S0.file hf]; exact xxdService_1 (u := v0) rfl rfl ht1 ht2 ht3) (nul_append (hexCols_nul _ _) (by decide)) rfl ⟨⟨rfl, rfl, rfl, rfl⟩, rfl, rfl, rfl⟩ rfl (by
      show (h1 ++ cNul :: t3).length = v0.outBuf.length
      rw [hl3, hl2, hl1])
  let v1 := said u1 .outBuf h1 .processService
  have hlen1 : v1.outBuf.length = E.outSize := S1.sized.outLen
  obtain ⟨t4, ht4, hl4⟩ := wr_zero (b := v1.outBuf) (by rw [hlen1]; have := hx.offset; omega)
  obtain ⟨t5, ht5, hl5⟩ := xxdTextLoop_eq (u := v1) (d := d) hd hsz E.xxdColumns u.procItem [] t4 (by simp) (by
    rw [List.nil_append, hl4, hlen1]; have := hx.hex; simp; omega)
  rw [List.nil_append] at hl5 ht5
  rw [List.nil_append] at hl5 ht5
  let h2 := textCols E.xxdColumns (d.drop u.procItem)
  let u2 : Ush := { v1 with outBuf := h2 ++ cNul :: t5, procIndex := 3, procItem := u.procItem + E.xxdColumns }
  obtain ⟨r2, S2⟩ := S1.sayOut i rfl (u' := u2) (s := h2) (t := t5) (next := .processService) (by
    rw [processCall_xxd S1.file hf]; exact xxdService_2 (u := v1) rfl rfl ht4 ht5) (textCols_nul _ _) rfl ⟨⟨rfl, rfl, rfl, rfl⟩, rfl, rfl, rfl⟩ rfl (by
      show (h2 ++ cNul :: t5).length = v1.outBuf.length
      rw [hl5, hl4])
  exact ⟨_, (r0.trans (r1.trans r2)).cast (by simp [outs, h1, h2]), S2, rfl, rfl, rfl, hd, hsz⟩

/-- All rows. -/
theorem xxd_rows (cfg : Config E) (hin : 0 < E.inSize) (hf : f.process = some (.builtin .xxd)) (hx : XxdFits E) (i : List UInt8) {d : Str} (hcols : 0 < E.xxdColumns ∨ d = []) (hbig : d.length ≤ 16 ^ 8) :
    ∀ (n : Nat) {u : Ush}, Serving E W f argv u → u.state = .processService → u.procIndex = 0 → u.procData = some d → u.procDataSize = d.length →
    u.procItem < 16 ^ 8 → (d.drop u.procItem).length < n →
    Done E W u i (outs (xxdRows E.xxdColumns n u.procItem (d.drop u.procItem) ++ W.prompt E)) := by
  intro n
  induction n with
  | zero => intro u _ _ _ _ _ _ h; omega
  | succ n ih =>
    intro u S hs hidx hd hsz hoff hn
    obtain ⟨v, r, S1, h1, h2, h3, h4, h5⟩ := xxd_row hf hx i S hs hidx hd hsz hoff
    rw [xxdRows, xxdRow, hexCols_take, textCols_take]
    by_cases hlast : (d.drop u.procItem).length ≤ E.xxdColumns
    · have hge : v.procItem ≥ v.procDataSize := by rw [h3, h5]; simp at hlast; omega
      obtain ⟨r1, S2⟩ := S1.sayStr i (by rw [h1]; rfl) (u' := v) (s := crlf) (next := .processFinish) (by
        rw [processCall_xxd S1.file hf, xxdService_3 h1 h2, if_pos hge]) crlf_nul rfl
        ⟨⟨rfl, rfl, rfl, rfl⟩, rfl, rfl, rfl⟩ rfl
      have r2 := S2.step i rfl (u' := { said v (.str crlf) crlf .processFinish with state := .resetPrompt }) (l := []) (by
        rw [processCall_xxd S2.file hf]; rfl) (by simp)
      have S3 : Serving E W f argv { said v (.str crlf) crlf .processFinish with state := .resetPrompt } := S2.same ⟨⟨rfl, rfl, rfl, rfl⟩, rfl, rfl, rfl⟩ rfl
      obtain ⟨x, r', hx'⟩ := Done.after (r.trans (r1.trans r2)) (done_resetPrompt cfg S3.toHolds hin i rfl)
      rw [if_pos hlast]
      exact ⟨x, r'.cast (by simp [outs]), hx'⟩
    · have hcols : 0 < E.xxdColumns := by
        rcases hcols with h | rfl
        · exact h
        · simp at hlast
      have hlt : ¬ v.procItem ≥ v.procDataSize := by rw [h3, h5]; simp at hlast; omega
      obtain ⟨r1, S2⟩ := S1.sayStr i (by rw [h1]; rfl) (u' := { v with procIndex := 0 }) (s := crlf) (next := .processService) (by
        rw [processCall_xxd S1.file hf, xxdService_3 h1 h2, if_neg hlt]) crlf_nul rfl
        ⟨⟨rfl, rfl, rfl, rfl⟩, rfl, rfl, rfl⟩ rfl
      have D := ih S2 rfl rfl h4 h5 (by show v.procItem < _; omega) (by
        show (d.drop v.procItem).length < n
        rw [h3]; simp at hn hlast ⊢; omega)
      obtain ⟨x, r', hx'⟩ := Done.after (r.trans r1) D
      rw [if_neg hlast]
      refine ⟨x, r'.cast ?_, hx'⟩
      show _ ++ outs (xxdRows E.xxdColumns n v.procItem (d.drop v.procItem) ++ W.prompt E) = _
      rw [h3, ← List.drop_drop]
      simp [outs]

theorem xxdCallback_eq {cb : Cb} {l0 : List Event} {n a : Str} (C : Called E T w v f cb [n, a] l0) (hl : T.world.Near E a) {u : Ush}
    (hu : u = v.emit (.exec cb [n, a])) : xxdCallback E u f (offs 0 [n, a]) = (match T.world.file? a with
      | none => printStatus E u .fileNotFound
      | some g =>
        match g.getData with
        | none => printStatus E u .fileNotReadable
        | some id =>
          match callGet E u id with
          | (u, none) => .ok (processStart { u with procDataSize := 0 } f)
          | (u, some d) => .ok (processStart { u with procData := some d, procDataSize := d.length } f)) := by
  have H : Holds E T.world u := hu ▸ C.holds
  have A : Args u [n, a] := hu ▸ C.argsE
  have hn := C.args.nul a (by simp)
  obtain ⟨o, g1, g2, -⟩ := A.at (i := 1) (w := a) rfl
  unfold xxdCallback
  rw [if_neg (by simp [offs]), g1]
  simp only [M.ok_bind]
  rw [g2]
  simp only [M.ok_bind]
  rw [H.find hn hl]
  simp only [M.ok_bind]
  cases T.world.file? a with
  | none => rfl
  | some g =>
    cases hg : g.getData with
    | none => simp only [hg]
    | some id =>
      simp only [hg]
      rcases callGet E u id with ⟨u', _ | d⟩ <;> rfl

theorem serves_xxd_bad (cfg : Config E) (L : List Event) (h : argv.length ≠ 2) :
    Serves E T f (.builtin .xxd) argv L (outs (statusString E.tr .cmdWrongArguments ++ crlf ++ T.world.prompt E)) T.world := by
  intro w v l0 i C _
  refine C.err cfg _ i ?_
  unfold callExec xxdCallback
  simp only
  rw [if_pos (by rw [C.argsLen]; exact h)]

theorem serves_xxd_missing (cfg : Config E) (L : List Event) (n a : Str) (hl : T.world.Near E a) (h : T.world.file? a = none) :
    Serves E T f (.builtin .xxd) [n, a] L (outs (statusString E.tr .fileNotFound ++ crlf ++ T.world.prompt E)) T.world := by
  intro w v l0 i C _
  refine C.err cfg _ i ?_
  have := xxdCallback_eq C hl rfl
  rw [h] at this
  exact this

theorem serves_xxd_unreadable (cfg : Config E) (L : List Event) (n a : Str) (hl : T.world.Near E a) {g : FileDesc} (h : T.world.file? a = some g) (hg : g.getData = none) :
    Serves E T f (.builtin .xxd) [n, a] L (outs (statusString E.tr .fileNotReadable ++ crlf ++ T.world.prompt E)) T.world := by
  intro w v l0 i C _
  refine C.err cfg _ i ?_
  have := xxdCallback_eq C hl rfl
  rw [h] at this
  simp only [hg] at this
  exact this

theorem serves_xxd (cfg : Config E) (L : List Event) (n a : Str) (hl : T.world.Near E a) (hf : f.process = some (.builtin .xxd)) (hx : XxdFits E) {g : FileDesc} {id : Nat} {d : Str}
    (h : T.world.file? a = some g) (hg : g.getData = some id) (hd : Gets E L id d) (hcols : 0 < E.xxdColumns ∨ d = []) (hbig : d.length ≤ 16 ^ 8) :
    Serves E T f (.builtin .xxd) [n, a] L (.getData id :: outs (xxdText E.xxdColumns d ++ T.world.prompt E)) T.world := by
  intro w v l0 i C hL
  have e := xxdCallback_eq C hl rfl
  rw [h] at e
  simp only [hg] at e
  unfold callGet at e
  rw [hd _ hL] at e
  let u1 : Ush := processStart { (v.emit (.exec (.builtin .xxd) [n, a])).emit (.getData id) with procData := some d, procDataSize := d.length } f
  have r0 := Run.inner i C.s3 C.s1 C.s2 (C.step.trans e) (l := l0 ++ [.exec (.builtin .xxd) [n, a], .getData id]) (by
    show v.log ++ [_] ++ [_] = _
    rw [C.log]; simp)
  have S1 : Serving E T.world f [n, a] u1 := C.start ⟨rfl, rfl, rfl, rfl⟩ rfl rfl rfl rfl
  let u2 : Ush := { u1 with procIndex := 0, procItem := 0, state := .processService }
  have S2 : Serving E T.world f [n, a] u2 := S1.same ⟨⟨rfl, rfl, rfl, rfl⟩, rfl, rfl, rfl⟩ rfl
  have r1 := S1.step i rfl (u' := u2) (l := []) (by rw [processCall_xxd S1.file hf]; rfl) (by simp [u2])
  have D := xxd_rows cfg C.inSize hf hx i hcols hbig (d.length + 1) S2 rfl rfl rfl rfl (show (0 : Nat) < 16 ^ 8 by decide) (by
    show (d.drop 0).length < _; simp)
  obtain ⟨x, r', hx'⟩ := Done.after (r0.trans r1) D
  exact ⟨x, r'.cast (by simp [xxdText, u2]), hx'⟩

/-! ## Reading a dump back -/

theorem nibble_hexChar (n : Nat) (h : n < 16) : nibble (hexChar n) = n :=
  (by decide : ∀ n : Fin 16, nibble (hexChar n.1) = n.1) ⟨n, h⟩

theorem readCols_hexCols : ∀ n bs rest, bs.length ≤ n → readCols n (hexCols n bs ++ rest) = bs := by
  intro n
  induction n with
  | zero => intro bs rest h; cases bs with | nil => rfl | cons b bs => simp at h
  | succ n ih =>
    intro bs rest h
    cases bs with
    | nil => rfl
    | cons b bs =>
      have h1 : b.toNat / 16 % 16 = b.toNat / 16 := Nat.mod_eq_of_lt (by have := b.toNat_lt; omega)
      have h2 : b.toNat / 16 < 16 := by have := b.toNat_lt; omega
      have h3 : b.toNat % 16 < 16 := Nat.mod_lt _ (by decide)
      have e : hexCols (n + 1) (b :: bs) ++ rest = hexChar (b.toNat / 16) :: hexChar (b.toNat % 16) :: cSpace :: (hexCols n bs ++ rest) := by
        simp only [hexCols, hexFixed, List.nil_append, h1]
        rfl
      rw [e, readCols, if_neg (hexChar_ne _ h2).2, nibble_hexChar _ h2, nibble_hexChar _ h3, ih bs rest (by simpa using h)]
      rw [Nat.div_add_mod]
      simp

theorem xxdRow_drop (cols off : Nat) (bs rest : Str) (h : bs.length ≤ cols) :
    readCols cols ((xxdRow cols off bs ++ rest).drop 10) = bs ∧ (xxdRow cols off bs ++ rest).drop (13 + 4 * cols) = rest := by
  constructor
  · have : (hexFixed 8 off ++ b!": ").length = 10 := by simp [hexFixed_length]
    unfold xxdRow
    simp only [List.append_assoc]
    rw [← List.append_assoc (hexFixed 8 off), ← this, List.drop_left]
    exact readCols_hexCols cols bs _ h
  · have : (xxdRow cols off bs).length = 13 + 4 * cols := by
      simp [xxdRow, hexFixed_length, hexCols_length, textCols_length, crlf]; omega
    rw [← this, List.drop_left]

theorem readDump_rows (cols : Nat) (hc : 0 < cols) : ∀ (n off : Nat) (d : Str) (k : Nat), d.length < n → d.length < k →
    readDump cols k (xxdRows cols n off d) = d := by
  intro n
  induction n with
  | zero => intro off d k h; omega
  | succ n ih =>
    intro off d k h hk
    obtain ⟨k, rfl⟩ : ∃ m, k = m + 1 := ⟨k - 1, by omega⟩
    rw [xxdRows]
    obtain ⟨h1, h2⟩ := xxdRow_drop cols off (d.take cols) (if d.length ≤ cols then [] else xxdRows cols n (off + cols) (d.drop cols)) (by simp; omega)
    have hne : xxdRow cols off (d.take cols) ++ (if d.length ≤ cols then [] else xxdRows cols n (off + cols) (d.drop cols)) ≠ [] := by
      simp [xxdRow, hexFixed]
    rw [readDump, if_neg hne, h1, h2]
    by_cases hl : d.length ≤ cols
    · rw [if_pos hl, List.take_of_length_le hl]
      cases k with
      | zero => simp [readDump]
      | succ k => simp [readDump]
    · rw [if_neg hl, ih (off + cols) (d.drop cols) k (by simp; omega) (by simp; omega), List.take_append_drop]

end Ush
