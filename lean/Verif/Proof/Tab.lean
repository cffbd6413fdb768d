import Verif.Proof.Complete
/-!
# TAB completion: the line after TAB
-/
namespace Ush
open Spec

variable {E : Env} {W : World} {u v w : Ush} {pre x : Str} {es : EscSt}

/-! ## Longest common prefixes -/

theorem common_prefix_left (s t : Str) : common s t <+: s := by
  induction s generalizing t with
  | nil => cases t <;> simp [common]
  | cons a s ih =>
    cases t with
    | nil => simp [common]
    | cons b t =>
      rw [common]
      split
      · exact List.cons_prefix_cons.mpr ⟨rfl, ih t⟩
      · simp

theorem common_prefix_right (s t : Str) : common s t <+: t := by
  induction s generalizing t with
  | nil => cases t <;> simp [common]
  | cons a s ih =>
    cases t with
    | nil => simp [common]
    | cons b t =>
      rw [common]
      split
      · next h => exact List.cons_prefix_cons.mpr ⟨h, ih t⟩
      · simp

theorem prefix_common {p s t : Str} (h1 : p <+: s) (h2 : p <+: t) : p <+: common s t := by
  induction p generalizing s t with
  | nil => simp
  | cons a p ih =>
    cases s with
    | nil => simp at h1
    | cons b s =>
      cases t with
      | nil => simp at h2
      | cons c t =>
        obtain ⟨e1, h1⟩ := List.cons_prefix_cons.mp h1
        obtain ⟨e2, h2⟩ := List.cons_prefix_cons.mp h2
        rw [common, if_pos (e1.symm.trans e2)]
        exact List.cons_prefix_cons.mpr ⟨e1, ih h1 h2⟩

theorem commonPrefix_prefix {cs : List Str} {c : Str} (h : c ∈ cs) : commonPrefix cs <+: c := by
  induction cs with
  | nil => cases h
  | cons a cs ih =>
    cases cs with
    | nil => rw [List.mem_singleton.mp h]; simp [commonPrefix]
    | cons b cs =>
      rw [commonPrefix]
      · rcases List.mem_cons.mp h with rfl | h
        · exact common_prefix_left _ _
        · exact (common_prefix_right _ _).trans (ih h)
      · simp

theorem prefix_commonPrefix {cs : List Str} {p : Str} (hne : cs ≠ []) (h : ∀ c ∈ cs, p <+: c) : p <+: commonPrefix cs := by
  induction cs with
  | nil => exact absurd rfl hne
  | cons a cs ih =>
    cases cs with
    | nil => exact h a (by simp)
    | cons b cs =>
      rw [commonPrefix]
      · exact prefix_common (h a (by simp)) (ih (by simp) (fun c hc => h c (by simp [hc])))
      · simp

/-! ## The state during completion -/

/-- The line is `pre ++ x`, the word that is being completed is `x`. -/
structure Tabbing (E : Env) (W : World) (pre x : Str) (es : EscSt) (u : Ush) : Prop extends Holds E W u where
  buf : ∃ rest, u.inBuf = pre ++ (x ++ cNul :: rest)
  input : u.acInput = pre.length
  nul : cNul ∉ x
  nulPre : cNul ∉ pre
  pos : u.inPos = pre.length + x.length
  esc : u.ansiEsc = es.toNat

theorem Tabbing.scan (T : Tabbing E W pre x es u) (h : isScan u.state = true) : Scan E W pre x u :=
  { toHolds := T.toHolds, scan := h, buf := T.buf, input := T.input, nul := T.nul }

theorem Tabbing.same (T : Tabbing E W pre x es u) (h : SameTab u v) : Tabbing E W pre x es v :=
  { toHolds := T.toHolds.same h.toSameFs ⟨by rw [h.inBuf]; exact T.sized.inLen, by rw [h.outBuf]; exact T.sized.outLen⟩,
    buf := by rw [h.inBuf]; exact T.buf, input := by rw [h.acInput]; exact T.input, nul := T.nul, nulPre := T.nulPre,
    pos := by rw [h.inPos]; exact T.pos, esc := by rw [h.ansiEsc]; exact T.esc }

theorem Tabbing.length (T : Tabbing E W pre x es u) : pre.length + x.length < E.inSize := by
  obtain ⟨rest, hb⟩ := T.buf
  have := T.sized.inLen
  rw [hb] at this
  simp at this
  omega

theorem Tabbing.word (T : Tabbing E W pre x es u) : strlenAt u.inBuf u.acInput = .ok x.length := by
  obtain ⟨rest, hb⟩ := T.buf
  rw [hb, T.input]
  exact strlenAt_of_drop (rest := rest) T.nul (by simp)

/-- Back to the line editor. -/
theorem Tabbing.waiting (T : Tabbing E W pre x es u) (hs : u.state = .readChar) (h1 : cLf ∉ pre ++ x) (h2 : cCr ∉ pre ++ x) :
    Waiting E W u ⟨pre ++ x, es⟩ := by
  obtain ⟨rest, hb⟩ := T.buf
  exact { toHolds := T.toHolds, shows := ⟨hs, T.esc, by rw [T.pos]; simp, rest, by rw [hb]; simp⟩, clean := ⟨h1, h2⟩ }

/-- A text from the input buffer. -/
theorem Run.sayIn {E : Env} {u u' : Ush} {a s rest : Str} {next : St} (i : List UInt8) (hc : u.current.isSome = true)
    (h1 : u.state ≠ .readChar) (h2 : u.state ≠ .writeChar) (h : innerStep E u = writePointer u' (.inBuf a.length) next)
    (hb : u'.inBuf = a ++ (s ++ cNul :: rest)) (hs : cNul ∉ s) (hl : u'.log = u.log) (hc' : u'.current = u.current) :
    Run E u i (said u' (.inBuf a.length) s next) i (outs s) :=
  Run.say i hc h1 h2 h (by simp) (by show cstrAt u'.inBuf a.length = _; rw [hb]; exact cstrAt_append a s rest hs)
    (Readable.inb u' a.length s (cNul :: rest) (by rw [hb]; simp)) hl hc'

theorem Tabbing.prepared (T : Tabbing E W pre x es u) : Tabbing E W pre x es (acPrepareCandidates u) :=
  { toHolds := ⟨⟨T.sized.inLen, T.sized.outLen⟩, T.rep.same ⟨rfl, rfl, rfl, rfl⟩, T.ok⟩, buf := T.buf, input := T.input, nul := T.nul,
    nulPre := T.nulPre, pos := T.pos, esc := T.esc }

theorem innerStep_finish (h : u.state = .acCandFinish) : innerStep E u = acCandidatesFinish E u := by
  unfold innerStep; rw [h]

/-- The result of the search for the common prefix `p` of the candidates for `y`. -/
structure Recalled (E : Env) (W : World) (pre y p : Str) (es : EscSt) (v : Ush) : Prop extends Tabbing E W pre p es v where
  state : v.state = .acRecallSuffix
  suffix : v.acSuffixLen = p.length - y.length

theorem acOptimize_end (T : Tabbing E W pre x es u) {c : Str} (hc : u.acCand = some c) (h : c.length ≤ x.length) :
    acOptimizeContinue E u = .ok { u with acPrevCount := u.acCount, state := .acRecallSuffix } := by
  unfold acOptimizeContinue
  simp only [T.word, M.ok_bind, hc]
  rw [if_pos h]
  rfl

/-- The state after one more character. -/
abbrev optNext (u : Ush) (b : List UInt8) : Ush :=
  { u with acPrevCount := u.acCount, inBuf := b, inPos := u.inPos + 1, acSuffixLen := u.acSuffixLen + 1, acCount := 0, procStage := 0, procNode := u.commands, procIndex := 0, procItem := 0, state := .acCandOptimise }

theorem acOptimize_step (T : Tabbing E W pre x es u) {c : Str} (hc : u.acCand = some c) (h : x.length < c.length) (hfit : pre.length + (x.length + 1) < E.inSize) :
    ∃ rest, acOptimizeContinue E u = .ok (optNext u (pre ++ ((x ++ [c[x.length]]) ++ cNul :: rest))) ∧
      (pre ++ ((x ++ [c[x.length]]) ++ cNul :: rest)).length = E.inSize := by
  obtain ⟨rest, hb⟩ := T.buf
  have hl := T.sized.inLen
  cases rest with
  | nil => rw [hb] at hl; simp at hl; omega
  | cons r rest =>
    refine ⟨rest, ?_, by rw [← hl, hb]; simp⟩
    unfold acOptimizeContinue
    simp only [T.word, M.ok_bind, hc]
    rw [if_neg (by omega), rd_ok h, M.ok_bind]
    have e1 : wr u.inBuf u.inPos c[x.length] = .ok ((pre ++ x) ++ c[x.length] :: r :: rest) := by
      rw [hb, T.pos, ← List.append_assoc, ← List.length_append]
      exact wr_append_length _ _ _ _
    have e2 : wr ((pre ++ x) ++ c[x.length] :: r :: rest) (u.inPos + 1) cNul = .ok ((pre ++ x ++ [c[x.length]]) ++ cNul :: rest) := by
      have : u.inPos + 1 = (pre ++ x ++ [c[x.length]]).length := by rw [T.pos]; simp; omega
      rw [this]
      have := wr_append_length (pre ++ x ++ [c[x.length]]) r cNul rest
      simpa using this
    rw [e1, M.ok_bind, if_neg (by rw [T.pos]; omega), e2, M.ok_bind]
    simp only [acPrepareCandidates, optNext, hc, List.append_assoc]
    rfl

theorem hits_mono {x z : Str} (h : x <+: z) (ns : List Str) : hits z (hits x ns) = hits z ns := by
  rw [hits, hits, List.filter_filter]
  congr 1
  funext n
  by_cases hz : z.isPrefixOf n = true
  · have := List.isPrefixOf_iff_prefix.mpr (h.trans (List.isPrefixOf_iff_prefix.mp hz))
    simp [hz, this]
  · simp [hz]

theorem Room.prefix {z c : Str} (h : z <+: c) (hz : z ≠ []) (hr : W.Room E c) : W.Room E z := by
  obtain ⟨t, rfl⟩ := h
  cases z with
  | nil => exact absurd rfl hz
  | cons a z =>
    unfold World.Room at hr ⊢
    have : (fullText (render W.path) (a :: z)).length ≤ (fullText (render W.path) (a :: z ++ t)).length := by
      unfold fullText
      simp only [List.cons_append, List.head?_cons, Option.some.injEq]
      split <;> simp
    omega

/-! ### Growth -/

theorem offers_prefix {x c : Str} (h : c ∈ W.offers x) : x <+: c := List.isPrefixOf_iff_prefix.mp (List.mem_filter.mp h).2

theorem growth_mem (k : Nat) (x : Str) : x ∈ W.growth k x := by cases k <;> simp [World.growth]

theorem growth_none {k : Nat} (h : W.more x = none) : W.growth k x = [x] := by
  cases k with
  | zero => rfl
  | succ k => simp [World.growth, h]

theorem growth_some {k : Nat} {z : Str} (h : W.more x = some z) : W.growth (k + 1) x = x :: W.growth k z := by simp [World.growth, h]

theorem more_prefix {z : Str} (h : W.more x = some z) : x <+: z ∧ z.length = x.length + 1 ∧ ∃ c ∈ W.offers x, z <+: c := by
  unfold World.more at h
  obtain ⟨c, hc, h⟩ := Option.bind_eq_some_iff.mp h
  obtain ⟨a, ha, h⟩ := Option.bind_eq_some_iff.mp h
  split at h
  · cases h
    have hcm := List.mem_of_getLast? hc
    refine ⟨List.prefix_append _ _, by simp, c, hcm, ?_⟩
    obtain ⟨t, rfl⟩ := offers_prefix hcm
    rw [List.getElem?_append_right (Nat.le_refl _), Nat.sub_self] at ha
    cases t with
    | nil => cases ha
    | cons b t => cases ha; exact ⟨t, by simp⟩
  · cases h

/-- Names are C strings. -/
theorem Holds.names_nul (H : Holds E W u) : ∀ c ∈ W.names, cNul ∉ c := by
  intro c hc
  unfold World.names at hc
  rcases List.mem_append.mp hc with hc | hc
  · rcases List.mem_append.mp hc with hc | hc
    · obtain ⟨f, hf, rfl⟩ := List.mem_map.mp hc
      obtain ⟨g, hg, hf⟩ := List.mem_flatMap.mp hf
      exact (H.ok.cmdTexts g hg f hf).name
    · obtain ⟨f, hf, rfl⟩ := List.mem_map.mp hc
      obtain ⟨m, h0, -, -, -, -, h5⟩ := H.cwd
      rw [h0] at hf
      exact (H.ok.treeTexts m h5 f hf).name
  · obtain ⟨m, hm, rfl⟩ := List.mem_map.mp hc
    exact dirName_nul _ (H.rep.tree.good m (mem_under_opt hm))

theorem Holds.offers_nul (H : Holds E W u) : ∀ c ∈ W.offers x, cNul ∉ c := by
  intro c hc
  rcases List.mem_append.mp (List.mem_filter.mp hc).1 with hc | hc
  · exact H.names_nul c (List.mem_append_left _ hc)
  · obtain ⟨m, hm, rfl⟩ := List.mem_map.mp hc
    exact dirName_nul _ (H.rep.tree.good m (mem_under_opt hm))

theorem Holds.considered_nul (H : Holds E W u) : ∀ c ∈ W.considered E x, cNul ∉ c := by
  intro c hc
  obtain ⟨z, -, hc⟩ := List.mem_flatMap.mp hc
  exact H.offers_nul c hc

theorem next_some {c : Str} (hc : (W.offers x).getLast? = some c) (h : x.length < c.length) : W.next x = some (x ++ [c[x.length]]) := by
  unfold World.next
  rw [hc]
  simp [List.getElem?_eq_getElem h]

theorem mem_filterMap_tail {α β : Type} {f : α → Option β} {a : α} {l : List α} {b : β} (h : b ∈ l.filterMap f) : b ∈ (a :: l).filterMap f := by
  obtain ⟨c, hc, e⟩ := List.mem_filterMap.mp h
  exact List.mem_filterMap.mpr ⟨c, List.mem_cons_of_mem _ hc, e⟩

/-- The last word of the growth. -/
def lastOf (W : World) (k : Nat) (x : Str) : Str := ((W.growth k x).getLast?).getD x

theorem lastOf_none {k : Nat} (h : W.more x = none) : lastOf W k x = x := by
  unfold lastOf; rw [growth_none h]; rfl

theorem lastOf_some {k : Nat} {z : Str} (h : W.more x = some z) : lastOf W (k + 1) x = lastOf W k z := by
  unfold lastOf
  rw [growth_some h]
  cases hg : W.growth k z with
  | nil => exact absurd (growth_mem k z) (by rw [hg]; simp)
  | cons a l => simp [List.getLast?_eq_getLast_of_ne_nil]

theorem lastOf_zero : lastOf W 0 x = x := rfl

theorem lastOf_prefix (k : Nat) : ∀ (x : Str), x <+: lastOf W k x := by
  induction k with
  | zero => intro x; exact List.prefix_refl x
  | succ k ih =>
    intro x
    cases h : W.more x with
    | none => rw [lastOf_none h]; exact List.prefix_refl x
    | some z => rw [lastOf_some h]; exact (more_prefix h).1.trans (ih z)

/-- Something that has been added comes from a name that has been considered. -/
theorem lastOf_from (k : Nat) : ∀ (x : Str), lastOf W k x = x ∨ ∃ c ∈ (W.growth k x).flatMap W.offers, lastOf W k x <+: c := by
  induction k with
  | zero => intro x; exact .inl rfl
  | succ k ih =>
    intro x
    cases h : W.more x with
    | none => rw [lastOf_none h]; exact .inl rfl
    | some z =>
      right
      rw [lastOf_some h, growth_some h, List.flatMap_cons]
      rcases ih z with e | ⟨c, hc, e⟩
      · obtain ⟨-, -, c, hc, hz⟩ := more_prefix h
        exact ⟨c, List.mem_append_left _ hc, by rw [e]; exact hz⟩
      · exact ⟨c, List.mem_append_right _ hc, e⟩

/-- The search for the common prefix. -/
theorem optimise_run {y : Str} (i : List UInt8) :
    ∀ (k : Nat) (x : Str) (u : Ush), Tabbing E W pre x es u → E.inSize ≤ k + x.length →
      (∀ z ∈ (W.growth k x).filterMap W.next, pre.length + z.length < E.inSize ∧ W.Room E z) → 2 ≤ (W.offers x).length →
      y <+: x → u.acCount = (W.offers x).length → u.acCand = (W.offers x).getLast? →
      u.acSuffixLen = x.length - y.length →
      ∃ u1, acOptimizeContinue E u = .ok u1 ∧ u1.log = u.log ∧ ∃ v, Run E u1 i v i [] ∧
        Recalled E W pre y (lastOf W k x) es v := by
  intro k
  induction k with
  | zero =>
    intro x u T hk
    have := T.length
    omega
  | succ k ih =>
  intro x u T hk hall h2 hyx hcnt hcand hsuf
  have hne : W.offers x ≠ [] := by intro h; rw [h] at h2; simp at h2
  obtain ⟨c, hc⟩ : ∃ c, (W.offers x).getLast? = some c := by
    cases hg : (W.offers x).getLast? with
    | none => exact absurd (List.getLast?_eq_none_iff.mp hg) hne
    | some c => exact ⟨c, rfl⟩
  rw [hc] at hcand
  have hcm : c ∈ W.offers x := List.mem_of_getLast? hc
  have hnul := T.toHolds.offers_nul c hcm
  by_cases hlen : c.length ≤ x.length
  · have hm : W.more x = none := by
      unfold World.more
      rw [hc]
      simp [List.getElem?_eq_none hlen]
    refine ⟨_, acOptimize_end T hcand hlen, rfl, _, Run.refl E _ i, ?_⟩
    rw [lastOf_none hm]
    exact { toTabbing := { toHolds := ⟨⟨T.sized.inLen, T.sized.outLen⟩, T.rep.same ⟨rfl, rfl, rfl, rfl⟩, T.ok⟩, buf := T.buf, input := T.input, nul := T.nul, nulPre := T.nulPre, pos := T.pos, esc := T.esc }, state := rfl, suffix := hsuf }
  · have hlt : x.length < c.length := by omega
    obtain ⟨hfit, hroom⟩ := hall (x ++ [c[x.length]]) (List.mem_filterMap.mpr ⟨x, growth_mem _ _, next_some hc hlt⟩)
    obtain ⟨rest, e, hbl⟩ := acOptimize_step T hcand hlt (by simpa using hfit)
    refine ⟨_, e, rfl, ?_⟩
    have hmore : W.more x = if (W.offers x).length ≤ (W.offers (x ++ [c[x.length]])).length then some (x ++ [c[x.length]]) else none := by
      unfold World.more
      rw [hc]
      simp [List.getElem?_eq_getElem hlt, h2]
    generalize hz : x ++ [c[x.length]] = z at *
    have hxz : x <+: z := by rw [← hz]; exact List.prefix_append _ _
    have hzl : z.length = x.length + 1 := by rw [← hz]; simp
    have hzc : z <+: c := by
      obtain ⟨t, ht⟩ := offers_prefix hcm
      cases t with
      | nil => rw [List.append_nil] at ht; rw [ht] at hlt; omega
      | cons a t =>
        refine ⟨t, ?_⟩
        rw [← hz]
        simp [← ht]
    have Tz : Tabbing E W pre z es (optNext u (pre ++ (z ++ cNul :: rest))) :=
      { toHolds := ⟨⟨hbl, T.sized.outLen⟩, T.rep.same ⟨rfl, rfl, rfl, rfl⟩, T.ok⟩, buf := ⟨rest, rfl⟩, input := T.input,
        nul := fun h => hnul (hzc.subset h), nulPre := T.nulPre, pos := by show u.inPos + 1 = _; rw [T.pos, hzl]; omega, esc := T.esc }
    obtain ⟨v, r, St, s1, s2, s3, s4⟩ := scan_all (Tz.scan rfl) hroom i rfl rfl rfl rfl
    have Tv := Tz.same St
    have r' : Run E (optNext u (pre ++ (z ++ cNul :: rest))) i v i [] := r
    have s3' : v.acCount = (W.offers z).length := by rw [s3]; exact Nat.zero_add _
    have pc : v.acPrevCount = (W.offers x).length := by rw [St.acPrevCount]; exact hcnt
    have sl : v.acSuffixLen = u.acSuffixLen + 1 := St.acSuffixLen
    have hcur := Tv.toHolds.current
    by_cases hless : (W.offers z).length < (W.offers x).length
    · rw [if_neg (by omega)] at hmore
      obtain ⟨rest2, hb2⟩ := Tv.buf
      have e2 : wr v.inBuf (pre.length + x.length) cNul = .ok (pre ++ (x ++ cNul :: cNul :: rest2)) := by
        rw [hb2, ← hz, ← List.length_append]
        have := wr_append_length (pre ++ x) c[x.length] cNul (cNul :: rest2)
        simpa using this
      have e3 : innerStep E v = .ok { v with inBuf := pre ++ (x ++ cNul :: cNul :: rest2), inPos := pre.length + x.length, acSuffixLen := u.acSuffixLen, state := .acRecallSuffix } := by
        rw [innerStep_finish s1]
        unfold acCandidatesFinish
        rw [s2]
        simp only
        rw [if_pos (by rw [s3', pc]; exact hless)]
        have hp : (if v.inPos > 0 then v.inPos - 1 else v.inPos) = pre.length + x.length := by
          rw [Tv.pos, hzl, if_pos (by omega)]; omega
        rw [hp, e2, M.ok_bind, if_neg (by rw [sl]; omega), sl]
        rfl
      refine ⟨_, r'.trans (Run.inner i (l := []) hcur (by rw [s1]; simp) (by rw [s1]; simp) e3 (by simp)), ?_⟩
      rw [lastOf_none hmore]
      exact { toTabbing := { toHolds := ⟨⟨by
          have := Tv.sized.inLen
          rw [hb2, ← hz] at this
          simpa using this, Tv.sized.outLen⟩, Tv.rep.same ⟨rfl, rfl, rfl, rfl⟩, T.ok⟩, buf := ⟨_, rfl⟩, input := Tv.input, nul := T.nul, nulPre := T.nulPre, pos := rfl, esc := Tv.esc }, state := rfl, suffix := hsuf }
    · rw [if_pos (by omega)] at hmore
      rw [lastOf_some hmore]
      have hnz : W.offers z ≠ [] := by intro h; rw [h] at hless; exact absurd hless (by simp; omega)
      obtain ⟨u1, o1, o2, w, o3, o4⟩ := ih z v Tv (by omega)
        (fun d hd => hall d (by rw [growth_some hmore]; exact mem_filterMap_tail hd)) (by omega) (hyx.trans hxz) s3'
        (by rw [s4, List.getLast?_eq_getLast_of_ne_nil hnz]; rfl)
        (by rw [sl, hsuf, hzl]; have := hyx.length_le; omega)
      refine ⟨w, (r'.trans ((Run.inner i (l := []) hcur (by rw [s1]; simp) (by rw [s1]; simp) ?_ (by simp [o2])).trans o3)).cast (by simp), o4⟩
      rw [innerStep_finish s1]
      unfold acCandidatesFinish
      rw [s2]
      simp only
      rw [if_neg (by rw [s3', pc]; exact hless)]
      exact o1

/-- The state after a scan, without what depends on the scan. -/
theorem Tabbing.setState (T : Tabbing E W pre x es u) (s : St) : Tabbing E W pre x es { u with state := s } :=
  { toHolds := ⟨⟨T.sized.inLen, T.sized.outLen⟩, T.rep.same ⟨rfl, rfl, rfl, rfl⟩, T.ok⟩, buf := T.buf, input := T.input, nul := T.nul,
    nulPre := T.nulPre, pos := T.pos, esc := T.esc }

theorem Tabbing.said (T : Tabbing E W pre x es u) (p : Ptr) (s : Str) (st : St) : Tabbing E W pre x es (said u p s st) :=
  { toHolds := ⟨⟨T.sized.inLen, T.sized.outLen⟩, T.rep.same ⟨rfl, rfl, rfl, rfl⟩, T.ok⟩, buf := T.buf, input := T.input, nul := T.nul,
    nulPre := T.nulPre, pos := T.pos, esc := T.esc }

/-- The list of candidates, the prompt and the line. -/
theorem list_run (cfg : Config E) (T : Tabbing E W pre x es u) (hr : W.Room E x) (i : List UInt8) (hs : u.state = .acCandPrint)
    (h1 : u.procNode = u.commands) (h2 : u.procStage = 0) (h3 : u.procIndex = 0) (h4 : u.procItem = 0) :
    ∃ v, Run E u i v i (outs ((W.offers x).flatMap (· ++ crlf) ++ W.prompt E ++ (pre ++ x))) ∧ Tabbing E W pre x es v ∧ v.state = .readChar := by
  obtain ⟨a, ra, Sa, a1, a2, -, -⟩ := scan_all (T.scan (by rw [hs]; rfl)) hr i h1 h2 h3 h4
  have Ta := T.same Sa
  have ca := Ta.toHolds.current
  have eb : innerStep E a = .ok { a with state := .acPrompt } := by
    rw [innerStep_finish a1]
    unfold acCandidatesFinish
    rw [a2, hs]
  have rb := Run.inner i (l := []) ca (by rw [a1]; simp) (by rw [a1]; simp) eb (by simp)
  have rc : Run E { a with state := .acPrompt } i { a with state := .promptPrefix, promptNext := .acRecall } i [] :=
    Run.inner i ca (by simp) (by simp) rfl (by simp)
  obtain ⟨m, -, m1, m2, m3, m4, -⟩ := Ta.toHolds.cwd
  obtain ⟨d, rd, qd, sd⟩ := prompt_run cfg.texts (u := { a with state := .promptPrefix, promptNext := .acRecall }) i rfl m2 m3 m4
  have Td : Tabbing E W pre x es d := Ta.same (qd.tab.after ⟨⟨rfl, rfl, rfl, rfl⟩, rfl, rfl, rfl, rfl, rfl, rfl, rfl⟩)
  obtain ⟨rest, hb⟩ := Td.buf
  have re := Run.sayIn (E := E) (u := d) (u' := d) (a := []) (s := pre ++ x) (rest := rest) (next := .readChar) i Td.toHolds.current
    (by rw [sd]; simp) (by rw [sd]; simp) (by unfold innerStep; rw [sd]; rfl) (by rw [hb]; simp) (by simp [Td.nul, Td.nulPre]) rfl rfl
  refine ⟨_, (ra.trans (rb.trans (rc.trans (rd.trans re)))).cast ?_, Td.said _ _ _, rfl⟩
  rw [hs, World.prompt, m1]
  simp [outs, scanText]

/-- The end of a completion. -/
theorem recall_run {y p : Str} (cfg : Config E) (R : Recalled E W pre y p es u) (hr : W.Room E y) (i : List UInt8) (hy : y <+: p) :
    ∃ v, Run E u i v i (outs (if p ≠ y then p.drop y.length else crlf ++ (W.offers y).flatMap (· ++ crlf) ++ W.prompt E ++ (pre ++ y))) ∧
      Tabbing E W pre p es v ∧ v.state = .readChar := by
  obtain ⟨t, rfl⟩ := hy
  obtain ⟨rest, hb⟩ := R.buf
  have T := R.toTabbing
  have hc := T.toHolds.current
  have hoff : u.acInput + (y ++ t).length - u.acSuffixLen = (pre ++ y).length := by
    rw [R.input, R.suffix]; simp; omega
  have hsl : ¬ u.acInput + (y ++ t).length < u.acSuffixLen := by
    rw [R.suffix]; simp; omega
  have hnt : cNul ∉ t := fun h => R.nul (by simp [h])
  have hst : strlenAt u.inBuf (pre ++ y).length = .ok t.length := by
    rw [hb]
    exact strlenAt_of_drop (rest := rest) hnt (by simp)
  have e : innerStep E u = if t.length > 0 then writePointer u (.inBuf (pre ++ y).length) .readChar
      else writePointer (acPrepareCandidates u) (.str crlf) .acCandPrint := by
    unfold innerStep
    rw [R.state]
    simp only
    unfold acRecallSuffix
    rw [T.word, M.ok_bind, if_neg hsl]
    simp only [hoff, hst, M.ok_bind]
  have h1 : u.state ≠ .readChar := by rw [R.state]; simp
  have h2 : u.state ≠ .writeChar := by rw [R.state]; simp
  by_cases ht : t = []
  · subst ht
    rw [if_neg (by simp)] at e
    rw [if_neg (by simp)]
    rw [List.append_nil] at T
    have r1 := Run.sayStr (u' := acPrepareCandidates u) i hc h1 h2 e (by decide) rfl rfl
    obtain ⟨v, r2, Tv, hv⟩ := list_run cfg (T.prepared.said (.str crlf) crlf .acCandPrint) hr i rfl rfl rfl rfl rfl
    exact ⟨v, (r1.trans r2).cast (by simp [outs]), by rw [List.append_nil]; exact Tv, hv⟩
  · have hpos : t.length > 0 := List.length_pos_iff.mpr ht
    rw [if_pos hpos] at e
    rw [if_pos (by simpa using ht)]
    have r1 := Run.sayIn (s := t) (rest := rest) i hc h1 h2 e (by rw [hb]; simp) hnt rfl rfl
    exact ⟨_, r1.cast (by simp), T.said _ _ _, rfl⟩

theorem acFinish_none (h1 : u.acPrevState = .acCandCount) (h2 : u.acCount = 0) : acCandidatesFinish E u = .ok { u with state := .readChar } := by
  cases u
  dsimp only at h1 h2
  subst h1 h2
  rfl

theorem acFinish_one {c : Str} {n p : Nat} {b : List UInt8} (h1 : u.acPrevState = .acCandCount) (h2 : u.acCount = 1) (h3 : u.acCand = some c)
    (h4 : strlenAt u.inBuf u.acInput = .ok n) (h5 : storeStr u.inBuf u.acInput c = .ok b) (h6 : strlenAt b 0 = .ok p) :
    acCandidatesFinish E u = writePointer { u with inBuf := b, inPos := p } (.inBuf (u.acInput + n)) .readChar := by
  cases u
  dsimp only at h1 h2 h3 h4 h5
  subst h1 h2 h3
  unfold acCandidatesFinish
  simp only [h4, h5, h6, M.ok_bind]

theorem acFinish_many {n : Nat} (h1 : u.acPrevState = .acCandCount) (h2 : u.acCount = n + 2) :
    acCandidatesFinish E u = acOptimizeContinue E { u with acSuffixLen := 0 } := by
  cases u
  dsimp only at h1 h2
  subst h1 h2
  rfl

/-- Counting the candidates. -/
theorem count_run {y : Str} (T : Tabbing E W pre y es u) (hs : u.state = .acCandStart) (hr : W.Room E y) (i : List UInt8) :
    ∃ a, Run E u i a i [] ∧ Tabbing E W pre y es a ∧ a.state = .acCandFinish ∧ a.acPrevState = .acCandCount ∧
      a.acCount = (W.offers y).length ∧ (W.offers y ≠ [] → a.acCand = (W.offers y).getLast?) := by
  have r1 : Run E u i (acCandidatesStart u) i [] :=
    Run.inner i T.toHolds.current (by rw [hs]; simp) (by rw [hs]; simp) (by unfold innerStep; rw [hs]) (by simp [acCandidatesStart, acPrepareCandidates])
  have T1 : Tabbing E W pre y es (acCandidatesStart u) :=
    { toHolds := ⟨⟨T.sized.inLen, T.sized.outLen⟩, T.rep.same ⟨rfl, rfl, rfl, rfl⟩, T.ok⟩, buf := T.buf, input := T.input, nul := T.nul, nulPre := T.nulPre, pos := T.pos, esc := T.esc }
  obtain ⟨a, r2, Sa, a1, a2, a3, a4⟩ := scan_all (T1.scan rfl) hr i rfl rfl rfl rfl
  refine ⟨a, r1.trans r2, T1.same Sa, a1, a2, by rw [a3]; exact Nat.zero_add _, fun hne => ?_⟩
  rw [a4, List.getLast?_eq_getLast_of_ne_nil hne]
  rfl

/-- The only candidate does not fit: the candidate is copied over the end of the input buffer. -/
theorem overflow_run {y c : Str} (T : Tabbing E W pre y es u) (hs : u.state = .acCandStart) (hr : W.Room E y) (i : List UInt8)
    (hc : W.offers y = [c]) (hfit : E.inSize ≤ pre.length + c.length) :
    ∃ v, Run E u i v i [] ∧ ∀ io, service E io v = .error .oob := by
  obtain ⟨a, r, Ta, a1, a2, a3, a4⟩ := count_run T hs hr i
  refine ⟨a, r, fun io => ?_⟩
  have a4' := a4 (by rw [hc]; simp)
  rw [service_eq E io a Ta.toHolds.current, a1]
  simp only
  rw [innerStep_finish a1]
  unfold acCandidatesFinish
  rw [a2, a3, a4', hc]
  simp only [List.length_singleton, List.getLast?_singleton]
  rw [Ta.word]
  simp only [M.ok_bind]
  have : storeStr a.inBuf a.acInput c = .error .oob := by
    unfold storeStr
    rw [if_neg (by rw [Ta.input, Ta.sized.inLen]; omega)]
  rw [this]
  rfl

/-- The completion after the word has been determined. -/
theorem complete_run {y : Str} (cfg : Config E) (T : Tabbing E W pre y es u) (hs : u.state = .acCandStart) (ht : W.TabFits E pre y) (i : List UInt8) :
    ∃ v, Run E u i v i (outs (W.tabs E pre y).2) ∧ Tabbing E W pre (W.grown E y) es v ∧ v.state = .readChar := by
  obtain ⟨hr, hfit, hall⟩ := ht
  have hnul := fun c (hc : c ∈ W.offers y) => T.toHolds.offers_nul c hc
  obtain ⟨a, r12, Ta, a1, a2, a3', a4⟩ := count_run T hs hr i
  have ca := Ta.toHolds.current
  have n1 : a.state ≠ .readChar := by rw [a1]; simp
  have n2 : a.state ≠ .writeChar := by rw [a1]; simp
  have e : innerStep E a = acCandidatesFinish E a := innerStep_finish a1
  have hyc : ∀ c ∈ W.offers y, y <+: c := fun c hc => offers_prefix hc
  rcases hcs : W.offers y with _ | ⟨c, _ | ⟨c2, cs⟩⟩
  · rw [acFinish_none a2 (by rw [a3', hcs]; rfl)] at e
    have hm : W.more y = none := by unfold World.more; rw [hcs]; rfl
    have hg : W.grown E y = y := by
      unfold World.grown
      rw [hcs]
      exact lastOf_none hm
    rw [hg]
    refine ⟨_, (r12.trans (Run.inner i (l := []) ca n1 n2 e (by simp))).cast ?_, Ta.setState .readChar, rfl⟩
    simp [World.tabs, hcs, hg]
  · have hcm : c ∈ W.offers y := by rw [hcs]; simp
    have hnc := hnul c hcm
    obtain ⟨t, ht⟩ := hyc c hcm
    obtain ⟨rest, hb⟩ := Ta.buf
    have hlen := Ta.sized.inLen
    have hst := storeStr_ok (b := a.inBuf) (off := a.acInput) (s := c) (by rw [hlen, Ta.input]; exact hfit c hcm (by rw [hcs]; rfl))
    generalize hr2 : List.drop (a.acInput + c.length + 1) a.inBuf = rest2 at hst
    have hb2 : a.inBuf.take a.acInput ++ c ++ [cNul] ++ rest2 = pre ++ (c ++ cNul :: rest2) := by
      rw [hb, Ta.input]; simp
    rw [hb2] at hst
    have hsl : strlenAt (pre ++ (c ++ cNul :: rest2)) 0 = .ok (pre.length + c.length) := by
      rw [strlenAt_of_drop (s := pre ++ c) (rest := rest2) (by simp [Ta.nulPre, hnc]) (by simp)]
      simp
    rw [acFinish_one a2 (by rw [a3', hcs]; rfl) (by rw [a4 (by rw [hcs]; simp), hcs]; rfl) Ta.word hst hsl, show a.acInput + y.length = (pre ++ y).length by rw [Ta.input]; simp] at e
    have hnt : cNul ∉ t := fun h => hnc (by rw [← ht]; simp [h])
    have r3 := Run.sayIn (s := t) (rest := rest2) i ca n1 n2 e (by show pre ++ (c ++ cNul :: rest2) = _; rw [← ht]; simp) hnt rfl rfl
    have Tb : Tabbing E W pre c es { a with inBuf := pre ++ (c ++ cNul :: rest2), inPos := pre.length + c.length } :=
      { toHolds := ⟨⟨(storeStr_length hst).trans hlen, Ta.sized.outLen⟩, Ta.rep.same ⟨rfl, rfl, rfl, rfl⟩, T.ok⟩, buf := ⟨_, rfl⟩, input := Ta.input, nul := hnc, nulPre := T.nulPre, pos := rfl, esc := Ta.esc }
    have hg : W.grown E y = c := by unfold World.grown; rw [hcs]
    rw [hg]
    refine ⟨_, (r12.trans r3).cast ?_, Tb.said _ _ _, rfl⟩
    unfold World.tabs
    rw [hg, if_neg (by rw [hcs]; simp), ← ht]
    simp
  · have hne : W.offers y ≠ [] := by rw [hcs]; simp
    rw [acFinish_many (n := cs.length) a2 (by rw [a3', hcs]; rfl)] at e
    have Tb : Tabbing E W pre y es { a with acSuffixLen := 0 } :=
      { toHolds := ⟨⟨Ta.sized.inLen, Ta.sized.outLen⟩, Ta.rep.same ⟨rfl, rfl, rfl, rfl⟩, T.ok⟩, buf := Ta.buf, input := Ta.input, nul := Ta.nul, nulPre := T.nulPre, pos := Ta.pos, esc := Ta.esc }
    obtain ⟨u1, o1, o2, w, o3, o4⟩ := optimise_run i E.inSize y _ Tb (by omega) (fun z hz => hall z (by unfold World.tried; rw [if_pos (by rw [hcs]; simp)]; exact hz)) (by rw [hcs]; simp) (List.prefix_refl y) a3' (a4 hne) (Nat.sub_self _).symm
    rw [o1] at e
    have r3 := Run.inner i (l := []) ca n1 n2 e (by simp [o2])
    have hg : W.grown E y = lastOf W E.inSize y := by unfold World.grown; rw [hcs]; rfl
    obtain ⟨v, r4, Tv, hv⟩ := recall_run cfg o4 hr i (lastOf_prefix _ _)
    rw [hg]
    refine ⟨v, (r12.trans (r3.trans (o3.trans r4))).cast ?_, Tv, hv⟩
    unfold World.tabs
    rw [hg]
    by_cases h0 : lastOf W E.inSize y = y
    · rw [if_neg (by simpa using h0), if_pos ⟨by rw [hcs]; simp, h0⟩]; simp
    · rw [if_pos h0, if_neg (fun h => h0 h.2)]; simp

/-- TAB: the word to be completed is determined. -/
theorem tab_start {e : Editor} {y : Str} (on : E.autocomplete = true) (H : Waiting E W u e) (i : List UInt8)
    (hnul : cNul ∉ e.line) (hsplit : e.line = pre ++ y) (hoff : lastArgOff e.line = pre.length) :
    ∃ v, Run E u (cTab :: i) v i [.inp cTab] ∧ Tabbing E W pre y e.esc v ∧ v.state = .acCandStart := by
  have hc := H.toHolds.current
  obtain ⟨rest, hb⟩ := H.shows.buf
  have r1 : Run E u (cTab :: i) { u.emit (.inp cTab) with state := .acPrepare } i [.inp cTab] :=
    ⟨drive1_read (b := true) hc H.shows.state (by unfold readChar; rw [on]; rfl), rfl⟩
  have hcs : cstrAt u.inBuf 0 = .ok e.line := by rw [hb]; exact cstrAt_zero _ _ hnul
  have r2 : Run E { u.emit (.inp cTab) with state := .acPrepare } i { u.emit (.inp cTab) with acInput := pre.length, state := .acCandStart } i [] := by
    refine Run.inner i hc (by simp) (by simp) ?_ (by simp)
    show acStatePrepare { u.emit (.inp cTab) with state := .acPrepare } = _
    unfold acStatePrepare
    show (cstrAt u.inBuf 0 >>= _) = _
    rw [hcs, M.ok_bind, hoff]
    rfl
  refine ⟨_, (r1.trans r2).cast (by simp), ?_, rfl⟩
  exact { toHolds := ⟨⟨H.sized.inLen, H.sized.outLen⟩, H.rep.same ⟨rfl, rfl, rfl, rfl⟩, H.ok⟩
          buf := ⟨rest, by show u.inBuf = _; rw [hb, hsplit]; simp⟩
          input := rfl
          nul := fun h => hnul (by rw [hsplit]; simp [h])
          nulPre := fun h => hnul (by rw [hsplit]; simp [h])
          pos := by show u.inPos = _; rw [H.shows.pos, hsplit]; simp
          esc := H.shows.esc }

theorem grown_prefix (E : Env) (W : World) (y : Str) : y <+: W.grown E y := by
  unfold World.grown
  split
  · next c h => exact offers_prefix (by rw [h]; simp)
  · exact lastOf_prefix _ _

theorem grown_from (E : Env) (W : World) (y : Str) : W.grown E y = y ∨ ∃ c ∈ W.considered E y, W.grown E y <+: c := by
  unfold World.grown
  split
  · next c h => exact .inr ⟨c, List.mem_flatMap.mpr ⟨y, growth_mem _ _, by rw [h]; simp⟩, List.prefix_refl c⟩
  · exact lastOf_from _ _

/-- TAB, in terms of the word that the code completes. -/
theorem tab_word {e : Editor} {y : Str} (on : E.autocomplete = true) (cfg : Config E) (H : Waiting E W u e) (i : List UInt8)
    (hnul : cNul ∉ e.line) (hsplit : e.line = pre ++ y) (hoff : lastArgOff e.line = pre.length)
    (ht : W.TabOk E pre y) :
    ∃ v, Run E u (cTab :: i) v i (.inp cTab :: outs (W.tabs E pre y).2) ∧ Waiting E W v ⟨(W.tabs E pre y).1, e.esc⟩ := by
  obtain ⟨w, r1, T, hw⟩ := tab_start on H i hnul hsplit hoff
  obtain ⟨v, r3, Tv, hv⟩ := complete_run cfg T hw ht.1 i
  refine ⟨v, (r1.trans r3).cast (by simp), ?_⟩
  have h1 := H.clean.1
  have h2 := H.clean.2
  rw [hsplit] at h1 h2
  show Waiting E W v ⟨pre ++ W.grown E y, e.esc⟩
  obtain ⟨t, hg⟩ := grown_prefix E W y
  obtain ⟨-, k1, k2⟩ := ht
  rw [← hg, List.drop_left] at k1 k2
  rw [← hg] at Tv ⊢
  refine Tv.waiting hv (fun h => ?_) (fun h => ?_)
  · rcases List.mem_append.mp ((List.append_assoc pre y t).symm ▸ h) with h | h
    · exact h1 h
    · exact k1 h
  · rcases List.mem_append.mp ((List.append_assoc pre y t).symm ▸ h) with h | h
    · exact h2 h
    · exact k2 h

/-- It is enough that all names offered on the way fit. -/
theorem tabOk_of {head y : Str} (hr : W.Room E y) (hall : ∀ c ∈ W.considered E y, head.length + c.length < E.inSize ∧ W.Room E c ∧ cLf ∉ c ∧ cCr ∉ c) :
    W.TabOk E head y := by
  have hin : ∀ c ∈ W.offers y, c ∈ W.considered E y := fun c hc => List.mem_flatMap.mpr ⟨y, growth_mem _ _, hc⟩
  have hd : ∀ a ∈ (W.grown E y).drop y.length, ∃ c ∈ W.considered E y, a ∈ c := by
    intro a ha
    rcases grown_from E W y with hx | ⟨c, hc, hp⟩
    · rw [hx] at ha; simp at ha
    · exact ⟨c, hc, hp.subset (List.mem_of_mem_drop ha)⟩
  refine ⟨⟨hr, fun c hc _ => (hall c (hin c hc)).1, fun z hz => ?_⟩, fun h => ?_, fun h => ?_⟩
  · unfold World.tried at hz
    split at hz
    · obtain ⟨x, hx, h⟩ := List.mem_filterMap.mp hz
      unfold World.next at h
      obtain ⟨c, hc, h⟩ := Option.bind_eq_some_iff.mp h
      obtain ⟨a, ha, rfl⟩ := Option.map_eq_some_iff.mp h
      have hcm := List.mem_of_getLast? hc
      obtain ⟨k1, k2, -⟩ := hall c (List.mem_flatMap.mpr ⟨x, hx, hcm⟩)
      have hp : x ++ [a] <+: c := by
        obtain ⟨t, rfl⟩ := offers_prefix hcm
        rw [List.getElem?_append_right (Nat.le_refl _), Nat.sub_self] at ha
        cases t with
        | nil => cases ha
        | cons b t => cases ha; exact ⟨t, by simp⟩
      exact ⟨by have := hp.length_le; omega, Room.prefix hp (by simp) k2⟩
    · cases hz
  · obtain ⟨c, hc, h'⟩ := hd _ h
    exact (hall c hc).2.2.1 h'
  · obtain ⟨c, hc, h'⟩ := hd _ h
    exact (hall c hc).2.2.2 h'

theorem lineHead_split (line : Str) : line = lineHead line ++ lastWord line ∧ (¬ (∃ w, line = cSpace :: w ∧ w ≠ [] ∧ cSpace ∉ w) →
    lastArgOff line = (lineHead line).length) := by
  by_cases hs : cSpace ∈ line
  · obtain ⟨q, w, rfl, hw⟩ := exists_last_space line hs
    have h1 := lastWord_split q w hw
    have h2 : lineHead (q ++ cSpace :: w) = q ++ [cSpace] := by
      unfold lineHead
      rw [h1]
      have : (q ++ cSpace :: w).length - w.length = (q ++ [cSpace]).length := by simp; omega
      rw [this, List.append_cons q cSpace w]
      exact List.take_left' rfl
    rw [h1, h2]
    refine ⟨by simp, fun h => ?_⟩
    rw [lastArgOff_split q w hw]
    · simp
    · by_cases hq : q = []
      · subst hq
        right
        by_contra hw0
        exact h ⟨w, rfl, hw0, hw⟩
      · exact Or.inl hq
  · have h1 := lastWord_nospace line hs
    have h2 : lineHead line = [] := by unfold lineHead; rw [h1]; simp
    rw [h1, h2]
    exact ⟨rfl, fun _ => lastArgOff_nospace line hs⟩

theorem lastArgOff_space (w : Str) (hw0 : w ≠ []) (hw : cSpace ∉ w) : lastArgOff (cSpace :: w) = 0 := by
  have hno : ∀ i, 1 ≤ i → (cSpace :: w)[i]? ≠ some cSpace := by
    intro i hi h
    obtain ⟨j, rfl⟩ : ∃ j, i = j + 1 := ⟨i - 1, by omega⟩
    rw [List.getElem?_cons_succ] at h
    exact hw (List.mem_of_getElem? h)
  have hl : 0 < w.length := List.length_pos_iff.mpr hw0
  unfold lastArgOff
  rw [if_neg (by simp), if_neg (hno _ (by simp; omega)), lastArgLoop_none _ _ (fun i h1 _ => hno i h1)]

theorem spaceWord_iff (line : Str) : spaceWord line ↔ ∃ w, line = cSpace :: w ∧ w ≠ [] ∧ cSpace ∉ w := by
  unfold spaceWord
  constructor
  · rintro ⟨h1, h2, h3⟩
    cases line with
    | nil => cases h1
    | cons c w =>
      cases h1
      exact ⟨w, rfl, fun h => h2 (by rw [h]), h3⟩
  · rintro ⟨w, rfl, h1, h2⟩
    exact ⟨rfl, by simpa using h1, h2⟩

theorem tabTarget_split (line : Str) : line = (tabTarget line).1 ++ (tabTarget line).2 ∧ lastArgOff line = (tabTarget line).1.length := by
  unfold tabTarget
  split
  · next h =>
    obtain ⟨w, rfl, h1, h2⟩ := (spaceWord_iff line).mp h
    exact ⟨rfl, lastArgOff_space w h1 h2⟩
  · next h => exact ⟨(lineHead_split line).1, (lineHead_split line).2 (fun hw => h ((spaceWord_iff line).mpr hw))⟩

theorem tabTarget_of {line : Str} (h : ¬ ∃ w, line = cSpace :: w ∧ w ≠ [] ∧ cSpace ∉ w) : tabTarget line = (lineHead line, lastWord line) := by
  unfold tabTarget
  rw [if_neg (fun hs => h ((spaceWord_iff line).mp hs))]

/-- TAB. -/
theorem tab_run {e : Editor} (on : E.autocomplete = true) (cfg : Config E) (H : Waiting E W u e) (i : List UInt8)
    (hnul : cNul ∉ e.line) (ht : W.TabOk E (tabTarget e.line).1 (tabTarget e.line).2) :
    ∃ v, Run E u (cTab :: i) v i (.inp cTab :: outs (W.tabs E (tabTarget e.line).1 (tabTarget e.line).2).2) ∧
      Waiting E W v ⟨(W.tabs E (tabTarget e.line).1 (tabTarget e.line).2).1, e.esc⟩ := by
  obtain ⟨h1, h2⟩ := tabTarget_split e.line
  exact tab_word on cfg H i hnul h1 h2 ht

end Ush
