import Verif.Proof.SafeParse
/-!
# The invariant: processes
-/
namespace Ush
open Spec

variable {E : Env} {L : Nat} {W : World} {u v : Ush} {k : Nat}

/-- Printing the output buffer. -/
theorem Goes.out {o : List UInt8} {nx : St} {j : Nat} (H : Holds E W u) (F : W.Fits E L) (ho : o.length = E.outSize) (hn : cNul ∈ o)
    (hl : Live E L W u j nx) (hj : j < k) (hp : isParse nx = false) : Goes E L W k (writePointer { u with outBuf := o } .outBuf nx) := by
  have : ∃ s, ptrStr { u with outBuf := o } .outBuf = .ok s := by
    show ∃ s, cstrAt o 0 = .ok s
    unfold cstrAt
    rw [if_pos (by rw [List.drop_zero]; exact hn)]
    exact ⟨_, rfl⟩
  obtain ⟨s, hs⟩ := this
  exact Goes.say (u := { u with outBuf := o }) (H.same ⟨rfl, rfl, rfl, rfl⟩ ⟨H.sized.inLen, ho⟩) F (by simp) hs (by cases nx <;> exact hl) hj hp

/-- Printing a text stored in the output buffer. -/
theorem Goes.store {s : Str} {nx : St} {j : Nat} (H : Holds E W u) (F : W.Fits E L) (hs : s.length < E.outSize)
    (hl : Live E L W u j nx) (hj : j < k) (hp : isParse nx = false) :
    Goes E L W k (storeStr u.outBuf 0 s >>= fun o => writePointer { u with outBuf := o } .outBuf nx) := by
  obtain ⟨o, h1, v, h2, i, n⟩ := sayOut_inv H F hs hl
  rw [h1, M.ok_bind]
  exact ⟨v, j, h2, hj, i, by rw [n]; exact hp⟩

theorem alignedName_len {f : FileDesc} {d : Str} (h : f.description = some d) (hf : (rowHead E f).length < E.outSize) :
    (alignedName E f.name).length < E.outSize := by
  rw [alignedName_eq f h]; exact hf

theorem name_len {f : FileDesc} (h : f.description = none) (hf : (rowHead E f).length < E.outSize) : f.name.length < E.outSize := by
  unfold rowHead at hf; rw [h] at hf; exact hf

theorem Inv.writes {s : St} (B : Base E L W v) (h1 : v.state = .writeChar) (h2 : v.writeNext = s) (hl : Live E L W v k s) : Inv E L W k v ∧ next v = s := by
  have : next v = s := by unfold next; rw [if_pos h1, h2]
  exact ⟨{ toBase := B, live := by rw [this]; exact hl }, this⟩

/-! ## help -/

theorem left_zero (gs : Groups) : left gs 0 0 = cost gs := by
  cases gs with
  | nil => rfl
  | cons g gs => simp [left, cost]

theorem left_cons (g : Group) (gs : Groups) (item idx : Nat) : left (g :: gs) item idx = (3 * (g.files.length - item) - idx) + 1 + cost gs := rfl

theorem goes_help (I : Inv E L W k u) (hs : u.state = .processStart) {f : FileDesc} (hf : u.procFile = some f) (hp : f.process = some (.builtin .help))
    (hv : HelpLive W u k) : Goes E L W k (helpService E u) := by
  have B := I.toBase
  have H := B.toHolds
  obtain ⟨gs, g1, g2, g3⟩ := hv.at'
  have live : ∀ (v : Ush) (j : Nat), v.procFile = u.procFile → HelpLive W v j → Live E L W v j .processStart := by
    intro v j h1 h2
    exact ⟨f, h1.trans hf, by rw [hp]; exact ⟨rfl, h2⟩⟩
  cases gs with
  | nil =>
    have hn : u.procNode = none := g2
    have e : helpService E u = .ok { u with state := .resetPrompt } := by
      unfold helpService; simp only [hs, hn]
    rw [e]
    exact Goes.set (s := .resetPrompt) (j := 7) (B.keep ⟨rfl, rfl, rfl, rfl⟩ rfl rfl rfl rfl) rfl (Nat.le_refl 7) (by unfold left at g3; omega) rfl
  | cons g gs =>
    obtain ⟨hn, g2⟩ : u.procNode = some g.id ∧ IsChain u.nodes (u.nodes g.id).next (gs.map Group.id) := g2
    have hg : g ∈ W.groups := g1.mem (by simp)
    have hfs := B.rep.cmds.files g hg
    rw [left_cons] at g3
    by_cases hi : u.procItem ≥ g.files.length
    · have e : helpService E u = .ok { u with procIndex := 0, procItem := 0, procNode := (u.nodes g.id).next } := by
        unfold helpService; simp only [hs, hn, hfs, if_pos hi]
      rw [e]
      refine Goes.set (s := .processStart) (j := left gs 0 0 + 8) (B.keep ⟨rfl, rfl, rfl, rfl⟩ rfl rfl rfl rfl) hs ?_ (by rw [left_zero]; omega) rfl
      exact live _ _ rfl ⟨⟨gs, (List.suffix_cons g gs).trans g1, g2, Nat.le_refl _⟩, Nat.zero_le _, by intro h; cases h⟩
    · have hi' : u.procItem < g.files.length := by omega
      obtain ⟨x, hx⟩ : ∃ x, g.files[u.procItem]? = some x := ⟨_, List.getElem?_eq_getElem hi'⟩
      have hmem : x ∈ W.files :=
        List.mem_append_left _ (List.mem_flatMap.mpr ⟨g, hg, List.mem_of_getElem? hx⟩)
      have hfit := (B.fits.files _ hmem).2
      have hget : (u.nodes g.id).files[u.procItem]? = some x := by rw [hfs]; exact hx
      have H1 : ∀ i, Holds E W { u with procIndex := i } := fun i => H.same ⟨rfl, rfl, rfl, rfl⟩ ⟨H.sized.inLen, H.sized.outLen⟩
      have hchain : IsChain u.nodes u.procNode ((g :: gs).map Group.id) := ⟨hn, g2⟩
      have hidx := hv.idx
      have hcase : u.procIndex = 0 ∨ u.procIndex = 1 ∨ u.procIndex = 2 := by omega
      rcases hcase with hc | hc | hc <;> rw [hc] at g3
      · cases hd : x.description with
        | some d =>
          have e : helpService E u = (storeStr u.outBuf 0 (alignedName E x.name) >>= fun o => writePointer { u with outBuf := o, procIndex := 1 } .outBuf .processStart) := by
            unfold helpService; simp only [hs, hn, hfs, if_neg hi, hx, hc, hd]
          rw [e]
          refine Goes.store (k := k) (u := { u with procIndex := 1 }) (nx := .processStart) (j := left (g :: gs) u.procItem 1 + 8) (H1 1) B.fits (alignedName_len hd hfit) ?_ (by rw [left_cons]; omega) rfl
          exact live _ _ rfl ⟨⟨g :: gs, g1, hchain, Nat.le_refl _⟩, by show 1 ≤ 2; omega, fun _ => ⟨g.id, x, d, hn, hget, hd⟩⟩
        | none =>
          have e : helpService E u = (storeStr u.outBuf 0 x.name >>= fun o => writePointer { u with outBuf := o, procIndex := 2 } .outBuf .processStart) := by
            unfold helpService; simp only [hs, hn, hfs, if_neg hi, hx, hc, hd]
          rw [e]
          refine Goes.store (k := k) (u := { u with procIndex := 2 }) (nx := .processStart) (j := left (g :: gs) u.procItem 2 + 8) (H1 2) B.fits (name_len hd hfit) ?_ (by rw [left_cons]; omega) rfl
          exact live _ _ rfl ⟨⟨g :: gs, g1, hchain, Nat.le_refl _⟩, Nat.le_refl 2, by intro h; cases h⟩
      · obtain ⟨n, f', d, e1, e2, e3⟩ := hv.desc hc
        cases hn.symm.trans e1
        cases hget.symm.trans e2
        have e : helpService E u = writePointer { u with procIndex := 2 } (.str d) .processStart := by
          unfold helpService; simp only [hs, hn, hfs, if_neg hi, hx, hc, e3]
        rw [e]
        refine Goes.sayStr (k := k) (u := { u with procIndex := 2 }) (nx := .processStart) (j := left (g :: gs) u.procItem 2 + 8) (H1 2) B.fits ?_ (by rw [left_cons]; omega) rfl
        exact live _ _ rfl ⟨⟨g :: gs, g1, hchain, Nat.le_refl _⟩, Nat.le_refl 2, by intro h; cases h⟩
      · have e : helpService E u = writePointer { u with procIndex := 0, procItem := u.procItem + 1 }
            (.str (if x.description ≠ none then E.styleReset ++ crlf else crlf)) .processStart := by
          unfold helpService; simp only [hs, hn, hfs, if_neg hi, hx, hc]
        rw [e]
        refine Goes.sayStr (k := k) (u := { u with procIndex := 0, procItem := u.procItem + 1 }) (nx := .processStart) (j := left (g :: gs) (u.procItem + 1) 0 + 8)
          (H.same ⟨rfl, rfl, rfl, rfl⟩ ⟨H.sized.inLen, H.sized.outLen⟩) B.fits ?_ (by rw [left_cons]; omega) rfl
        exact live _ _ rfl ⟨⟨g :: gs, g1, hchain, Nat.le_refl _⟩, Nat.zero_le _, by intro h; cases h⟩

/-! ## ls -/

theorem lsFlags_len (f : FileDesc) : (lsFlags f).length = 6 := by
  unfold lsFlags
  cases f.getData <;> cases f.setData <;> cases f.exec <;> cases f.help <;> rfl

theorem under_len (t : Tree) (m : Mount) : (t.under m).length ≤ t.length := by
  unfold Tree.under Tree.kids
  split
  · exact List.length_filter_le _ _
  · exact Nat.zero_le _

theorem goes_ls (cfg : Roomy E) (I : Inv E L W k u) {s : St} (hs : u.state = s) {f : FileDesc} (hf : u.procFile = some f)
    (hp : f.process = some (.builtin .ls)) (hv : LsLive W u k s) : Goes E L W k (lsService E u) := by
  have B := I.toBase
  have H := B.toHolds
  have live : ∀ (v : Ush) (j : Nat) (s : St), v.procFile = u.procFile → LsLive W v j s → ProcLive E L W v j s := by
    intro v j s h1 h2
    exact ⟨f, h1.trans hf, by rw [hp]; exact h2⟩
  have H1 : ∀ i, Holds E W { u with procIndex := i } := fun i => H.same ⟨rfl, rfl, rfl, rfl⟩ ⟨H.sized.inLen, H.sized.outLen⟩
  cases s
  case processStart =>
    obtain ⟨m, hm, h1, h2⟩ := hv
    obtain ⟨x, hx⟩ := ptrStr_str_any u (if (u.nodes m.id).parent ≠ none then lsDots E b!"." ++ lsDots E b!".." else lsDots E b!".")
    have e : lsService E u = (writePointer u (.str (if (u.nodes m.id).parent ≠ none then lsDots E b!"." ++ lsDots E b!".." else lsDots E b!".")) .processService
        >>= fun v => .ok { v with procChild := (v.nodes m.id).children, procIndex := 0 }) := by
      unfold lsService; simp only [hs, h1]; rfl
    rw [e, writePointer_of .processService (by simp) hx, M.ok_bind]
    refine ⟨_, 4 * (W.tree.under m).length + 4 * m.files.length + 9, rfl, by have := under_len W.tree m; omega, ?_, rfl⟩
    refine { toHolds := H.same ⟨rfl, rfl, rfl, rfl⟩ ⟨H.sized.inLen, H.sized.outLen⟩, fits := B.fits, outp := ptrStr_out (E := E) .processService hx, wok := ptrStr_write H.sized .processService hx, live := ?_ }
    refine live _ _ .processService rfl ⟨m, hm, h1, Nat.zero_le _, W.tree.under m, List.suffix_refl _, ?_, by show 4 * _ - 0 + _ + 9 ≤ _; omega⟩
    exact B.rep.under hm
  case processService =>
    obtain ⟨m, hm, h1, h2, ms, h3, h4, h5⟩ := hv
    cases ms with
    | nil =>
      have hn : u.procChild = none := h4
      have e : lsService E u = .ok { u with procIndex := 0, procItem := 0, state := .processFinish } := by
        unfold lsService; simp only [hs, hn]
      rw [e]
      refine Goes.set (s := .processFinish) (j := 4 * m.files.length + 8) (B.keep ⟨rfl, rfl, rfl, rfl⟩ rfl rfl rfl rfl) rfl ?_ (by omega) rfl
      exact live _ _ .processFinish rfl ⟨m, hm, h1, Nat.zero_le _, by show 4 * (_ - 0) - 0 + 8 ≤ _; omega, by intro h; cases h⟩
    | cons c ms =>
      obtain ⟨hc, h4'⟩ : u.procChild = some c.id ∧ IsChain u.nodes (u.nodes c.id).next (ms.map Mount.id) := h4
      have hcm := (under_mem (h3.subset (List.mem_cons_self (a := c) (l := ms)))).1
      have hpath := B.rep.tree.path c hcm
      rw [List.length_cons] at h5
      have go : ∀ (i : Nat), i ≤ 3 → u.procIndex < i → Live E L W { u with procIndex := i } (k - 1) .processService := by
        intro i hi hx
        exact live _ _ .processService rfl ⟨m, hm, h1, hi, c :: ms, h3, ⟨hc, h4'⟩, by show 4 * (ms.length + 1) - i + _ + 9 ≤ _; omega⟩
      have hcase : u.procIndex = 0 ∨ u.procIndex = 1 ∨ u.procIndex = 2 ∨ u.procIndex = 3 := by omega
      rcases hcase with hx | hx | hx | hx
      · have e : lsService E u = writePointer { u with procIndex := 1 } (.str (b!"d---- " ++ E.colorGreen)) .processService := by
          unfold lsService; simp only [hs, hc, hx]
        rw [e]
        exact Goes.sayStr (k := k) (u := { u with procIndex := 1 }) (j := k - 1) (H1 1) B.fits (go 1 (by omega) (by omega)) (by omega) rfl
      · have e : lsService E u = writePointer { u with procIndex := 2 } (.str (pathLast (render c.path))) .processService := by
          unfold lsService; simp only [hs, hc, hx, hpath]
        rw [e]
        exact Goes.sayStr (k := k) (u := { u with procIndex := 2 }) (j := k - 1) (H1 2) B.fits (go 2 (by omega) (by omega)) (by omega) rfl
      · have e : lsService E u = writePointer { u with procIndex := 3 } (.str (b!"/" ++ E.styleReset ++ crlf)) .processService := by
          unfold lsService; simp only [hs, hc, hx]
        rw [e]
        exact Goes.sayStr (k := k) (u := { u with procIndex := 3 }) (j := k - 1) (H1 3) B.fits (go 3 (by omega) (by omega)) (by omega) rfl
      · have e : lsService E u = .ok { u with procIndex := 0, procChild := (u.nodes c.id).next } := by
          unfold lsService; simp only [hs, hc, hx]
        rw [e]
        refine Goes.set (s := .processService) (j := k - 1) (B.keep ⟨rfl, rfl, rfl, rfl⟩ rfl rfl rfl rfl) hs ?_ (by omega) rfl
        exact live _ _ .processService rfl ⟨m, hm, h1, Nat.zero_le _, ms, (List.suffix_cons c ms).trans h3, h4', by show 4 * ms.length - 0 + _ + 9 ≤ _; omega⟩
  case processFinish =>
    obtain ⟨m, hm, h1, h2, h3, h4⟩ := hv
    have hfs : (u.nodes m.id).files = m.files := (B.rep.dir hm).files
    by_cases hi : u.procItem ≥ m.files.length
    · have e : lsService E u = .ok { u with state := .resetPrompt } := by
        unfold lsService; simp only [hs, h1, hfs, if_pos hi]
      rw [e]
      exact Goes.set (s := .resetPrompt) (j := 7) (B.keep ⟨rfl, rfl, rfl, rfl⟩ rfl rfl rfl rfl) rfl (Nat.le_refl 7) (by omega) rfl
    · have hi' : u.procItem < m.files.length := by omega
      obtain ⟨x, hget⟩ : ∃ x, m.files[u.procItem]? = some x := ⟨_, List.getElem?_eq_getElem hi'⟩
      have hmem : x ∈ W.files :=
        List.mem_append_right _ (List.mem_flatMap.mpr ⟨m, hm, List.mem_of_getElem? hget⟩)
      have hfit := (B.fits.files _ hmem).2
      have go : ∀ (i : Nat), i ≤ 3 → u.procIndex < i → (i = 2 → ∃ f d, m.files[u.procItem]? = some f ∧ f.description = some d) →
          Live E L W { u with procIndex := i } (k - 1) .processFinish := by
        intro i hi hx hd
        refine live _ _ .processFinish rfl ⟨m, hm, h1, hi, ?_, hd⟩
        show 4 * (m.files.length - u.procItem) - i + 8 ≤ k - 1
        omega
      have hcase : u.procIndex = 0 ∨ u.procIndex = 1 ∨ u.procIndex = 2 ∨ u.procIndex = 3 := by omega
      rcases hcase with hx | hx | hx | hx
      · have e : lsService E u = (storeStr u.outBuf 0 (lsFlags x) >>= fun o => writePointer { u with outBuf := o, procIndex := 1 } .outBuf .processFinish) := by
          unfold lsService; simp only [hs, h1, hfs, if_neg hi, hget, hx]
        rw [e]
        exact Goes.store (k := k) (u := { u with procIndex := 1 }) (j := k - 1) (H1 1) B.fits (by rw [lsFlags_len]; have := cfg.offset; omega)
          (go 1 (by omega) (by omega) (by omega)) (by omega) rfl
      · cases hd : x.description with
        | some d =>
          have e : lsService E u = (storeStr u.outBuf 0 (alignedName E x.name) >>= fun o => writePointer { u with outBuf := o, procIndex := 2 } .outBuf .processFinish) := by
            unfold lsService; simp only [hs, h1, hfs, if_neg hi, hget, hx, hd]
          rw [e]
          exact Goes.store (k := k) (u := { u with procIndex := 2 }) (j := k - 1) (H1 2) B.fits (alignedName_len hd hfit) (go 2 (by omega) (by omega) (fun _ => ⟨_, d, hget, hd⟩)) (by omega) rfl
        | none =>
          have e : lsService E u = (storeStr u.outBuf 0 x.name >>= fun o => writePointer { u with outBuf := o, procIndex := 3 } .outBuf .processFinish) := by
            unfold lsService; simp only [hs, h1, hfs, if_neg hi, hget, hx, hd]
          rw [e]
          exact Goes.store (k := k) (u := { u with procIndex := 3 }) (j := k - 1) (H1 3) B.fits (name_len hd hfit) (go 3 (by omega) (by omega) (by omega)) (by omega) rfl
      · obtain ⟨f', d, e2, e3⟩ := h4 hx
        cases hget.symm.trans e2
        have e : lsService E u = writePointer { u with procIndex := 3 } (.str d) .processFinish := by
          unfold lsService; simp only [hs, h1, hfs, if_neg hi, hget, hx, e3]
        rw [e]
        exact Goes.sayStr (k := k) (u := { u with procIndex := 3 }) (j := k - 1) (H1 3) B.fits (go 3 (by omega) (by omega) (by omega)) (by omega) rfl
      · have e : lsService E u = writePointer { u with procIndex := 0, procItem := u.procItem + 1 }
            (.str (if x.description ≠ none then E.styleReset ++ crlf else crlf)) .processFinish := by
          unfold lsService; simp only [hs, h1, hfs, if_neg hi, hget, hx]
        rw [e]
        refine Goes.sayStr (k := k) (u := { u with procIndex := 0, procItem := u.procItem + 1 }) (j := k - 1)
          (H.same ⟨rfl, rfl, rfl, rfl⟩ ⟨H.sized.inLen, H.sized.outLen⟩) B.fits ?_ (by omega) rfl
        refine live _ _ .processFinish rfl ⟨m, hm, h1, Nat.zero_le _, ?_, by intro h; cases h⟩
        show 4 * (m.files.length - (u.procItem + 1)) - 0 + 8 ≤ k - 1
        omega
  all_goals exact hv.elim

/-! ## cat -/

theorem goes_cat (HB : Behaves E L) (I : Inv E L W k u) {s : St} (hs : u.state = s) {f : FileDesc} (hf : u.procFile = some f)
    (hp : f.process = some (.builtin .cat)) (hv : CatLive L W u k s) : Goes E L W k (catService E u) := by
  have B := I.toBase
  have H := B.toHolds
  have live : ∀ (v : Ush) (j : Nat) (s : St), v.procFile = u.procFile → CatLive L W v j s → ProcLive E L W v j s := by
    intro v j s h1 h2
    exact ⟨f, h1.trans hf, by rw [hp]; exact h2⟩
  unfold catService
  cases s
  case processStart =>
    obtain ⟨h1, h2⟩ := hv
    rw [hs]
    refine Goes.set (s := .processService) (j := u.argsCount + 9) (B.keep ⟨rfl, rfl, rfl, rfl⟩ rfl rfl rfl rfl) rfl ?_ (by omega) rfl
    exact live _ _ .processService rfl ⟨h1, Nat.le_refl _, by show u.argsCount - 1 + 9 ≤ u.argsCount + 9; omega⟩
  case processService =>
    obtain ⟨h1, h2, h3⟩ := hv
    rw [hs]
    simp only
    split
    · exact Goes.set (s := .processFinish) (j := 8) (B.keep ⟨rfl, rfl, rfl, rfl⟩ rfl rfl rfl rfl) rfl (live _ _ .processFinish rfl (Nat.le_refl 8)) (by omega) rfl
    · next hi =>
      obtain ⟨argv, g1, g2, g3⟩ := h1
      have hlt : u.procItem < argv.length := by omega
      rw [g1, M.ok_bind]
      have ho : argAt argv u.procItem = .ok argv[u.procItem] := by unfold argAt; rw [List.getElem?_eq_getElem hlt]
      rw [ho, M.ok_bind]
      have hmem : argv[u.procItem] ∈ argv.tail := by
        cases argv with
        | nil => simp at hlt
        | cons a as =>
          obtain ⟨n, hn⟩ : ∃ n, u.procItem = n + 1 := ⟨u.procItem - 1, by omega⟩
          simp [hn]
      obtain ⟨a, g, id, e1, hl, e2, e3⟩ := g3 _ hmem
      obtain ⟨hn, -⟩ := cstrAt_eq_ok e1
      obtain ⟨d, hd, -⟩ := HB.get id u
      rw [e1, M.ok_bind, H.find hn (B.near hl), M.ok_bind, e2]
      simp only [e3, callGet, hd]
      have B2 : Base E L W { writePointerBin (u.emit (.getData id)) (.data d) d.length u.state with procItem := u.procItem + 1 } :=
        { toHolds := H.same ⟨rfl, rfl, rfl, rfl⟩ ⟨H.sized.inLen, H.sized.outLen⟩, fits := B.fits, outp := fun h => (by cases h), wok := Nat.le_refl d.length }
      obtain ⟨i1, i2⟩ := Inv.writes (s := .processService) (k := k - 1) B2 rfl hs (by
        refine live _ _ .processService rfl ⟨⟨argv, g1, g2, g3⟩, ?_, ?_⟩
        · show 1 ≤ u.procItem + 1; omega
        · show u.argsCount - (u.procItem + 1) + 9 ≤ k - 1; omega)
      exact ⟨_, k - 1, rfl, by omega, i1, congrArg isParse i2⟩
  case processFinish =>
    have h1 : 8 ≤ k := hv
    rw [hs]
    exact Goes.set (s := .resetPrompt) (j := 7) (B.keep ⟨rfl, rfl, rfl, rfl⟩ rfl rfl rfl rfl) rfl (Nat.le_refl 7) (by omega) rfl
  all_goals exact hv.elim

/-! ## xxd -/

theorem goes_xxd (cfg : Roomy E) (I : Inv E L W k u) {s : St} (hs : u.state = s) {f : FileDesc} (hf : u.procFile = some f)
    (hp : f.process = some (.builtin .xxd)) (hv : XxdLive E u k s) : Goes E L W k (xxdService E u) := by
  have B := I.toBase
  have H := B.toHolds
  have live : ∀ (v : Ush) (j : Nat) (s : St), v.procFile = u.procFile → XxdLive E v j s → ProcLive E L W v j s := by
    intro v j s h1 h2
    exact ⟨f, h1.trans hf, by rw [hp]; exact h2⟩
  have H1 : ∀ i, Holds E W { u with procIndex := i } := fun i => H.same ⟨rfl, rfl, rfl, rfl⟩ ⟨H.sized.inLen, H.sized.outLen⟩
  have hz := B.sized.outLen
  have hoff := cfg.offset
  have hhex := cfg.hex
  have hcol := cfg.cols
  cases s
  case processStart =>
    obtain ⟨h1, h2⟩ := hv
    unfold xxdService
    rw [hs]
    refine Goes.set (s := .processService) (j := 4 * u.procDataSize + 12) (B.keep ⟨rfl, rfl, rfl, rfl⟩ rfl rfl rfl rfl) rfl ?_ (by omega) rfl
    exact live _ _ .processService rfl ⟨h1, Nat.zero_le _, fun _ => .inl rfl, by show xxdCost 0 0 u.procDataSize + 8 ≤ _; unfold xxdCost; simp⟩
  case processService =>
    obtain ⟨⟨d, hd, hsz, hbig, hget⟩, h2, h3, h4⟩ := hv
    have go : ∀ i item, i ≤ 3 → (i ≤ 2 → item = 0 ∨ item < u.procDataSize) → xxdCost i item u.procDataSize + 8 ≤ k - 1 →
        Live E L W { u with procIndex := i, procItem := item } (k - 1) .processService := by
      intro i item h1 h2 h3
      exact live _ _ .processService rfl ⟨⟨d, hd, hsz, hbig, hget⟩, h1, h2, h3⟩
    have hcase : u.procIndex = 0 ∨ u.procIndex = 1 ∨ u.procIndex = 2 ∨ u.procIndex = 3 := by omega
    rcases hcase with hx | hx | hx | hx
    · have hi : u.procItem < 16 ^ 8 := by
        rcases h3 (by omega) with h | h
        · rw [h]; decide
        · omega
      have hlen : (hex8 u.procItem ++ b!": ").length < E.outSize := by rw [hex8_eq hi, List.length_append, hexFixed_length]; exact hoff
      rw [hx] at h4
      have := go 1 u.procItem (by omega) (fun _ => h3 (by omega)) (by unfold xxdCost at h4 ⊢; simp at h4 ⊢; omega)
      have := Goes.store (k := k) (u := { u with procIndex := 1 }) (j := k - 1) (H1 1) B.fits hlen this (by unfold xxdCost at h4; simp at h4; omega) rfl
      unfold xxdService
      rw [hs]
      simp only
      rw [hx]
      exact this
    · obtain ⟨t1, e1, l1⟩ := wr_zero (b := u.outBuf) (by omega)
      obtain ⟨t2, e2, l2⟩ := xxdHexLoop_eq (u := u) (d := d) hd hsz E.xxdColumns u.procItem [] t1 (by simp) (by rw [List.nil_append, l1, hz]; simp; omega)
      rw [List.nil_append] at e2 l2
      rw [List.nil_append] at e2 l2
      obtain ⟨t3, e3, l3⟩ := appendStr_eq (a := hexCols E.xxdColumns (d.drop u.procItem)) (s := b!" ") (t := t2) (hexCols_nul _ _) (by
        rw [l2, l1, hz]; simp [hexCols_length]; omega)
      rw [xxdService_1 hs hx e1 e2 e3]
      rw [hx] at h4
      have := go 2 u.procItem (by omega) (fun _ => h3 (by omega)) (by unfold xxdCost at h4 ⊢; simp at h4 ⊢; omega)
      exact Goes.out (k := k) (u := { u with procIndex := 2 }) (j := k - 1) (H1 2) B.fits (by rw [l3, l2, l1, hz]) (by simp) this (by unfold xxdCost at h4; simp at h4; omega) rfl
    · obtain ⟨t1, e1, l1⟩ := wr_zero (b := u.outBuf) (by omega)
      obtain ⟨t2, e2, l2⟩ := xxdTextLoop_eq (u := u) (d := d) hd hsz E.xxdColumns u.procItem [] t1 (by simp) (by rw [List.nil_append, l1, hz]; simp; omega)
      rw [List.nil_append] at e2 l2
      rw [List.nil_append] at e2 l2
      rw [xxdService_2 hs hx e1 e2]
      rw [hx] at h4
      have := go 3 (u.procItem + E.xxdColumns) (by omega) (by omega) (by unfold xxdCost at h4 ⊢; simp at h4 ⊢; split <;> omega)
      exact Goes.out (k := k) (u := { u with procIndex := 3, procItem := u.procItem + E.xxdColumns }) (j := k - 1)
        (H.same ⟨rfl, rfl, rfl, rfl⟩ ⟨H.sized.inLen, H.sized.outLen⟩) B.fits (by rw [l2, l1, hz]) (by simp) this (by unfold xxdCost at h4; simp at h4; omega) rfl
    · rw [xxdService_3 hs hx]
      rw [hx] at h4
      unfold xxdCost at h4
      simp only [if_true] at h4
      split
      · next hi =>
        rw [if_pos hi] at h4
        exact Goes.sayStr (nx := .processFinish) (j := 8) H B.fits (live _ _ .processFinish rfl (Nat.le_refl 8)) (by omega) rfl
      · next hi =>
        rw [if_neg hi] at h4
        have := go 0 u.procItem (by omega) (by omega) (by unfold xxdCost; simp; omega)
        exact Goes.sayStr (k := k) (u := { u with procIndex := 0 }) (j := k - 1) (H1 0) B.fits this (by omega) rfl
  case processFinish =>
    have h1 : 8 ≤ k := hv
    unfold xxdService
    rw [hs]
    exact Goes.set (s := .resetPrompt) (j := 7) (B.keep ⟨rfl, rfl, rfl, rfl⟩ rfl rfl rfl rfl) rfl (Nat.le_refl 7) (by omega) rfl
  all_goals exact hv.elim

/-! ## All processes -/

/-- The application's process function is about to be called. -/
def UserProc (u : Ush) : Prop := ∃ f id, u.procFile = some f ∧ f.process = some (.user id)

theorem proc_inv (cfg : Roomy E) (H : Behaves E L) (I : Inv E L W k u)
    (hs : u.state = .processStart ∨ u.state = .processService ∨ u.state = .processFinish) :
    Goes E L W k (processCall E u) ∨ (Ends E L (processCall E u) ∧ UserProc u) := by
  have hl : ProcLive E L W u k u.state := by
    have := I.live
    rcases hs with h | h | h <;> rw [next_of h (by decide)] at this <;> rw [h] <;> exact this
  obtain ⟨f, h1, h2⟩ := hl
  unfold processCall
  rw [h1]
  simp only
  cases hf : f.process with
  | none =>
    rw [hf] at h2
    left
    exact Goes.set (s := .reset) (j := 8) (I.toBase.keep ⟨rfl, rfl, rfl, rfl⟩ rfl rfl rfl rfl) rfl (Nat.le_refl 8) (by simp only at h2; omega) rfl
  | some c =>
    rw [hf] at h2
    cases c with
    | user id =>
      right
      refine ⟨?_, f, id, h1, hf⟩
      have S : Settled u := by
        unfold Settled
        rcases hs with h | h | h <;> rw [next_of h (by decide)] <;> simp only <;> intro g hg b hb <;> cases h1.symm.trans hg <;> rw [hf] at hb <;> cases hb
      obtain ⟨I2, S2⟩ := I.emit S (.proc id)
      exact Ends.calls cfg I2 S2 (H.proc id u (I2.toBase.site S2))
    | builtin b =>
      left
      cases b with
      | help => exact goes_help I h2.1 h1 hf h2.2
      | ls => exact goes_ls cfg I rfl h1 hf h2
      | cat => exact goes_cat H I rfl h1 hf h2
      | xxd => exact goes_xxd cfg I rfl h1 hf h2
      | cd => exact h2.elim
      | pwd => exact h2.elim
      | echo => exact h2.elim

end Ush
