import Verif.Props.Samples
/-!
# Properties of the directory tree and the command groups (C03, C06 – C12)

Histories start with `ush_init` on a zeroed shell object with arbitrary buffer contents, followed by any
valid sequence of operations (`Spec/Fs.lean`).
-/
namespace Ush.Props
open Spec

/-! ## C03 Relative paths resolve against the working directory -/

/-- In every reached state with working directory `w`: the argument resolves to the normal form of its
components (absolute) or of `w` followed by its components (relative), whether or not it ends in `/`; the tree does
not matter. -/
theorem C03_resolve (E : Env) (hc : CfgOk E) (os : List FsOp) (u : Ush) (hr : Reached E os u)
    (w : Mount) (hw : (after E os).cwd = some w) (abs : Bool) (comps : List Str) (slash : Bool)
    (hg : ∀ c ∈ comps, GoodComp c) (hne : abs = false → comps ≠ [])
    (hfit : (render w.path).length + 1 + (argText abs comps slash).length < E.pathMax) :
    getAbsolutePath E u (argText abs comps slash) =
      .ok (render (normalize (if abs then comps else w.path ++ comps))) := by
  obtain ⟨H, -⟩ := hr.inv hc
  have C := H.cwd w hw
  exact getAbsolutePath_arg hc.pathMax C.path C.good abs comps slash hg hne hfit

/-- For every argument text that fits and has no NUL the resolution succeeds and yields a text that begins with `/` and
fits. -/
theorem C03_total (E : Env) (hc : CfgOk E) (os : List FsOp) (u : Ush) (hr : Reached E os u)
    (w : Mount) (hw : (after E os).cwd = some w) (arg : Str) (hn : cNul ∉ arg)
    (hfit : (render w.path).length + 1 + arg.length < E.pathMax) :
    ∃ r, getAbsolutePath E u arg = .ok r ∧ r.head? = some cSlash ∧ cNul ∉ r ∧ r.length < E.pathMax := by
  obtain ⟨H, -⟩ := hr.inv hc
  have C := H.cwd w hw
  refine getAbsolutePath_any hc.pathMax C.path arg C.fits ?_
    (render_nul _ (fun c hc => (C.good c hc).2.2)) (render_head _) hn
  unfold fullText
  split
  · omega
  · split
    · simp; omega
    · simp; omega

/-- Two states with the same working directory path resolve every argument alike, whatever is mounted. -/
theorem C03_independent (E : Env) (u v : Ush) (h : currentPath u = currentPath v) (arg : Str) :
    getAbsolutePath E u arg = getAbsolutePath E v arg := by
  unfold getAbsolutePath
  rw [h]

example : ∃ u, Reached wE wHist u ∧ (after wE wHist).cwd = some ⟨[b!"a"], 2, []⟩ ∧
    getAbsolutePath wE u b!"../a/./b/" = .ok b!"/a/b" := by
  obtain ⟨u, e, H, -⟩ := run_history wE_ok [] [] wHist wHist_valid
  refine ⟨u, ⟨wHist_valid, [], [], e⟩, by decide, ?_⟩
  exact C03_resolve wE wE_ok wHist u ⟨wHist_valid, [], [], e⟩ ⟨[b!"a"], 2, []⟩ (by decide) false
    [b!"..", b!"a", b!".", b!"b"] true (by decide) (by decide) (by decide)

/-! ## C06 The directory tree behaves like a finite map -/

/-- The finite map described by a history and the statuses it reported. -/
def mapAfter : (List Str → Option NodeId) → List (FsOp × Status) → (List Str → Option NodeId)
  | f, [] => f
  | f, (.mount p id _, .ok) :: l => mapAfter (fun q => if q = p then some id else f q) l
  | f, (.unmount t, .ok) :: l => mapAfter (fun q => if render q = t then none else f q) l
  | f, _ :: l => mapAfter f l

theorem mapAfter_run (E : Env) : ∀ (os : List FsOp) (W : World) (u : Ush), WInv E u W → W.ValidRun E os →
    ∀ f : List Str → Option NodeId, (∀ q, (∀ c ∈ q, GoodComp c) → f q = (W.tree.find q).map Mount.id) →
    ∀ q, (∀ c ∈ q, GoodComp c) →
      mapAfter f (os.zip (W.run os).2) q = ((W.run os).1.tree.find q).map Mount.id := by
  intro os
  induction os with
  | nil => intro W u _ _ f hf q hq; exact hf q hq
  | cons o os ih =>
    intro W u H hv f hf q hq
    obtain ⟨u', e, H', -⟩ := fsStep_sim H o hv.1
    have ih' := ih _ u' H' hv.2
    have hz : (o :: os).zip (W.run (o :: os)).2 = (o, (W.step o).2) :: os.zip ((W.step o).1.run os).2 := rfl
    have hr : (W.run (o :: os)).1 = ((W.step o).1.run os).1 := rfl
    rw [hz, hr]
    cases o with
    | mount p id files =>
      have hs : (W.step (.mount p id files)).1.tree = (W.tree.mount p id files).1 := rfl
      have hs2 : (W.step (.mount p id files)).2 = (W.tree.mount p id files).2 := rfl
      rw [hs2]
      unfold Tree.mount at hs ⊢
      split
      · rename_i h1
        rw [if_pos h1] at hs
        simp only [mapAfter]
        exact ih' f (by rw [hs]; exact hf) q hq
      · rename_i h1
        rw [if_neg h1] at hs
        split
        · rename_i h2
          rw [if_pos h2] at hs
          simp only [mapAfter]
          exact ih' f (by rw [hs]; exact hf) q hq
        · rename_i h2
          rw [if_neg h2] at hs
          simp only [mapAfter]
          refine ih' _ ?_ q hq
          intro q' hq'
          rw [hs]
          show _ = (Tree.find (_ :: _) q').map Mount.id
          unfold Tree.find
          rw [List.find?_cons]
          by_cases h3 : q' = p
          · subst h3; simp
          · rw [if_neg h3, beq_false_of_ne (fun h => h3 h.symm)]
            exact hf q' hq'
    | unmount t =>
      have hs : (W.step (.unmount t)).1.tree = (W.tree.unmount t).1 := rfl
      have hs2 : (W.step (.unmount t)).2 = (W.tree.unmount t).2 := rfl
      rw [hs2]
      unfold Tree.unmount at hs ⊢
      cases hft : W.tree.findText t with
      | none =>
        rw [hft] at hs
        simp only [mapAfter]
        exact ih' f (by rw [hs]; exact hf) q hq
      | some m =>
        rw [hft] at hs
        simp only at hs ⊢
        split
        · rename_i h1
          rw [if_pos h1] at hs
          simp only [mapAfter]
          exact ih' f (by rw [hs]; exact hf) q hq
        · rename_i h1
          rw [if_neg h1] at hs
          simp only [mapAfter]
          refine ih' _ ?_ q hq
          intro q' hq'
          obtain ⟨hm1, hm2⟩ := findText_some H.tree hft
          rw [hs]
          show _ = (Tree.find (List.filter _ _) q').map Mount.id
          by_cases h3 : render q' = t
          · rw [if_pos h3]
            have hqm : q' = m.path := render_inj _ _ hq' (H.tree.good m hm1) (by rw [h3, hm2])
            unfold Tree.find
            rw [List.find?_filter]
            symm
            rw [Option.map_eq_none_iff, List.find?_eq_none]
            intro x _
            simp [hqm]
          · rw [if_neg h3, hf q' hq']
            have hqm : m.path ≠ q' := fun h => h3 (by rw [← h]; exact hm2)
            unfold Tree.find
            rw [List.find?_filter]
            congr 1
            apply find?_congr'
            intro x _
            by_cases h4 : x.path = q'
            · simp [h4, show q' ≠ m.path from fun h => hqm h.symm]
            · simp [h4]
    | cd abs comps slash =>
      have hs : (W.step (.cd abs comps slash)).1.tree = W.tree := by
        simp only [World.step]
        split
        · rfl
        · split <;> rfl
      have hm : ∀ s, mapAfter f ((.cd abs comps slash, s) :: os.zip ((W.step (.cd abs comps slash)).1.run os).2) =
          mapAfter f (os.zip ((W.step (.cd abs comps slash)).1.run os).2) := by
        intro s; simp only [mapAfter]
      rw [hm]
      exact ih' f (by rw [hs]; exact hf) q hq
    | addGroup id files =>
      simp only [mapAfter]
      exact ih' f hf q hq
    | removeGroup id =>
      simp only [mapAfter]
      exact ih' f hf q hq

/-- After any valid history the library reported the statuses of the specification, and a query returns, for
every canonical path, what the finite map says: the node most recently mounted there and not unmounted since. -/
theorem C06_finite_map (E : Env) (hc : CfgOk E) (inBuf outBuf : List UInt8) (os : List FsOp)
    (hv : (initWorld E).ValidRun E os) :
    ∃ u st, run E (blank inBuf outBuf) (steps os) = .ok u ∧ u.log = st.map .ret ∧ st.length = os.length ∧
      ∀ q, (∀ c ∈ q, GoodComp c) → (render q).length < E.pathMax →
        getByPath E u (render q) = .ok (mapAfter (fun _ => none) (os.zip st) q) := by
  obtain ⟨u, e, H, l⟩ := run_history hc inBuf outBuf os hv
  obtain ⟨u0, e0, H0, -⟩ := ushInit_blank hc inBuf outBuf
  refine ⟨u, _, e, l, ?_, ?_⟩
  · have : ∀ (os : List FsOp) (W : World), (W.run os).2.length = os.length := by
      intro os
      induction os with
      | nil => intro W; rfl
      | cons o os ih => intro W; simp [World.run, ih]
    exact this os _
  · intro q hq hfit
    rw [mapAfter_run E os (initWorld E) u0 H0 hv (fun _ => none) (fun q _ => rfl) q hq,
      getByPath_eq H.tree _ hfit (render_ne_nil _), findText_render H.tree q hq]

/-- Texts that are not the text of a mounted path are not found. -/
theorem C06_only_mounted (E : Env) (hc : CfgOk E) (os : List FsOp) (u : Ush) (hr : Reached E os u) (q : Str)
    (hfit : q.length < E.pathMax) (hne : q ≠ []) (i : NodeId) (h : getByPath E u q = .ok (some i)) :
    ∃ p, (∀ c ∈ p, GoodComp c) ∧ q = render p ∧ ∃ m ∈ (after E os).tree, m.path = p ∧ m.id = i := by
  obtain ⟨H, -⟩ := hr.inv hc
  rw [getByPath_eq H.tree _ hfit hne] at h
  simp only [Except.ok.injEq, Option.map_eq_some_iff] at h
  obtain ⟨m, hm, rfl⟩ := h
  obtain ⟨h1, h2⟩ := findText_some H.tree hm
  exact ⟨m.path, H.tree.good m h1, h2.symm, m, h1, rfl, rfl⟩

example : ∃ u st, run wE (blank [] []) (steps wHist) = .ok u ∧ u.log = st.map .ret ∧
    mapAfter (fun _ => none) (wHist.zip st) [b!"a", b!"b"] = some 5 ∧
    getByPath wE u b!"/a/b" = .ok (some 5) ∧ getByPath wE u b!"/q/b" = .ok none := by
  obtain ⟨u, st, h1, h2, -, h4⟩ := C06_finite_map wE wE_ok [] [] wHist wHist_valid
  obtain ⟨-, l⟩ := Reached.inv wE_ok ⟨wHist_valid, [], [], h1⟩
  have hst : st = ((initWorld wE).run wHist).2 := by
    rw [h2] at l
    exact List.map_injective_iff.mpr (fun a b h => by cases h; rfl) l
  subst hst
  refine ⟨u, _, h1, h2, by decide, ?_, ?_⟩
  · exact h4 [b!"a", b!"b"] (by decide) (by decide)
  · exact h4 [b!"q", b!"b"] (by decide) (by decide)

/-! ## C07 Mount status -/

/-- Some node is mounted at `p`. -/
def Mounted (E : Env) (u : Ush) (p : List Str) : Prop := ∃ i, getByPath E u (render p) = .ok (some i)

theorem mounted_iff {E : Env} {u : Ush} {t : Tree} (H : TreeInv E u t) (p : List Str) (hp : ∀ c ∈ p, GoodComp c)
    (hf : (render p).length < E.pathMax) : Mounted E u p ↔ (t.find p).isSome := by
  unfold Mounted
  rw [getByPath_eq H _ hf (render_ne_nil _), findText_render H p hp]
  cases t.find p <;> simp

theorem render_dropLast_length (p : List Str) : (render p.dropLast).length ≤ (render p).length := by
  rcases List.eq_nil_or_concat p with rfl | ⟨l, c, rfl⟩
  · simp
  · rw [List.concat_eq_append]
    simp only [List.dropLast_concat]
    rw [render_concat]
    by_cases h : l = []
    · subst h; simp [render_nil]
    · simp [h]

theorem C07_mount (E : Env) (hc : CfgOk E) (os : List FsOp) (u : Ush) (hr : Reached E os u)
    (p : List Str) (id : NodeId) (files : List FileDesc) (hp : ∀ c ∈ p, GoodComp c)
    (hfit : (render p).length < E.pathMax) (hid : id < E.nodeCount) (hfree : (after E os).Unlinked id) :
    ∃ u' s, nodeMount E u (render p) id files = .ok (u', s) ∧
      (s = .nodeAlreadyMounted ↔ Mounted E u p) ∧
      (s = .nodeWithoutParent ↔ ¬ Mounted E u p ∧ p ≠ [] ∧ ¬ Mounted E u p.dropLast) ∧
      (s = .ok ↔ ¬ Mounted E u p ∧ (p = [] ∨ Mounted E u p.dropLast)) ∧
      (s = .ok → getByPath E u' (render p) = .ok (some id) ∧ (u'.nodes id).files = files ∧
        (u'.nodes id).path = some (render p)) ∧
      (∀ q : Str, q ≠ [] → q.length < E.pathMax → (s = .ok → q ≠ render p) →
        getByPath E u' q = getByPath E u q) := by
  obtain ⟨H, -⟩ := hr.inv hc
  obtain ⟨nodes, root, current, e, T, F, -⟩ := nodeMount_sim H.tree p id files hp hfit hid hfree.1
  have hpd : ∀ c ∈ p.dropLast, GoodComp c := fun c hc => hp c (List.dropLast_subset _ hc)
  have m1 := mounted_iff H.tree p hp hfit
  have m2 := mounted_iff H.tree p.dropLast hpd (Nat.lt_of_le_of_lt (render_dropLast_length p) hfit)
  refine ⟨_, _, e, ?_, ?_, ?_, ?_, ?_⟩
  · rw [m1]; unfold Tree.mount
    split
    · simp [*]
    · split <;> simp [*]
  · rw [m1, m2]; unfold Tree.mount
    split
    · simp [*]
    · split
      · rename_i h1 h2; simp [h1, h2]
      · rename_i h1 h2
        simp only [reduceCtorEq, false_iff]
        rintro ⟨-, h3, h4⟩
        exact h2 ⟨h3, by simpa using h4⟩
  · rw [m1, m2]; unfold Tree.mount
    split
    · simp [*]
    · split
      · rename_i h1 h2; simp [h1, h2]
      · rename_i h1 h2
        simp only [true_iff]
        refine ⟨h1, ?_⟩
        by_cases h3 : p = []
        · exact Or.inl h3
        · right
          cases h4 : (after E os).tree.find p.dropLast with
          | none => exact absurd ⟨h3, h4⟩ h2
          | some _ => rfl
  · intro hs
    have hmem : (⟨p, id, files⟩ : Mount) ∈ ((after E os).tree.mount p id files).1 := by
      unfold Tree.mount at hs ⊢
      split at hs
      · cases hs
      · split at hs
        · cases hs
        · rename_i ha hb
          rw [if_neg ha, if_neg hb]; simp
    refine ⟨?_, T.files _ hmem, T.path _ hmem⟩
    rw [getByPath_eq T _ hfit (render_ne_nil _), findText_render T p hp, (find_eq_some T.nodupPath).mpr ⟨hmem, rfl⟩]
    rfl
  · intro q hq hqf hne
    rw [getByPath_eq T _ hqf hq, getByPath_eq H.tree _ hqf hq]
    unfold Tree.mount at hne ⊢
    split at hne
    · rename_i h1; rw [if_pos h1]
    · rename_i h1
      rw [if_neg h1]
      split at hne
      · rename_i h2; rw [if_pos h2]
      · rename_i h2
        rw [if_neg h2]
        show Except.ok ((Tree.findText (_ :: _) q).map Mount.id) = _
        unfold Tree.findText
        rw [List.find?_cons, beq_false_of_ne (fun h => hne rfl h.symm)]


/-- A state reached by the sample history. -/
theorem wReached : ∃ u, Reached wE wHist u := by
  obtain ⟨u, e, -⟩ := run_history wE_ok [] [] wHist wHist_valid
  exact ⟨u, wHist_valid, [], [], e⟩

def wHist3 : List FsOp := wHist.take 3

theorem wReached3 : ∃ u, Reached wE wHist3 u := by
  obtain ⟨u, e, -⟩ := run_history wE_ok [] [] wHist3 (by decide)
  exact ⟨u, by decide, [], [], e⟩

example : ∃ u, Reached wE wHist3 u ∧ ∃ u' s, nodeMount wE u b!"/a/c" 5 [wFile b!"v"] = .ok (u', s) ∧
    (s = .ok ↔ ¬ Mounted wE u [b!"a", b!"c"] ∧ ([b!"a", b!"c"] = [] ∨ Mounted wE u [b!"a"])) := by
  obtain ⟨u, h⟩ := wReached3
  obtain ⟨u', s, h1, -, -, h2, -⟩ := C07_mount wE wE_ok wHist3 u h [b!"a", b!"c"] 5 [wFile b!"v"] (by decide)
    (by decide) (by decide) (by decide)
  exact ⟨u, h, u', s, h1, h2⟩

/-! ## C08 Unmount status -/

theorem C08_unmount (E : Env) (hc : CfgOk E) (os : List FsOp) (u : Ush) (hr : Reached E os u)
    (q : Str) (hq : q ≠ []) (hfit : q.length < E.pathMax) :
    ∃ u' s, nodeUnmount E u q = .ok (u', s) ∧
      (s = .nodeNotFound ↔ getByPath E u q = .ok none) ∧
      (s = .nodeWithChilds ↔ ∃ p c, q = render p ∧ Mounted E u p ∧ (∀ d ∈ p ++ [c], GoodComp d) ∧
        (render (p ++ [c])).length < E.pathMax ∧ Mounted E u (p ++ [c])) ∧
      (s ≠ .nodeNotFound ∧ s ≠ .nodeWithChilds ↔ s = .ok) ∧
      (s = .ok → getByPath E u' q = .ok none) ∧
      (∀ q' : Str, q' ≠ [] → q'.length < E.pathMax → (s = .ok → q' ≠ q) → getByPath E u' q' = getByPath E u q') := by
  obtain ⟨H, -⟩ := hr.inv hc
  obtain ⟨nodes, root, e, T, F⟩ := nodeUnmount_sim H.tree q hfit hq
  generalize hu' : ({ u with nodes := nodes, root := root } : Ush) = u' at e T
  have HT := H.tree
  generalize (after E os).tree = t at e T F HT
  clear H F
  have g0 := getByPath_eq HT q hfit hq
  unfold Tree.unmount at e T
  cases hft : t.findText q with
  | none =>
    rw [hft] at e T g0
    simp only at e T
    refine ⟨u', _, e, by simp [g0], ?_, by simp, by simp, ?_⟩
    · simp only [reduceCtorEq, false_iff]
      rintro ⟨p, c, rfl, ⟨i, hi⟩, -⟩
      rw [g0] at hi; cases hi
    · intro q' hq' hf' _
      rw [getByPath_eq T q' hf' hq', getByPath_eq HT q' hf' hq']
  | some m =>
    rw [hft] at e T g0
    simp only at e T
    obtain ⟨hm1, hm2⟩ := findText_some HT hft
    split at e
    · rename_i hk
      rw [if_pos hk] at T
      refine ⟨u', _, e, by simp [g0], ?_, by simp, by simp, ?_⟩
      · simp only [true_iff]
        obtain ⟨x, hx⟩ := List.exists_mem_of_ne_nil _ hk
        obtain ⟨hx1, hx2, hx3⟩ := mem_kids.mp hx
        have hxp : x.path = m.path ++ [x.path.getLast hx2] := by
          rw [← hx3]; exact (List.dropLast_append_getLast hx2).symm
        refine ⟨m.path, x.path.getLast hx2, hm2.symm, ?_, ?_, ?_, ?_⟩
        · rw [mounted_iff HT m.path (HT.good m hm1) (HT.fits m hm1), (find_eq_some HT.nodupPath).mpr ⟨hm1, rfl⟩]
          rfl
        · rw [← hxp]; exact HT.good x hx1
        · rw [← hxp]; exact HT.fits x hx1
        · rw [← hxp, mounted_iff HT x.path (HT.good x hx1) (HT.fits x hx1),
            (find_eq_some HT.nodupPath).mpr ⟨hx1, rfl⟩]
          rfl
      · intro q' hq' hf' _
        rw [getByPath_eq T q' hf' hq', getByPath_eq HT q' hf' hq']
    · rename_i hk
      rw [if_neg hk] at T
      have hk : t.kids m.path = [] := by simpa using hk
      refine ⟨u', _, e, by simp [g0], ?_, by simp, ?_, ?_⟩
      · simp only [reduceCtorEq, false_iff]
        rintro ⟨p, c, hqp, hmp, hg, hf, hmc⟩
        have hpm : p = m.path := render_inj _ _ (fun d hd => hg d (by simp [hd])) (HT.good m hm1) (by rw [← hqp, hm2])
        subst hpm
        rw [mounted_iff HT _ hg hf] at hmc
        cases hx : t.find (m.path ++ [c]) with
        | none => rw [hx] at hmc; cases hmc
        | some x =>
          obtain ⟨h1, h2⟩ := (find_eq_some HT.nodupPath).mp hx
          have : x ∈ t.kids m.path := mem_kids.mpr ⟨h1, by rw [h2]; simp, by rw [h2]; simp⟩
          rw [hk] at this; cases this
      · intro _
        rw [getByPath_eq T q hfit hq]
        have : Tree.findText (List.filter (fun x => x.path != m.path) t) q = none := by
          unfold Tree.findText
          rw [List.find?_eq_none]
          intro x hx
          rw [List.mem_filter] at hx
          intro h
          simp only [beq_iff_eq] at h
          have := render_inj _ _ (HT.good x hx.1) (HT.good m hm1) (by rw [h, hm2])
          simp [this] at hx
        rw [this]; rfl
      · intro q' hq' hf' hne
        rw [getByPath_eq T q' hf' hq', getByPath_eq HT q' hf' hq']
        congr 2
        show Tree.findText (List.filter _ _) _ = _
        unfold Tree.findText
        rw [List.find?_filter]
        apply find?_congr'
        intro x _
        by_cases h4 : render x.path = q'
        · have : x.path ≠ m.path := by
            intro h; apply hne rfl; rw [← h4, h, hm2]
          simp [h4, this]
        · simp [h4]

example : ∃ u, Reached wE wHist u ∧ ∃ u' s, nodeUnmount wE u b!"/a" = .ok (u', s) ∧
    (s = .nodeWithChilds ↔ ∃ p c, b!"/a" = render p ∧ Mounted wE u p ∧ (∀ d ∈ p ++ [c], GoodComp d) ∧
        (render (p ++ [c])).length < wE.pathMax ∧ Mounted wE u (p ++ [c])) := by
  obtain ⟨u, h⟩ := wReached
  obtain ⟨u', s, h1, -, h2, -⟩ := C08_unmount wE wE_ok wHist u h b!"/a" (by decide) (by decide)
  exact ⟨u, h, u', s, h1, h2⟩

/-- The empty text behaves like `/`: with only the root mounted, `ush_node_unmount(self, "")` removes it. This is why `q ≠ ""` is
assumed above. -/
theorem C08_empty_text :
    (do let u ← run wE (blank [] []) (steps [.mount [] 1 []])
        let (u, s) ← nodeUnmount wE u []
        return (s, u.root)) = .ok (.ok, none) := by decide

/-! ## C09 cd moves exactly to mounted directories -/

/-- Every text: the working directory changes iff the resolved path is mounted. -/
theorem C09_set_current_dir (E : Env) (hc : CfgOk E) (os : List FsOp) (u : Ush) (hr : Reached E os u)
    (w : Mount) (hw : (after E os).cwd = some w) (arg : Str) (hn : cNul ∉ arg) (hne : arg ≠ [])
    (hfit : (render w.path).length + 1 + arg.length < E.pathMax) :
    ∃ abs, getAbsolutePath E u arg = .ok abs ∧
      ((∃ i, getByPath E u abs = .ok (some i) ∧ setCurrentDir E u arg = .ok ({ u with current := some i }, .ok)) ∨
       (getByPath E u abs = .ok none ∧ setCurrentDir E u arg = .ok (u, .nodeNotFound))) := by
  obtain ⟨H, -⟩ := hr.inv hc
  have C := H.cwd w hw
  have hlen : (fullText (render w.path) arg).length < E.pathMax := by
    unfold fullText
    split
    · omega
    · split
      · simp; omega
      · simp; omega
  obtain ⟨abs, e1, e2⟩ := setCurrentDir_sim H.tree C arg hne hn hlen
  obtain ⟨abs', e3, h4, h5, h6⟩ := C03_total E hc os u hr w hw arg hn hfit
  rw [e1] at e3; cases e3
  refine ⟨abs, e1, ?_⟩
  have hane : abs ≠ [] := by rintro rfl; cases h4
  rw [getByPath_eq H.tree abs h6 hane, e2]
  cases (after E os).tree.findText abs with
  | none => right; exact ⟨rfl, rfl⟩
  | some m => left; exact ⟨m.id, rfl, rfl⟩

example : ∃ u, Reached wE wHist u ∧ ∃ abs, getAbsolutePath wE u b!"..//x" = .ok abs ∧
    ((∃ i, getByPath wE u abs = .ok (some i) ∧ setCurrentDir wE u b!"..//x" = .ok ({ u with current := some i }, .ok)) ∨
     (getByPath wE u abs = .ok none ∧ setCurrentDir wE u b!"..//x" = .ok (u, .nodeNotFound))) := by
  obtain ⟨u, h⟩ := wReached
  exact ⟨u, h, C09_set_current_dir wE wE_ok wHist u h ⟨[b!"a"], 2, []⟩ (by decide) b!"..//x" (by decide) (by decide) (by decide)⟩

/-- Arguments given by components: the new working directory is the specified one, or the call fails. -/
theorem C09_target (E : Env) (hc : CfgOk E) (os : List FsOp) (u : Ush) (hr : Reached E os u)
    (w : Mount) (hw : (after E os).cwd = some w) (abs : Bool) (comps : List Str) (slash : Bool)
    (hg : ∀ c ∈ comps, GoodComp c) (hne : abs = false → comps ≠ [])
    (hfit : (render w.path).length + 1 + (argText abs comps slash).length < E.pathMax) :
    ∃ u' s, runApi E u (.setCurrentDir (argText abs comps slash)) = .ok u' ∧ u'.log = u.log ++ [.ret s] ∧
      (s = .ok ↔ Mounted E u (resolve w.path abs comps)) ∧
      (s = .ok → currentPath u' = .ok (render (resolve w.path abs comps))) ∧
      (s ≠ .ok → s = .nodeNotFound ∧ currentPath u' = currentPath u) := by
  obtain ⟨H, -⟩ := hr.inv hc
  have hv : (after E os).Valid E (.cd abs comps slash) := ⟨hg, hne, w, hw, hfit⟩
  obtain ⟨u', e, H', l⟩ := fsStep_sim H (.cd abs comps slash) hv
  have hgr : ∀ c ∈ resolve w.path abs comps, GoodComp c := by
    apply good_of_normalize
    intro c hc'
    split at hc'
    · exact hg c hc'
    · rcases List.mem_append.mp hc' with h' | h'
      · exact (H.cwd w hw).good c h'
      · exact hg c h'
  have hres := C03_resolve E hc os u hr w hw abs comps slash hg hne hfit
  obtain ⟨r, e3, -, -, h6⟩ := C03_total E hc os u hr w hw (argText abs comps slash) (argText_nul _ _ _ hg) hfit
  rw [hres] at e3; cases e3
  refine ⟨u', _, e, l, ?_, ?_, ?_⟩
  · rw [mounted_iff H.tree _ hgr h6]
    simp only [World.step, hw]
    cases (after E os).tree.find (resolve w.path abs comps) <;> simp
  · simp only [World.step, hw] at H' ⊢
    cases hf : (after E os).tree.find (resolve w.path abs comps) with
    | none => simp
    | some m =>
      intro _
      rw [hf] at H'
      simp only at H'
      rw [(H'.cwd m rfl).path, ((find_eq_some H.tree.nodupPath).mp hf).2]
  · simp only [World.step, hw] at H' ⊢
    cases hf : (after E os).tree.find (resolve w.path abs comps) with
    | none =>
      intro _
      rw [hf] at H'
      simp only at H'
      rw [(H'.cwd w hw).path, (H.cwd w hw).path]
      exact ⟨rfl, rfl⟩
    | some m => simp

/-- The `cd` command with one argument: as above; on failure it prints the status text, otherwise it prints
nothing. -/
theorem C09_cd_command (E : Env) (hc : CfgOk E) (os : List FsOp) (u : Ush) (hr : Reached E os u)
    (w : Mount) (hw : (after E os).cwd = some w) (arg : Str) (hn : cNul ∉ arg) (hne : arg ≠ [])
    (hfit : (render w.path).length + 1 + arg.length < E.pathMax)
    (v : Ush) (hv : v = { u with inBuf := v.inBuf, log := v.log }) (o0 o1 : Nat) (ho : cstrAt v.inBuf o1 = .ok arg) :
    ∃ abs, getAbsolutePath E u arg = .ok abs ∧
      ((∃ i, getByPath E u abs = .ok (some i) ∧ cdCallback E v [o0, o1] = .ok { v with current := some i }) ∨
       (getByPath E u abs = .ok none ∧ cdCallback E v [o0, o1] = printStatus E v .nodeNotFound)) := by
  obtain ⟨abs, e1, h⟩ := C09_set_current_dir E hc os u hr w hw arg hn hne hfit
  refine ⟨abs, e1, ?_⟩
  have key : ∀ r s, setCurrentDir E u arg = .ok (r, s) →
      setCurrentDir E v arg = .ok ({ v with current := r.current }, s) := by
    intro r s hrs
    rw [hv]
    unfold setCurrentDir at hrs ⊢
    rw [if_neg hne] at hrs ⊢
    have a1 : ∀ a, getAbsolutePath E { u with inBuf := v.inBuf, log := v.log } a = getAbsolutePath E u a := fun _ => rfl
    have a2 : ∀ a, getByPath E { u with inBuf := v.inBuf, log := v.log } a = getByPath E u a := fun _ => rfl
    rw [a1, e1]
    rw [e1] at hrs
    simp only [M.ok_bind] at hrs ⊢
    rw [a2]
    cases hgp : getByPath E u abs with
    | error e => rw [hgp] at hrs; cases hrs
    | ok o =>
      rw [hgp] at hrs
      simp only [M.ok_bind] at hrs ⊢
      cases o <;> (cases hrs; rfl)
  have unf : cdCallback E v [o0, o1] = (do
      let (u, s) ← setCurrentDir E v arg
      if s ≠ .ok then printStatus E u s else return u) := by
    unfold cdCallback
    rw [if_neg (by simp)]
    simp only [argAt, List.getElem?_cons_succ, List.getElem?_cons_zero, M.ok_bind, ho]
  rcases h with ⟨i, h1, h2⟩ | ⟨h1, h2⟩
  · left
    refine ⟨i, h1, ?_⟩
    rw [unf, key _ _ h2]; rfl
  · right
    refine ⟨h1, ?_⟩
    rw [unf, key _ _ h2]
    have : ({ v with current := u.current } : Ush) = v := by
      conv => rhs; rw [hv]
      conv => lhs; rw [hv]
    rw [this]; rfl

example : ∃ u, Reached wE wHist u ∧ ∃ u' s, runApi wE u (.setCurrentDir b!"./b/../b/") = .ok u' ∧
    u'.log = u.log ++ [.ret s] ∧ (s = .ok ↔ Mounted wE u [b!"a", b!"b"]) := by
  obtain ⟨u, h⟩ := wReached
  obtain ⟨u', s, h1, h2, h3, -⟩ := C09_target wE wE_ok wHist u h ⟨[b!"a"], 2, []⟩ (by decide) false
    [b!".", b!"b", b!"..", b!"b"] true (by decide) (by decide) (by decide)
  exact ⟨u, h, u', s, h1, h2, h3⟩

example : ∃ u, Reached wE wHist u ∧ ∃ abs, getAbsolutePath wE u b!"nope" = .ok abs := by
  obtain ⟨u, h⟩ := wReached
  obtain ⟨abs, h1, -⟩ := C09_cd_command wE wE_ok wHist u h ⟨[b!"a"], 2, []⟩ (by decide) b!"nope" (by decide) (by decide)
    (by decide) { u with inBuf := b!"cd" ++ [0] ++ b!"nope" ++ [0] } (by rfl) 0 3
    (by show cstrAt (b!"cd" ++ [0] ++ b!"nope" ++ [0]) 3 = _; decide)
  exact ⟨u, h, abs, h1⟩

/-! ## C10 The working directory is always a mounted directory -/

/-- No operation of the history unmounts the directory that is the working directory at that time. -/
def KeepsCwd (W : World) : List FsOp → Prop
  | [] => True
  | o :: os => (∀ q m, o = .unmount q → W.cwd = some m → q ≠ render m.path) ∧ KeepsCwd (W.step o).1 os

theorem keepsCwd_run (E : Env) : ∀ (os : List FsOp) (W : World) (u : Ush), WInv E u W → W.ValidRun E os → KeepsCwd W os →
    (∀ m, W.cwd = some m → m ∈ W.tree) →
    (W.cwd.isSome ∨ ∃ (i : Nat) (id : NodeId) (files : List FileDesc), os[i]? = some (FsOp.mount [] id files) ∧ (W.run os).2[i]? = some Status.ok) →
    ∃ m, (W.run os).1.cwd = some m ∧ m ∈ (W.run os).1.tree := by
  intro os
  induction os with
  | nil =>
    intro W u _ _ _ hin h
    rcases h with h | ⟨i, id, files, h, -⟩
    · obtain ⟨m, hm⟩ := Option.isSome_iff_exists.mp h
      exact ⟨m, hm, hin m hm⟩
    · simp at h
  | cons o os ih =>
    intro W u H hv hk hin h
    obtain ⟨u', -, H', -⟩ := fsStep_sim H o hv.1
    have step : ∀ m, W.cwd = some m → ∃ n, (W.step o).1.cwd = some n := by
      intro m hm
      have hmem := hin m hm
      cases o with
      | mount p id files =>
        have hne : m.id ≠ id := hv.1.2.2.2.1 m hmem
        simp only [World.step]
        split
        · exact ⟨_, rfl⟩
        · exact ⟨m, by simp [World.remount, hm, hne]⟩
      | unmount q => exact ⟨m, hm⟩
      | cd abs comps slash =>
        simp only [World.step, hm]
        split
        · exact ⟨_, rfl⟩
        · exact ⟨m, hm⟩
      | addGroup id files =>
        have hne : m.id ≠ id := hv.1.2.2.1 m hmem
        exact ⟨m, by simp [World.step, hm, Option.filter, hne]⟩
      | removeGroup id => exact ⟨m, hm⟩
    refine ih _ u' H' hv.2 hk.2 ?_ ?_
    · intro n hn
      cases o with
      | mount p id files =>
        simp only [World.step] at hn ⊢
        by_cases hok : (W.tree.mount p id files).2 = .ok
        · by_cases hp : p = []
          · rw [if_pos ⟨hok, hp⟩] at hn
            cases hn
            exact mem_mount_new hok
          · rw [if_neg (fun h => hp h.2)] at hn
            obtain ⟨d, hd⟩ : ∃ d, W.cwd = some d := by
              cases hW : W.cwd with
              | none => simp [World.remount, hW] at hn
              | some d => exact ⟨d, rfl⟩
            have hne : d.id ≠ id := hv.1.2.2.2.1 d (hin d hd)
            simp only [World.remount, hd, if_neg hne] at hn
            cases hn
            exact mem_mount_fst (hin _ hd)
        · rw [if_neg (fun h => hok h.1)] at hn
          obtain ⟨d, hd⟩ : ∃ d, W.cwd = some d := by
            cases hW : W.cwd with
            | none => simp [World.remount, hW] at hn
            | some d => exact ⟨d, rfl⟩
          have hne : d.id ≠ id := hv.1.2.2.2.1 d (hin d hd)
          simp only [World.remount, hd, if_neg hne] at hn
          cases hn
          exact mem_mount_fst (hin _ hd)
      | unmount q =>
        simp only [World.step] at hn ⊢
        have hmem := hin n hn
        have hne := hk.1 q n rfl hn
        unfold Tree.unmount
        cases hft : W.tree.findText q with
        | none => exact hmem
        | some x =>
          simp only
          split
          · exact hmem
          · obtain ⟨-, hx2⟩ := findText_some H.tree hft
            rw [List.mem_filter]
            refine ⟨hmem, ?_⟩
            simp only [bne_iff_ne, ne_eq]
            intro hp
            exact hne (by rw [hp, hx2])
      | cd abs comps slash =>
        simp only [World.step] at hn ⊢
        cases hW : W.cwd with
        | none => rw [hW] at hn; simp only at hn; rw [hW] at hn; cases hn
        | some m =>
          rw [hW] at hn
          simp only at hn ⊢
          cases hf : W.tree.find (resolve m.path abs comps) with
          | none => rw [hf] at hn; exact hin n hn
          | some d =>
            rw [hf] at hn
            cases hn
            exact ((find_eq_some H.tree.nodupPath).mp hf).1
      | addGroup id files =>
        simp only [World.step] at hn ⊢
        exact hin n (Option.eq_some_of_filter_eq_some hn)
      | removeGroup id => exact hin n hn
    · rcases h with h | ⟨i, id, files, h1, h2⟩
      · left
        obtain ⟨m, hm⟩ := Option.isSome_iff_exists.mp h
        obtain ⟨n, hn⟩ := step m hm
        rw [hn]; rfl
      · cases i with
        | zero =>
          left
          simp only [List.getElem?_cons_zero, Option.some.injEq] at h1
          subst h1
          simp only [World.run, List.getElem?_cons_zero, Option.some.injEq] at h2
          simp only [World.step] at h2 ⊢
          rw [if_pos ⟨h2, trivial⟩]; rfl
        | succ i =>
          right
          exact ⟨i, id, files, by simpa using h1, by simpa [World.run] using h2⟩

/-- Full statement: after the root has been mounted, the working directory is mounted.  Proved under the
additional hypothesis that the application never unmounts the directory it is in; without it the statement is false
(`C10_false`). -/
theorem C10_cwd_mounted_partial (E : Env) (hc : CfgOk E) (os : List FsOp) (u : Ush) (hr : Reached E os u)
    (hk : KeepsCwd (initWorld E) os)
    (hroot : ∃ (i : Nat) (id : NodeId) (files : List FileDesc), os[i]? = some (FsOp.mount [] id files) ∧
      ((initWorld E).run os).2[i]? = some Status.ok) :
    ∃ c p, u.current = some c ∧ currentPath u = .ok p ∧ getByPath E u p = .ok (some c) := by
  obtain ⟨H, -⟩ := hr.inv hc
  obtain ⟨inBuf, outBuf, -⟩ := hr.2
  obtain ⟨u0, e0, H0, -⟩ := ushInit_blank hc inBuf outBuf
  obtain ⟨m, hm, hmem⟩ := keepsCwd_run E os (initWorld E) u0 H0 hr.1 hk (fun m h => by cases h) (Or.inr hroot)
  have C := H.cwd m hm
  refine ⟨m.id, render m.path, C.cur, C.path, ?_⟩
  rw [getByPath_eq H.tree _ C.fits (render_ne_nil _), findText_render H.tree _ C.good,
    (find_eq_some H.tree.nodupPath).mpr ⟨hmem, rfl⟩]
  rfl

theorem wKeeps : KeepsCwd (initWorld wE) wHist := by
  refine ⟨?_, ?_, ?_, ?_, ?_, ?_, ?_, ?_, ?_, ?_, trivial⟩
  all_goals
    intro q m h1 h2
    first
      | cases h1; done
      | (cases h1
         have h3 : some (⟨[b!"a"], 2, []⟩ : Mount) = some m := by rw [← h2]; decide
         cases h3; decide)

example : ∃ u, Reached wE wHist u ∧ ∃ c p, u.current = some c ∧ currentPath u = .ok p ∧ getByPath wE u p = .ok (some c) := by
  obtain ⟨u, h⟩ := wReached
  exact ⟨u, h, C10_cwd_mounted_partial wE wE_ok wHist u h wKeeps ⟨0, 1, [wFile b!"x"], rfl, by decide⟩⟩

/-- The application can unmount the working directory; then the shell keeps a pointer to a directory that is not
mounted. -/
theorem C10_false :
    (do let u ← run wE (blank [] []) (steps [.mount [] 1 [], .mount [b!"a"] 2 [], .cd true [b!"a"] false, .unmount b!"/a"])
        let p ← currentPath u
        let r ← getByPath wE u p
        return (u.log, u.current, r)) = .ok ([.ret .ok, .ret .ok, .ret .ok, .ret .ok], some 2, none) ∧
    (initWorld wE).ValidRun wE [.mount [] 1 [], .mount [b!"a"] 2 [], .cd true [b!"a"] false, .unmount b!"/a"] := by
  constructor <;> decide

/-! ## C11 File lookup order -/

/-- Commands first (newest group first), then the file whose full path is the resolved name, newest
directory first. -/
theorem C11_lookup (E : Env) (hc : CfgOk E) (os : List FsOp) (u : Ush) (hr : Reached E os u)
    (w : Mount) (hw : (after E os).cwd = some w)
    (hfiles : ∀ m ∈ (after E os).tree, ∀ f ∈ m.files, GoodComp f.name ∧ (render (m.path ++ [f.name])).length < E.pathMax)
    (name : Str) (hn : cNul ∉ name) (hfit : (render w.path).length + 1 + name.length < E.pathMax) :
    ∃ abs, getAbsolutePath E u name = .ok abs ∧
      fileFindByName E u name =
        .ok (((after E os).groups.files.find? (fun f => f.name == name)).or ((after E os).tree.findFile abs)) := by
  obtain ⟨H, -⟩ := hr.inv hc
  have C := H.cwd w hw
  refine fileFindByName_sim H.tree H.cmds hfiles C name hn ?_
  unfold fullText
  split
  · omega
  · split
    · simp; omega
    · simp; omega

/-- For a plain file name typed in the directory `w`: a command of that name, else the first file of that name in
the directory that is mounted at the path of `w`, if any.  (If `w` has been unmounted, none or another one may be mounted there.) -/
theorem C11_at_cwd (E : Env) (hc : CfgOk E) (os : List FsOp) (u : Ush) (hr : Reached E os u)
    (w : Mount) (hw : (after E os).cwd = some w)
    (hfiles : ∀ m ∈ (after E os).tree, ∀ f ∈ m.files, GoodComp f.name ∧ (render (m.path ++ [f.name])).length < E.pathMax)
    (name : Str) (hn : GoodComp name) (hdot : name ≠ b!"." ∧ name ≠ b!"..")
    (hfit : (render w.path).length + 1 + name.length < E.pathMax)
    (hwn : ∀ c ∈ w.path, c ≠ b!"." ∧ c ≠ b!"..") :
    fileFindByName E u name =
      .ok (((after E os).groups.files.find? (fun f => f.name == name)).or
        (((after E os).tree.find w.path).bind (fun d => d.files.find? (fun f => f.name == name)))) := by
  obtain ⟨abs, e1, e2⟩ := C11_lookup E hc os u hr w hw hfiles name hn.2.2 hfit
  obtain ⟨H, -⟩ := hr.inv hc
  have C := H.cwd w hw
  have ht : argText false [name] false = name := by
    simp only [argText, Bool.false_eq_true, if_false, List.append_nil]
    rw [render_ne _ (by simp)]
    simp
  have e3 := C03_resolve E hc os u hr w hw false [name] false (by simpa using hn) (by simp) (by rw [ht]; exact hfit)
  rw [ht, e1] at e3
  simp only [Except.ok.injEq, Bool.false_eq_true, if_false] at e3
  have hnorm : ∀ (cs : List Str), (∀ c ∈ cs, c ≠ b!"." ∧ c ≠ b!"..") → ∀ st, cs.foldl pushComp st = st ++ cs := by
    intro cs
    induction cs with
    | nil => intro _ st; simp
    | cons c cs ih =>
      intro h st
      obtain ⟨h1, h2⟩ := h c (by simp)
      rw [List.foldl_cons, ih (fun c hc => h c (by simp [hc]))]
      unfold pushComp
      rw [if_neg h1, if_neg h2]; simp
  have hnn : normalize (w.path ++ [name]) = w.path ++ [name] := by
    unfold normalize
    rw [hnorm _ _ []]
    · simp
    · intro c hc
      rcases List.mem_append.mp hc with h | h
      · exact hwn c h
      · rw [List.mem_singleton] at h; subst h; exact hdot
  rw [hnn] at e3
  subst e3
  rw [e2]
  congr 2
  have hg : ∀ c ∈ w.path ++ [name], GoodComp c := by
    intro c hc
    rcases List.mem_append.mp hc with h | h
    · exact C.good c h
    · rw [List.mem_singleton] at h; subst h; exact hn
  have key : ∀ m ∈ (after E os).tree, (m.files.find? (fun f => render (m.path ++ [f.name]) == render (w.path ++ [name])))
      = if m.path = w.path then m.files.find? (fun f => f.name == name) else none := by
    intro m hm
    have hgm : ∀ f ∈ m.files, ∀ c ∈ m.path ++ [f.name], GoodComp c := by
      intro f hf c hc
      rcases List.mem_append.mp hc with h | h
      · exact H.tree.good m hm c h
      · rw [List.mem_singleton] at h; subst h; exact (hfiles m hm f hf).1
    split
    · rename_i h
      apply find?_congr'
      intro f hf
      rw [Bool.eq_iff_iff]
      simp only [beq_iff_eq]
      constructor
      · intro h1; have := render_inj _ _ (hgm f hf) hg h1; rw [h] at this; simpa using this
      · intro h1; rw [h, h1]
    · rename_i h
      rw [List.find?_eq_none]
      intro f hf h'
      simp only [beq_iff_eq] at h'
      have := render_inj _ _ (hgm f hf) hg h'
      exact h (List.append_inj_left' this rfl)
  have none' : ∀ t : Tree, (∀ m ∈ t, m ∈ (after E os).tree ∧ m.path ≠ w.path) →
      t.findSome? (fun m => m.files.find? (fun f => render (m.path ++ [f.name]) == render (w.path ++ [name]))) = none := by
    intro t h
    rw [List.findSome?_eq_none_iff]
    intro x hx
    rw [key x (h x hx).1, if_neg (h x hx).2]
  unfold Tree.findFile
  have : ∀ t : Tree, (∀ m ∈ t, m ∈ (after E os).tree) → (t.map Mount.path).Nodup →
      t.findSome? (fun m => m.files.find? (fun f => render (m.path ++ [f.name]) == render (w.path ++ [name]))) =
        (t.find w.path).bind (fun d => d.files.find? (fun f => f.name == name)) := by
    intro t
    induction t with
    | nil => intro _ _; rfl
    | cons m t ih =>
      intro h1 h2
      rw [List.map_cons, List.nodup_cons] at h2
      rw [List.findSome?_cons, key m (h1 m (by simp)), Tree.find, List.find?_cons]
      by_cases h3 : m.path = w.path
      · rw [if_pos h3]
        simp only [h3, beq_self_eq_true]
        cases hf : m.files.find? (fun f => f.name == name) with
        | some f => simp [hf]
        | none =>
          simp only [Option.bind_some, hf]
          exact none' t (fun x hx => ⟨h1 x (by simp [hx]), fun e => h2.1 (List.mem_map.mpr ⟨x, hx, e.trans h3.symm⟩)⟩)
      · rw [if_neg h3, beq_false_of_ne h3]
        exact ih (fun m hm => h1 m (by simp [hm])) h2.2
  exact this _ (fun m hm => hm) H.tree.nodupPath

example : ∃ u, Reached wE wHist u ∧ fileFindByName wE u b!"c" = .ok (some (wFile b!"c")) ∧ fileFindByName wE u b!"x" = .ok none := by
  obtain ⟨u, h⟩ := wReached
  refine ⟨u, h, ?_, ?_⟩
  · rw [C11_at_cwd wE wE_ok wHist u h ⟨[b!"a"], 2, []⟩ (by decide) (by decide) b!"c" (by decide) (by decide) (by decide) (by decide)]
    decide
  · rw [C11_at_cwd wE wE_ok wHist u h ⟨[b!"a"], 2, []⟩ (by decide) (by decide) b!"x" (by decide) (by decide) (by decide) (by decide)]
    decide

/-- The usual case that `w` is mounted: a command of that name, else the first file of that name in `w`. -/
theorem C11_in_cwd (E : Env) (hc : CfgOk E) (os : List FsOp) (u : Ush) (hr : Reached E os u)
    (w : Mount) (hw : (after E os).cwd = some w) (hm : w ∈ (after E os).tree)
    (hfiles : ∀ m ∈ (after E os).tree, ∀ f ∈ m.files, GoodComp f.name ∧ (render (m.path ++ [f.name])).length < E.pathMax)
    (name : Str) (hn : GoodComp name) (hdot : name ≠ b!"." ∧ name ≠ b!"..")
    (hfit : (render w.path).length + 1 + name.length < E.pathMax)
    (hwn : ∀ c ∈ w.path, c ≠ b!"." ∧ c ≠ b!"..") :
    fileFindByName E u name =
      .ok (((after E os).groups.files.find? (fun f => f.name == name)).or (w.files.find? (fun f => f.name == name))) := by
  obtain ⟨H, -⟩ := hr.inv hc
  rw [C11_at_cwd E hc os u hr w hw hfiles name hn hdot hfit hwn, (find_eq_some H.tree.nodupPath).mpr ⟨hm, rfl⟩]
  rfl

/-- The command of the newest group wins over an older one and over the built-in `ls`; `b/z` is found in the mounted
directory. -/
example : ∃ u, Reached wE wHist u ∧ fileFindByName wE u b!"ls" = .ok (some (wFile b!"ls")) ∧
    fileFindByName wE u b!"b/z" = .ok (some (wFile b!"z")) := by
  obtain ⟨u, h⟩ := wReached
  have hf : ∀ m ∈ (after wE wHist).tree, ∀ f ∈ m.files, GoodComp f.name ∧ (render (m.path ++ [f.name])).length < wE.pathMax := by
    decide
  refine ⟨u, h, ?_, ?_⟩
  · rw [C11_in_cwd wE wE_ok wHist u h ⟨[b!"a"], 2, []⟩ (by decide) (by decide) hf b!"ls" (by decide) (by decide) (by decide) (by decide)]
    decide
  · obtain ⟨abs, e1, e2⟩ := C11_lookup wE wE_ok wHist u h ⟨[b!"a"], 2, []⟩ (by decide) hf b!"b/z" (by decide) (by decide)
    have e3 := C03_resolve wE wE_ok wHist u h ⟨[b!"a"], 2, []⟩ (by decide) false [b!"b", b!"z"] false (by decide) (by decide) (by decide)
    have : argText false [b!"b", b!"z"] false = b!"b/z" := by decide
    rw [this, e1] at e3
    simp only [Except.ok.injEq] at e3
    rw [e2, e3]
    decide

/-! ## C12 Command groups form a stack with deletion -/

/-- The groups of a history with its reported statuses, by definition "added and not removed, newest first". -/
def groupsAfter : Groups → List (FsOp × Status) → Groups
  | g, [] => g
  | g, (.addGroup id files, .ok) :: l => groupsAfter (⟨id, files⟩ :: g) l
  | g, (.removeGroup id, .ok) :: l => groupsAfter (List.filter (fun c => c.id ≠ id) g) l
  | g, _ :: l => groupsAfter g l

theorem groupsAfter_run : ∀ (os : List FsOp) (W : World),
    groupsAfter W.groups (os.zip (W.run os).2) = (W.run os).1.groups := by
  intro os
  induction os with
  | nil => intro W; rfl
  | cons o os ih =>
    intro W
    have hz : (o :: os).zip (W.run (o :: os)).2 = (o, (W.step o).2) :: os.zip ((W.step o).1.run os).2 := rfl
    have hr : (W.run (o :: os)).1 = ((W.step o).1.run os).1 := rfl
    rw [hz, hr, ← ih]
    cases o with
    | mount p id files => simp only [groupsAfter]; rfl
    | unmount q => simp only [groupsAfter]; rfl
    | cd abs comps slash =>
      simp only [groupsAfter]
      congr 1
      simp only [World.step]
      split
      · rfl
      · split <;> rfl
    | addGroup id files => simp only [groupsAfter, World.step]
    | removeGroup id =>
      have h1 : (W.step (.removeGroup id)).1.groups = (W.groups.remove id).1 := rfl
      have h2 : (W.step (.removeGroup id)).2 = (W.groups.remove id).2 := rfl
      rw [h1, h2]
      unfold Groups.remove
      split
      · simp only [groupsAfter]
        congr 1
        apply List.filter_congr
        intro x _
        rw [Bool.eq_iff_iff]; simp
      · simp only [groupsAfter]

/-- The chain of group objects starting at `s` (as the library walks it). -/
inductive Walk (nodes : NodeId → Node) : Option NodeId → Groups → Prop
  | nil : Walk nodes none []
  | cons (i : NodeId) (g : Groups) : Walk nodes (nodes i).next g → Walk nodes (some i) (⟨i, (nodes i).files⟩ :: g)

theorem walk_of_chain (nodes : NodeId → Node) : ∀ (g : Groups) (s : Option NodeId), IsChain nodes s (g.map Group.id) →
    (∀ c ∈ g, (nodes c.id).files = c.files) → Walk nodes s g := by
  intro g
  induction g with
  | nil => intro s h _; cases h; exact .nil
  | cons c g ih =>
    intro s h hf
    obtain ⟨rfl, h⟩ := h
    have := Walk.cons c.id g (ih _ h (fun c hc => hf c (by simp [hc])))
    rw [hf c (by simp)] at this
    exact this

/-- After any valid history the list of command groups is: added, not removed, newest first (the
built-in commands, if there are any, are the oldest group). -/
theorem C12_groups (E : Env) (hc : CfgOk E) (os : List FsOp) (u : Ush) (hr : Reached E os u) :
    ∃ st, u.log = st.map .ret ∧ st.length = os.length ∧
      Walk u.nodes u.commands (groupsAfter (if E.commandsOn then [⟨0, builtinTable E⟩] else []) (os.zip st)) := by
  obtain ⟨H, l⟩ := hr.inv hc
  refine ⟨_, l, ?_, ?_⟩
  · have : ∀ (os : List FsOp) (W : World), (W.run os).2.length = os.length := by
      intro os
      induction os with
      | nil => intro W; rfl
      | cons o os ih => intro W; simp [World.run, ih]
    exact this os _
  · have := groupsAfter_run os (initWorld E)
    have h0 : (initWorld E).groups = if E.commandsOn then [⟨0, builtinTable E⟩] else [] := rfl
    rw [h0] at this
    rw [this]
    exact walk_of_chain _ _ _ H.cmds.chain H.cmds.files

/-- Removing: the status says whether the group was there; the others keep their order. -/
theorem C12_remove (E : Env) (hc : CfgOk E) (os : List FsOp) (u : Ush) (hr : Reached E os u) (id : NodeId)
    (g : Groups) (hg : Walk u.nodes u.commands g) :
    ∃ u' s, commandsRemove E u id = .ok (u', s) ∧ (s = .ok ↔ ∃ c ∈ g, c.id = id) ∧ (s ≠ .ok → s = .nodeNotFound ∧
      Walk u'.nodes u'.commands g) ∧ Walk u'.nodes u'.commands (g.filter (fun c => c.id ≠ id)) := by
  obtain ⟨H, -⟩ := hr.inv hc
  have det : ∀ (nodes : NodeId → Node) (s : Option NodeId) (g : Groups), Walk nodes s g → ∀ g', Walk nodes s g' → g = g' := by
    intro nodes s g h
    induction h with
    | nil => intro g' h'; cases h'; rfl
    | cons i g _ ih => intro g' h'; cases h' with | cons _ g2 h2 => rw [ih g2 h2]
  have hge := det _ _ _ hg _ (walk_of_chain _ _ _ H.cmds.chain H.cmds.files)
  obtain ⟨nodes, cmds, e, G, -⟩ := commandsRemove_sim H.cmds id
  refine ⟨_, _, e, ?_, ?_, ?_⟩
  · rw [removeGroup_eq, hge]
    unfold Groups.remove
    split
    · rename_i h
      simp only [true_iff]
      simpa using h
    · rename_i h
      simp only [reduceCtorEq, false_iff]
      simpa using h
  · rw [removeGroup_eq] at G ⊢
    intro hs
    have hrm : (after E os).groups.remove id = ((after E os).groups, .nodeNotFound) := by
      unfold Groups.remove at hs ⊢
      split at hs
      · exact absurd rfl hs
      · rename_i h; rw [if_neg h]
    rw [hrm] at G ⊢
    refine ⟨rfl, ?_⟩
    rw [hge]
    exact walk_of_chain _ _ _ G.chain G.files
  · have : (removeGroup (after E os).groups id).1 = g.filter (fun c => c.id ≠ id) := by
      rw [removeGroup_eq, hge]
      unfold Groups.remove
      split
      · apply List.filter_congr
        intro x _
        rw [Bool.eq_iff_iff]; simp
      · rename_i h
        symm
        rw [List.filter_eq_self]
        intro c hc
        simp only [decide_eq_true_eq]
        rintro rfl
        exact h (List.mem_map.mpr ⟨c, hc, rfl⟩)
    rw [this] at G
    exact walk_of_chain _ _ _ G.chain G.files

example : ∃ u g, Reached wE wHist u ∧ Walk u.nodes u.commands g ∧ g.map Group.id = [3, 4, 0] ∧
    ∃ u' s, commandsRemove wE u 4 = .ok (u', s) ∧ (s = .ok ↔ ∃ c ∈ g, c.id = 4) := by
  obtain ⟨u, h⟩ := wReached
  obtain ⟨st, h1, -, h2⟩ := C12_groups wE wE_ok wHist u h
  obtain ⟨-, l⟩ := h.inv wE_ok
  have hst : st = ((initWorld wE).run wHist).2 := by
    rw [h1] at l
    exact List.map_injective_iff.mpr (fun a b h => by cases h; rfl) l
  subst hst
  obtain ⟨u', s, e, h3, -⟩ := C12_remove wE wE_ok wHist u h 4 _ h2
  exact ⟨u, _, h, h2, by decide, u', s, e, h3⟩

end Ush.Props
