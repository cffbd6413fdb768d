import Verif.Spec.Place
import Verif.Proof.World
import Verif.Proof.Log
/-!
# The shell refines `Place`
-/
namespace Ush
open Spec

/-! ## What the operations do to the paths of the node objects -/

theorem nodeMount_path {E : Env} {u u' : Ush} {p : Str} {id : NodeId} {files : List FileDesc} {s : Status}
    (h : nodeMount E u p id files = .ok (u', s)) (i : NodeId) :
    (u'.nodes i).path = if i = id then some p else (u.nodes i).path := by
  unfold nodeMount at h
  mgo h
  all_goals
    simp only [M.pure_eq, Except.ok.injEq, Prod.mk.injEq] at h
    obtain ⟨rfl, rfl⟩ := h
    grind [setNode]

theorem nodeUnmount_path {E : Env} {u u' : Ush} {q : Str} {s : Status}
    (h : nodeUnmount E u q = .ok (u', s)) (i : NodeId) : (u'.nodes i).path = (u.nodes i).path ∧ u'.current = u.current := by
  unfold nodeUnmount at h
  mgo h
  all_goals
    simp only [M.pure_eq, Except.ok.injEq, Prod.mk.injEq] at h
    obtain ⟨rfl, rfl⟩ := h
    grind [setNode]

theorem commandsAdd_path {u u' : Ush} {id : NodeId} {files : List FileDesc} {s : Status}
    (h : commandsAdd u id files = .ok (u', s)) (i : NodeId) :
    (u'.nodes i).path = (if i = id then none else (u.nodes i).path) ∧ u'.current = u.current := by
  unfold commandsAdd at h
  mgo h
  all_goals
    simp only [M.pure_eq, Except.ok.injEq, Prod.mk.injEq] at h
    obtain ⟨rfl, rfl⟩ := h
    grind [setNode]

theorem commandsRemove_path {E : Env} {u u' : Ush} {id : NodeId} {s : Status}
    (h : commandsRemove E u id = .ok (u', s)) (i : NodeId) :
    (u'.nodes i).path = (u.nodes i).path ∧ u'.current = u.current := by
  unfold commandsRemove at h
  mgo h
  all_goals
    simp only [M.pure_eq, Except.ok.injEq, Prod.mk.injEq] at h
    obtain ⟨rfl, rfl⟩ := h
    grind [setNode]

/-! ## The invariant -/

/-- The shell object and the node objects represent `S`. -/
structure SInv (E : Env) (u : Ush) (S : Place) : Prop where
  world : WInv E u S.world
  cur : u.current = S.here.map (·.1)
  path : ∀ id p, S.here = some (id, p) → (u.nodes id).path = p.map render
  good : ∀ w, S.path = some w → (∀ c ∈ w, GoodComp c) ∧ (render w).length < E.pathMax

theorem WInv.forget {E : Env} {u : Ush} {W : World} (H : WInv E u W) : WInv E u ⟨W.tree, W.groups, none⟩ :=
  ⟨H.tree, H.cmds, H.disj, fun _ h => (by cases h), fun _ h => by cases h⟩

theorem SInv.currentPath {E : Env} {u : Ush} {S : Place} (H : SInv E u S) {w : List Str} (h : S.path = some w) :
    currentPath u = .ok (render w) := by
  unfold Place.path at h
  obtain ⟨⟨id, p⟩, h1, h2⟩ := Option.bind_eq_some_iff.mp h
  simp only at h2
  subst h2
  unfold Ush.currentPath
  rw [H.cur, h1]
  simp only [Option.map_some]
  rw [H.path id _ h1]
  rfl

theorem SInv.noPath {E : Env} {u : Ush} {S : Place} (H : SInv E u S) (h : S.path = none) : Ush.currentPath u = .error .null := by
  unfold Place.path at h
  unfold Ush.currentPath
  rw [H.cur]
  cases hh : S.here with
  | none => rfl
  | some x =>
    obtain ⟨id, p⟩ := x
    rw [hh] at h
    simp only [Option.bind_some] at h
    subst h
    simp only [Option.map_some]
    rw [H.path id _ hh]
    rfl

theorem argText_ne {abs : Bool} {comps : List Str} {slash : Bool} (h1 : ∀ c ∈ comps, GoodComp c)
    (h2 : abs = false → comps ≠ []) : argText abs comps slash ≠ [] := by
  intro h
  unfold argText at h
  rw [List.append_eq_nil_iff] at h
  cases abs with
  | true => exact render_ne_nil _ h.1
  | false =>
    simp only [Bool.false_eq_true, if_false] at h
    have h' := h2 rfl
    have := h.1
    rw [render_ne _ h'] at this
    cases comps with
    | nil => exact absurd rfl h'
    | cons c comps =>
      simp only [chunks_cons, List.cons_append, List.drop_succ_cons, List.drop_zero,
        List.append_eq_nil_iff] at this
      exact (h1 c (by simp)).1 this.1

/-- An absolute path does not need a working directory. -/
theorem getAbsolutePath_abs {E : Env} {u : Ush} (hp : 0 < E.pathMax) (comps : List Str) (slash : Bool)
    (h : ∀ c ∈ comps, GoodComp c) (hl : (argText true comps slash).length < E.pathMax) :
    getAbsolutePath E u (argText true comps slash) = .ok (render (normalize comps)) ∧
      (render (normalize comps)).length < E.pathMax := by
  have hh : (argText true comps slash).head? = some cSlash := by
    unfold argText
    simp only [if_true]
    have := render_head comps
    cases hr : render comps with
    | nil => rw [hr] at this; cases this
    | cons c r => rw [hr] at this; simpa using this
  have e : getAbsolutePath E u (argText true comps slash) =
      getAbsolutePath E { u with current := some 0, nodes := fun _ => { path := some b!"/" } } (argText true comps slash) := by
    unfold getAbsolutePath
    simp only [hh, if_true]
  rw [e]
  have h1 : 1 < E.pathMax := by
    have : argText true comps slash ≠ [] := by intro h0; rw [h0] at hh; cases hh
    have := List.length_pos_iff.mpr this
    omega
  have hf : fullText b!"/" (argText true comps slash) = argText true comps slash := by
    unfold fullText; rw [if_pos hh]
  obtain ⟨r, e1, -, -, hr1⟩ := getAbsolutePath_any (E := E)
    (u := { u with current := some 0, nodes := fun _ => { path := some b!"/" } }) (cwd := b!"/") hp rfl (argText true comps slash)
    (by simpa using h1) (by rw [hf]; exact hl) (by decide) (by decide) (argText_nul _ _ _ h)
  have e2 : getAbsolutePath E { u with current := some 0, nodes := fun _ => { path := some b!"/" } } (argText true comps slash) =
      .ok (render (normalize comps)) := by
    rw [getAbsolutePath_eq (cwd := b!"/") hp rfl _ (by simpa using h1) (by rw [hf]; exact hl), hf]
    have hr : argText true comps slash = render comps ++ (if slash then b!"/" else []) := rfl
    rw [hr] at hl ⊢
    rw [stripSlash_render _ h]
    exact collapsePath_render _ _ h (by simp at hl; omega)
  rw [e2] at e1
  simp only [Except.ok.injEq] at e1
  exact ⟨e2, by rw [e1]; exact hr1⟩

theorem resolve_good {w : List Str} {abs : Bool} {comps : List Str} (hw : abs = false → ∀ c ∈ w, GoodComp c)
    (h : ∀ c ∈ comps, GoodComp c) : ∀ c ∈ resolve w abs comps, GoodComp c := by
  apply good_of_normalize
  intro c hc'
  cases abs with
  | true => exact h c hc'
  | false =>
    rcases List.mem_append.mp hc' with h' | h'
    · exact hw rfl c h'
    · exact h c h'

/-- `ush_node_set_current_dir`, whether the working directory is mounted or not. -/
theorem setCurrentDir_site {E : Env} {u : Ush} {S : Place} (H : SInv E u S) (abs : Bool) (comps : List Str) (slash : Bool)
    (hv : S.Valid E (.cd abs comps slash)) :
    setCurrentDir E u (argText abs comps slash) = .ok (match S.tree.find (resolve (S.path.getD []) abs comps) with
      | some m => ({ u with current := some m.id }, .ok)
      | none => (u, .nodeNotFound)) := by
  obtain ⟨h1, h2, h3⟩ := hv
  have key : getAbsolutePath E u (argText abs comps slash) = .ok (render (resolve (S.path.getD []) abs comps)) ∧
      (abs = false → ∀ c ∈ S.path.getD [], GoodComp c) ∧
      (render (resolve (S.path.getD []) abs comps)).length < E.pathMax := by
    cases abs with
    | true =>
      simp only [if_true] at h3
      have e := getAbsolutePath_abs (u := u) H.world.tree.pathMax comps slash h1 h3
      exact ⟨e.1, fun h => absurd h (by decide), e.2⟩
    | false =>
      simp only [Bool.false_eq_true, if_false] at h3
      obtain ⟨w, hw, h3⟩ := h3
      have e := getAbsolutePath_arg H.world.tree.pathMax (H.currentPath hw) (H.good w hw).1 false comps slash h1 h2 h3
      rw [hw]
      refine ⟨e, fun _ => (H.good w hw).1, ?_⟩
      obtain ⟨r, e1, -, -, hr1⟩ := getAbsolutePath_any H.world.tree.pathMax (H.currentPath hw) (argText false comps slash)
        (H.good w hw).2 (by unfold fullText; split; · omega
                            · split <;> simp <;> omega)
        (render_nul _ (fun c hc => ((H.good w hw).1 c hc).2.2)) (render_head _) (argText_nul _ _ _ h1)
      rw [e] at e1
      simp only [Except.ok.injEq] at e1
      show (render (resolve w false comps)).length < _
      rw [e1]; exact hr1
  obtain ⟨e, hw, hlen⟩ := key
  unfold setCurrentDir
  rw [if_neg (argText_ne h1 h2), e]
  simp only [M.ok_bind]
  rw [getByPath_eq H.world.tree _ hlen (render_ne_nil _)]
  simp only [M.ok_bind]
  have := findText_render H.world.tree (resolve (S.path.getD []) abs comps) (resolve_good hw h1)
  simp only [Place.world] at this ⊢
  rw [this]
  cases S.tree.find (resolve (S.path.getD []) abs comps) <;> rfl

/-- One operation. -/
theorem siteStep_sim {E : Env} {u : Ush} {S : Place} (H : SInv E u S) (o : FsOp) (hv : S.Valid E o) :
    ∃ u', runApi E u o.api = .ok u' ∧ SInv E u' (S.step o).1 ∧ u'.log = u.log ++ [.ret (S.step o).2] := by
  cases o with
  | mount p id files =>
    obtain ⟨u', e, H', l⟩ := fsStep_sim H.world (.mount p id files) hv
    obtain ⟨h1, h2, h3, h4, h5⟩ := hv
    obtain ⟨nodes, root, current, em, -, -, C⟩ := nodeMount_sim H.world.tree p id files h1 h2 h3 h4
    have P := nodeMount_path em
    simp only [FsOp.api, runApi, em, M.ok_bind, M.pure_eq, Except.ok.injEq] at e
    subst e
    refine ⟨_, by simp only [FsOp.api, runApi, em, M.ok_bind, M.pure_eq], ⟨H'.forget, ?_, ?_, ?_⟩, l⟩
    · simp only [Ush.emit, Place.step]
      have C' : current = if (S.tree.mount p id files).2 = .ok ∧ p = [] then some id else u.current := C
      rw [C']
      by_cases hh : (S.tree.mount p id files).2 = .ok ∧ p = []
      · rw [if_pos hh, if_pos hh]; rfl
      · rw [if_neg hh, if_neg hh, H.cur]
        unfold Place.rename
        cases S.here with
        | none => rfl
        | some x => simp only [Option.map_some]; split <;> simp_all
    · intro i q hi
      simp only [Ush.emit, Place.step] at hi ⊢
      rw [P i]
      split at hi
      · rename_i hh
        simp only [Option.some.injEq, Prod.mk.injEq] at hi
        obtain ⟨rfl, rfl⟩ := hi
        rw [if_pos rfl, hh.2]; rfl
      · unfold Place.rename at hi
        obtain ⟨⟨j, q'⟩, hj, hi⟩ := Option.map_eq_some_iff.mp hi
        simp only at hi
        split at hi
        · cases hi; rw [if_pos rfl]; rfl
        · rename_i hne
          cases hi
          rw [if_neg hne]
          exact H.path _ _ hj
    · intro w hw
      simp only [Place.step, Place.path] at hw
      split at hw
      · rename_i hh
        cases hw
        exact ⟨by simp, by rw [← hh.2]; exact h2⟩
      · unfold Place.rename at hw
        obtain ⟨⟨j, q⟩, hj, hw⟩ := Option.bind_eq_some_iff.mp hw
        obtain ⟨⟨j', q'⟩, hj', hj⟩ := Option.map_eq_some_iff.mp hj
        simp only at hw hj
        subst hw
        split at hj
        · cases hj; exact ⟨h1, h2⟩
        · cases hj
          exact H.good w (by unfold Place.path; rw [hj']; rfl)
  | unmount q =>
    obtain ⟨u', e, H', l⟩ := fsStep_sim H.world (.unmount q) hv
    obtain ⟨nodes, root, em, -, -⟩ := nodeUnmount_sim H.world.tree q hv.2 hv.1
    have P := fun i => nodeUnmount_path em i
    simp only [FsOp.api, runApi, em, M.ok_bind, M.pure_eq, Except.ok.injEq] at e
    subst e
    refine ⟨_, by simp only [FsOp.api, runApi, em, M.ok_bind, M.pure_eq], ⟨H'.forget, H.cur, ?_, H.good⟩, l⟩
    intro i q hi
    exact (P i).1.trans (H.path i q hi)
  | cd abs comps slash =>
    have e := setCurrentDir_site H abs comps slash hv
    simp only [FsOp.api, runApi, e, M.ok_bind, Place.step]
    cases hf : S.tree.find (resolve (S.path.getD []) abs comps) with
    | none =>
      refine ⟨_, rfl, ⟨⟨H.world.tree.congr rfl (fun _ _ => rfl) H.world.tree.free, H.world.cmds.congr rfl (fun _ _ => rfl),
        H.world.disj, fun _ h => (by cases h), fun _ h => by cases h⟩, H.cur, H.path, H.good⟩, rfl⟩
    | some m =>
      have hm := ((find_eq_some H.world.tree.nodupPath).mp hf).1
      refine ⟨_, rfl, ⟨⟨H.world.tree.congr rfl (fun _ _ => rfl) H.world.tree.free, H.world.cmds.congr rfl (fun _ _ => rfl),
        H.world.disj, fun _ h => (by cases h), fun _ h => by cases h⟩, rfl, ?_, ?_⟩, rfl⟩
      · intro i q hi
        cases hi
        exact H.world.tree.path m hm
      · intro w hw
        cases hw
        exact ⟨H.world.tree.good m hm, H.world.tree.fits m hm⟩
  | addGroup id files =>
    obtain ⟨u', e, H', l⟩ := fsStep_sim H.world (.addGroup id files) hv
    obtain ⟨nodes, em, -⟩ := commandsAdd_sim H.world.cmds id files hv.1 hv.2.1 hv.2.2.2
    have P := fun i => commandsAdd_path em i
    simp only [FsOp.api, runApi, em, M.ok_bind, M.pure_eq, Except.ok.injEq] at e
    subst e
    refine ⟨_, by simp only [FsOp.api, runApi, em, M.ok_bind, M.pure_eq], ⟨H'.forget, ?_, ?_, ?_⟩, l⟩
    · simp only [Ush.emit, Place.step]
      rw [H.cur]
      unfold Place.rename
      cases S.here with
      | none => rfl
      | some x => simp only [Option.map_some]; split <;> simp_all
    · intro i q hi
      simp only [Ush.emit, Place.step] at hi ⊢
      refine (P i).1.trans ?_
      unfold Place.rename at hi
      obtain ⟨⟨j, q'⟩, hj, hi⟩ := Option.map_eq_some_iff.mp hi
      simp only at hi
      split at hi
      · cases hi; rw [if_pos rfl]; rfl
      · rename_i hne
        cases hi
        rw [if_neg hne]
        exact H.path _ _ hj
    · intro w hw
      simp only [Place.step, Place.path] at hw
      unfold Place.rename at hw
      obtain ⟨⟨j, q⟩, hj, hw⟩ := Option.bind_eq_some_iff.mp hw
      obtain ⟨⟨j', q'⟩, hj', hj⟩ := Option.map_eq_some_iff.mp hj
      simp only at hw hj
      subst hw
      split at hj
      · cases hj
      · cases hj
        exact H.good w (by unfold Place.path; rw [hj']; rfl)
  | removeGroup id =>
    obtain ⟨u', e, H', l⟩ := fsStep_sim H.world (.removeGroup id) hv
    obtain ⟨nodes, cmds, em, -⟩ := commandsRemove_sim H.world.cmds id
    have P := fun i => commandsRemove_path em i
    simp only [FsOp.api, runApi, em, M.ok_bind, M.pure_eq, Except.ok.injEq] at e
    subst e
    refine ⟨_, by simp only [FsOp.api, runApi, em, M.ok_bind, M.pure_eq], ⟨H'.forget, H.cur, ?_, H.good⟩, l⟩
    intro i q hi
    exact (P i).1.trans (H.path i q hi)

/-- A history of operations. -/
theorem siteRun_sim {E : Env} : ∀ (os : List FsOp) (u : Ush) (S : Place), SInv E u S → S.ValidRun E os →
    ∃ u', run E u (os.map (fun o => Op.api o.api)) = .ok u' ∧ SInv E u' (S.run os).1 ∧
      u'.log = u.log ++ (S.run os).2.map .ret := by
  intro os
  induction os with
  | nil => intro u S H _; exact ⟨u, rfl, H, by simp [Place.run]⟩
  | cons o os ih =>
    intro u S H hv
    obtain ⟨u1, e1, H1, l1⟩ := siteStep_sim H o hv.1
    obtain ⟨u2, e2, H2, l2⟩ := ih u1 _ H1 hv.2
    refine ⟨u2, ?_, H2, ?_⟩
    · rw [List.map_cons, run, step, e1]
      exact e2
    · rw [l2, l1]; simp [Place.run]

theorem site_init {E : Env} (hc : CfgOk E) (inBuf outBuf : List UInt8) :
    ∃ u, ushInit E (blank inBuf outBuf) = .ok u ∧ SInv E u (initPlace E) ∧ u.log = [] := by
  obtain ⟨u, e, H, l, -⟩ := ushInit_blank hc inBuf outBuf
  refine ⟨u, e, ⟨H.forget, ?_, (fun _ _ h => by cases h), (fun _ h => by cases h)⟩, l⟩
  show u.current = none
  unfold ushInit ushReset writePointer at e
  mgo e
  all_goals
    simp only [M.pure_eq, Except.ok.injEq] at e
    subst e
    exact H.tree.root

/-! ## Mounted or not -/

theorem atHome_iff {E : Env} {u : Ush} {S : Place} (H : SInv E u S) : AtHome E u ↔ S.Mounted := by
  unfold AtHome Place.Mounted
  constructor
  · rintro ⟨c, p, h1, h2, h3⟩
    cases hp : S.path with
    | none => rw [H.noPath hp] at h2; cases h2
    | some w =>
      rw [H.currentPath hp] at h2
      cases h2
      obtain ⟨hg, hl⟩ := H.good w hp
      rw [getByPath_eq H.world.tree _ hl (render_ne_nil _), findText_render H.world.tree _ hg] at h3
      simp only [Except.ok.injEq, Option.map_eq_some_iff] at h3
      obtain ⟨m, hm, rfl⟩ := h3
      obtain ⟨hmem, rfl⟩ := (find_eq_some H.world.tree.nodupPath).mp hm
      refine ⟨m, hmem, ?_⟩
      unfold Place.path at hp
      obtain ⟨⟨id, q⟩, h4, h5⟩ := Option.bind_eq_some_iff.mp hp
      rw [H.cur, h4] at h1
      simp only [Option.map_some, Option.some.injEq] at h1 h5
      rw [h4, h1, h5]
  · rintro ⟨m, hm, hh⟩
    have hp : S.path = some m.path := by unfold Place.path; rw [hh]; rfl
    obtain ⟨hg, hl⟩ := H.good _ hp
    refine ⟨m.id, render m.path, by rw [H.cur, hh]; rfl, H.currentPath hp, ?_⟩
    rw [getByPath_eq H.world.tree _ hl (render_ne_nil _), findText_render H.world.tree _ hg,
      (find_eq_some H.world.tree.nodupPath).mpr ⟨hm, rfl⟩]
    rfl

theorem mounted_step {E : Env} {u : Ush} {S : Place} (H : SInv E u S) (o : FsOp) (ho : S.Valid E o) :
    (S.step o).1.Mounted ↔
      (S.Mounted ∧ ¬ ((S.step o).2 = .ok ∧ ∃ q, o = .unmount q ∧ currentPath u = .ok q)) ∨
        ((S.step o).2 = .ok ∧ o.LeadsHome u) := by
  cases o with
  | mount p id files =>
    obtain ⟨h1, h2, h3, h4, h5⟩ := ho
    have hno : ¬ ∃ q, FsOp.mount p id files = .unmount q ∧ currentPath u = .ok q := by rintro ⟨q, h, -⟩; cases h
    simp only [Place.step, FsOp.LeadsHome, Place.Mounted, hno, and_false, not_false_eq_true, and_true]
    by_cases hok : (S.tree.mount p id files).2 = .ok
    · have ht : (S.tree.mount p id files).1 = ⟨p, id, files⟩ :: S.tree := by
        unfold Tree.mount at hok ⊢
        split at hok
        · cases hok
        · split at hok
          · cases hok
          · rename_i a b; rw [if_neg a, if_neg b]
      by_cases hp : p = []
      · subst hp
        simp only [hok, and_self, if_true, true_or, or_true, iff_true]
        exact ⟨⟨[], id, files⟩, by rw [ht]; simp, rfl⟩
      · simp only [hok, hp, and_false, if_false, false_or, true_and]
        rw [ht, H.cur]
        unfold Place.rename
        constructor
        · rintro ⟨m, hm, hh⟩
          obtain ⟨⟨j, q⟩, hj, hh⟩ := Option.map_eq_some_iff.mp hh
          simp only at hh
          by_cases hji : j = id
          · right; rw [hj, hji]; rfl
          · rw [if_neg hji] at hh
            simp only [Prod.mk.injEq] at hh
            obtain ⟨rfl, rfl⟩ := hh
            rcases List.mem_cons.mp hm with rfl | hm
            · exact absurd rfl hji
            · exact Or.inl ⟨m, hm, hj⟩
        · rintro (⟨m, hm, hh⟩ | hh)
          · refine ⟨m, by simp [hm], ?_⟩
            rw [hh]
            simp only [Option.map_some]
            rw [if_neg (h4 m hm)]
          · obtain ⟨⟨j, q⟩, hj, hh⟩ := Option.map_eq_some_iff.mp hh
            simp only at hh
            subst hh
            exact ⟨⟨p, j, files⟩, by simp, by rw [hj]; simp⟩
    · have ht : (S.tree.mount p id files).1 = S.tree := by
        unfold Tree.mount at hok ⊢
        split
        · rfl
        · split
          · rfl
          · rename_i a b; rw [if_neg a, if_neg b] at hok; exact absurd rfl hok
      simp only [hok, false_and, if_false, or_false]
      rw [ht]
      unfold Place.rename
      constructor
      · rintro ⟨m, hm, hh⟩
        obtain ⟨⟨j, q⟩, hj, hh⟩ := Option.map_eq_some_iff.mp hh
        simp only at hh
        by_cases hji : j = id
        · rw [if_pos hji] at hh
          simp only [Prod.mk.injEq] at hh
          exact absurd hh.1.symm (h4 m hm)
        · rw [if_neg hji] at hh
          simp only [Prod.mk.injEq] at hh
          obtain ⟨rfl, rfl⟩ := hh
          exact ⟨m, hm, hj⟩
      · rintro ⟨m, hm, hh⟩
        refine ⟨m, hm, ?_⟩
        rw [hh]
        simp only [Option.map_some]
        rw [if_neg (h4 m hm)]
  | unmount q =>
    simp only [FsOp.LeadsHome, and_false, or_false]
    have hex : (∃ q', FsOp.unmount q = .unmount q' ∧ currentPath u = .ok q') ↔ currentPath u = .ok q := by
      constructor
      · rintro ⟨q', h, h'⟩; cases h; exact h'
      · intro h; exact ⟨q, rfl, h⟩
    rw [hex]
    have hcp : ∀ m ∈ S.tree, S.here = some (m.id, some m.path) → (currentPath u = .ok q ↔ render m.path = q) := by
      intro m hm hh
      rw [H.currentPath (w := m.path) (by unfold Place.path; rw [hh]; rfl)]
      simp
    have hst : (S.step (.unmount q)).2 = (S.tree.unmount q).2 := rfl
    have hkey : ∀ m ∈ S.tree, (m ∈ (S.tree.unmount q).1 ↔ ¬ ((S.tree.unmount q).2 = .ok ∧ render m.path = q)) := by
      intro m hm
      unfold Tree.unmount
      cases hft : S.tree.findText q with
      | none => simpa using hm
      | some x =>
        obtain ⟨hx1, hx2⟩ := findText_some H.world.tree hft
        simp only
        split
        · simpa using hm
        · simp only [List.mem_filter, hm, true_and, bne_iff_ne, ne_eq]
          constructor
          · intro h1 h2
            exact h1 (render_inj _ _ (H.world.tree.good m hm) (H.world.tree.good x hx1) (h2.trans hx2.symm))
          · intro h1 h2
            exact h1 (by rw [h2, hx2])
    constructor
    · rintro ⟨m, hm, hh⟩
      have hm' := unmount_fst_mem hm
      refine ⟨⟨m, hm', hh⟩, ?_⟩
      rw [hcp m hm' hh]
      exact (hkey m hm').mp hm
    · rintro ⟨⟨m, hm, hh⟩, h⟩
      rw [hcp m hm hh] at h
      exact ⟨m, (hkey m hm).mpr h, hh⟩
  | cd abs comps slash =>
    have hno : ¬ ∃ q, FsOp.cd abs comps slash = .unmount q ∧ currentPath u = .ok q := by rintro ⟨q, h, -⟩; cases h
    simp only [Place.step, FsOp.LeadsHome, hno, and_false, not_false_eq_true, and_true]
    cases hf : S.tree.find (resolve (S.path.getD []) abs comps) with
    | none => simp
    | some m =>
      simp only [or_true, iff_true]
      exact ⟨m, ((find_eq_some H.world.tree.nodupPath).mp hf).1, rfl⟩
  | addGroup id files =>
    obtain ⟨h1, h2, h3, h4⟩ := ho
    have hno : ¬ ∃ q, FsOp.addGroup id files = .unmount q ∧ currentPath u = .ok q := by rintro ⟨q, h, -⟩; cases h
    simp only [Place.step, FsOp.LeadsHome, Place.Mounted, hno, and_false, not_false_eq_true, and_true, or_false]
    unfold Place.rename
    constructor
    · rintro ⟨m, hm, hh⟩
      obtain ⟨⟨j, q⟩, hj, hh⟩ := Option.map_eq_some_iff.mp hh
      simp only at hh
      by_cases hji : j = id
      · rw [if_pos hji] at hh; cases hh
      · rw [if_neg hji] at hh
        simp only [Prod.mk.injEq] at hh
        obtain ⟨rfl, rfl⟩ := hh
        exact ⟨m, hm, hj⟩
    · rintro ⟨m, hm, hh⟩
      refine ⟨m, hm, ?_⟩
      rw [hh]
      simp only [Option.map_some]
      rw [if_neg (h3 m hm)]
  | removeGroup id =>
    have hno : ¬ ∃ q, FsOp.removeGroup id = .unmount q ∧ currentPath u = .ok q := by rintro ⟨q, h, -⟩; cases h
    simp only [FsOp.LeadsHome, hno, and_false, not_false_eq_true, and_true, or_false]
    rfl

end Ush
