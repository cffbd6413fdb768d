import Verif.Spec.History
import Verif.Proof.Lookup
import Verif.Proof.Log
import Verif.Spec.Fs
/-!
# The shell refines `World`
-/
namespace Ush
open Spec

/-- The shell object and the node objects represent `W`. -/
structure WInv (E : Env) (u : Ush) (W : World) : Prop where
  tree : TreeInv E u W.tree
  cmds : CmdInv E u W.groups
  disj : ∀ m ∈ W.tree, ∀ c ∈ W.groups, m.id ≠ c.id
  cwd : ∀ m, W.cwd = some m → CwdInv E u W.tree m
  apart : ∀ m, W.cwd = some m → ∀ c ∈ W.groups, c.id ≠ m.id

/-- Unmounting leaves the files, the path and the parent of all node objects. -/
theorem nodeUnmount_fields {E : Env} {u u' : Ush} {q : Str} {s : Status} (h : nodeUnmount E u q = .ok (u', s)) (i : NodeId) :
    (u'.nodes i).path = (u.nodes i).path ∧ (u'.nodes i).files = (u.nodes i).files ∧ (u'.nodes i).parent = (u.nodes i).parent := by
  unfold nodeUnmount at h
  mgo h
  all_goals
    simp only [M.pure_eq, Except.ok.injEq, Prod.mk.injEq] at h
    obtain ⟨rfl, rfl⟩ := h
    grind [setNode]

theorem mem_dirs {W : World} {m : Mount} : m ∈ W.dirs ↔ m ∈ W.tree ∨ W.cwd = some m := by
  unfold World.dirs
  cases h : W.cwd with
  | none => simp
  | some d =>
    simp only [Option.some.injEq]
    split
    · constructor
      · exact .inl
      · rintro (h | rfl) <;> assumption
    · rw [List.mem_cons, or_comm, eq_comm]

/-- What the node object of a directory holds. -/
theorem WInv.dir {E : Env} {u : Ush} {W : World} (H : WInv E u W) {m : Mount} (hm : m ∈ W.dirs) :
    CwdInv E { u with current := some m.id } W.tree m := by
  rcases mem_dirs.mp hm with h | h
  · exact CwdInv.of_mem (H.tree.congr rfl (fun _ _ => rfl) H.tree.free) h rfl
  · have C := H.cwd m h
    exact ⟨rfl, C.linked, C.good, C.fits, C.pathField, C.files, C.parent⟩

/-- The list of its sub-directories. -/
theorem WInv.under {E : Env} {u : Ush} {W : World} (H : WInv E u W) {m : Mount} (hm : m ∈ W.dirs) :
    IsChain u.nodes (u.nodes m.id).children ((W.tree.under m).map Mount.id) := by
  have T : TreeInv E { u with current := some m.id } W.tree := H.tree.congr rfl (fun _ _ => rfl) H.tree.free
  have := CwdInv.kids T (H.dir hm)
  exact this

theorem under_mem {t : Tree} {m k : Mount} (h : k ∈ t.under m) : k ∈ t ∧ isKid m.path k = true := by
  unfold Tree.under at h
  split at h
  · exact List.mem_filter.mp h
  · cases h

theorem mem_under_opt {t : Tree} {o : Option Mount} {m : Mount} (h : m ∈ (o.map t.under).getD []) : m ∈ t := by
  cases o with
  | none => cases h
  | some d => exact (under_mem h).1

theorem under_eq {t : Tree} {m : Mount} (h : m ∈ t) : t.under m = t.kids m.path := if_pos h

theorem mem_dirs_of_tree {W : World} {m : Mount} (h : m ∈ W.tree) : m ∈ W.dirs := mem_dirs.mpr (.inl h)

theorem removeGroup_eq (g : Groups) (id : NodeId) : removeGroup g id = g.remove id := rfl

theorem mount_fst_mem {t : Tree} {p : List Str} {id : NodeId} {files : List FileDesc} {m : Mount}
    (h : m ∈ (t.mount p id files).1) : m ∈ t ∨ m = ⟨p, id, files⟩ := by
  unfold Tree.mount at h
  split at h
  · exact Or.inl h
  · split at h
    · exact Or.inl h
    · rcases List.mem_cons.mp h with h | h
      · exact Or.inr h
      · exact Or.inl h

theorem mem_mount_fst {t : Tree} {p : List Str} {id : NodeId} {files : List FileDesc} {m : Mount}
    (h : m ∈ t) : m ∈ (t.mount p id files).1 := by
  unfold Tree.mount
  split
  · exact h
  · split
    · exact h
    · simp [h]

theorem mem_mount_new {t : Tree} {p : List Str} {id : NodeId} {files : List FileDesc} (h : (t.mount p id files).2 = .ok) :
    (⟨p, id, files⟩ : Mount) ∈ (t.mount p id files).1 := by
  unfold Tree.mount at h ⊢
  split at h
  · cases h
  · split at h
    · cases h
    · rename_i ha hb
      rw [if_neg ha, if_neg hb]; simp

theorem remount_some {W : World} {m n : Mount} {ok : Prop} [Decidable ok] (h : W.remount m ok = some n) :
    (∃ d, W.cwd = some d ∧ d.id = m.id ∧ ok ∧ m = n) ∨ (W.cwd = some n ∧ n.id ≠ m.id) := by
  unfold World.remount at h
  split at h
  · cases h
  · next d hd =>
    split at h
    · next hi =>
      split at h
      · next hok => cases h; exact .inl ⟨d, hd, hi, hok, rfl⟩
      · cases h
    · next hi => cases h; exact .inr ⟨hd, hi⟩

/-- What `unmount` leaves is still linked, and the rest is not. -/
theorem unmount_linked {E : Env} {u : Ush} {t : Tree} (H : TreeInv E u t) {q : Str} {m : Mount} (hm : m ∈ t) :
    m ∈ (t.unmount q).1 ∨ ∀ x ∈ (t.unmount q).1, x.id ≠ m.id := by
  by_cases h : m ∈ (t.unmount q).1
  · exact .inl h
  · refine .inr fun x hx e => h ?_
    have hx' : x ∈ t := by
      unfold Tree.unmount at hx
      split at hx
      · exact hx
      · split at hx
        · exact hx
        · exact (List.mem_filter.mp hx).1
    rwa [← id_inj H.nodupId hx' hm e]

theorem unmount_fst_mem {t : Tree} {q : Str} {m : Mount} (h : m ∈ (t.unmount q).1) : m ∈ t := by
  unfold Tree.unmount at h
  split at h
  · exact h
  · split at h
    · exact h
    · exact (List.mem_filter.mp h).1

theorem groups_remove_mem {g : Groups} {id : NodeId} {c : Group} (h : c ∈ (g.remove id).1) : c ∈ g := by
  unfold Groups.remove at h
  split at h
  · exact (List.mem_filter.mp h).1
  · exact h

theorem argText_nul (abs : Bool) (comps : List Str) (slash : Bool) (h : ∀ c ∈ comps, GoodComp c) :
    cNul ∉ argText abs comps slash := by
  have h1 : cNul ∉ render comps := render_nul _ (fun c hc => (h c hc).2.2)
  unfold argText
  intro h2
  rcases List.mem_append.mp h2 with h2 | h2
  · split at h2
    · exact h1 h2
    · exact h1 (List.mem_of_mem_drop h2)
  · split at h2
    · revert h2; decide
    · cases h2

theorem fullText_argText (w : List Str) (hw : ∀ c ∈ w, GoodComp c) (abs : Bool) (comps : List Str) (slash : Bool)
    (h : ∀ c ∈ comps, GoodComp c) (hne : abs = false → comps ≠ []) :
    fullText (render w) (argText abs comps slash) =
      render (if abs then comps else w ++ comps) ++ (if slash then b!"/" else []) := by
  unfold argText
  cases abs with
  | true =>
    simp only [if_true]
    unfold fullText
    rw [if_pos]
    have := render_head comps
    cases hr : render comps with
    | nil => rw [hr] at this; cases this
    | cons c r => rw [hr] at this; simpa using this
  | false =>
    simp only [Bool.false_eq_true, if_false]
    rcases fullText_rel w comps h (hne rfl) (if slash then b!"/" else []) with h1 | ⟨c, hc, hb⟩
    · exact h1
    · exact absurd (hw c hc) hb

/-- Resolution of a path argument (C03). -/
theorem getAbsolutePath_arg {E : Env} {u : Ush} {w : List Str} (hp : 0 < E.pathMax)
    (hc : currentPath u = .ok (render w)) (hw : ∀ c ∈ w, GoodComp c)
    (abs : Bool) (comps : List Str) (slash : Bool) (h : ∀ c ∈ comps, GoodComp c) (hne : abs = false → comps ≠ [])
    (hl : (render w).length + 1 + (argText abs comps slash).length < E.pathMax) :
    getAbsolutePath E u (argText abs comps slash) = .ok (render (resolve w abs comps)) := by
  have hft := fullText_argText w hw abs comps slash h hne
  have hlen : (fullText (render w) (argText abs comps slash)).length < E.pathMax := by
    unfold fullText
    split
    · omega
    · split
      · simp; omega
      · simp; omega
  rw [getAbsolutePath_eq hp hc _ (by omega) hlen, hft]
  have hg : ∀ c ∈ (if abs then comps else w ++ comps), GoodComp c := by
    intro c hc'
    split at hc'
    · exact h c hc'
    · rcases List.mem_append.mp hc' with h' | h'
      · exact hw c h'
      · exact h c h'
  rw [hft] at hlen
  rw [stripSlash_render _ hg]
  exact collapsePath_render _ _ hg (by simp at hlen; omega)

/-- One operation. -/
theorem fsStep_sim {E : Env} {u : Ush} {W : World} (H : WInv E u W) (o : FsOp) (hv : W.Valid E o) :
    ∃ u', runApi E u o.api = .ok u' ∧ WInv E u' (W.step o).1 ∧ u'.log = u.log ++ [.ret (W.step o).2] := by
  cases o with
  | mount p id files =>
    obtain ⟨h1, h2, h3, h4, h5⟩ := hv
    obtain ⟨nodes, root, current, e, T, F, C⟩ := nodeMount_sim H.tree p id files h1 h2 h3 h4
    refine ⟨({ u with nodes := nodes, root := root, current := current } : Ush).emit (.ret (W.tree.mount p id files).2), ?_, ?_, rfl⟩
    · simp only [FsOp.api, runApi]
      rw [e]
      rfl
    · · refine ⟨T.congr rfl (fun _ _ => rfl) T.free, H.cmds.congr rfl ?_, ?_, ?_, ?_⟩
        · intro c hc
          exact F c.id (fun m hm h => H.disj m hm c hc h) (h5 c hc)
        · intro m hm c hc
          rcases mount_fst_mem hm with hm | rfl
          · exact H.disj m hm c hc
          · exact fun h => h5 c hc h.symm
        · intro m hm
          have T' : TreeInv E (({ u with nodes := nodes, root := root, current := current } : Ush).emit (.ret (W.tree.mount p id files).2))
              (W.tree.mount p id files).1 := T.congr rfl (fun _ _ => rfl) T.free
          simp only [World.step] at hm
          split at hm
          · rename_i h
            obtain ⟨hok, rfl⟩ := h
            simp only [Option.some.injEq] at hm
            subst hm
            refine CwdInv.of_mem T' (mem_mount_new hok) ?_
            simp only [Ush.emit]; rw [C, if_pos ⟨hok, rfl⟩]
          · rename_i h
            rcases remount_some hm with ⟨d, hd, hi, hok, rfl⟩ | ⟨hd, hi⟩
            · refine CwdInv.of_mem T' (mem_mount_new hok) ?_
              simp only [Ush.emit]; rw [C, if_neg h, (H.cwd d hd).cur, hi]
            · have D := H.cwd m hd
              have hcur : current = some m.id := by rw [C, if_neg h]; exact D.cur
              rcases D.linked with hl | hl
              · exact CwdInv.of_mem T' (mem_mount_fst hl) hcur
              · refine D.congr (hcur.trans D.cur.symm) (F m.id hl hi) (.inr ?_)
                intro x hx
                rcases mount_fst_mem hx with hx | rfl
                · exact hl x hx
                · exact fun e => hi e.symm
        · intro m hm c hc
          simp only [World.step] at hm
          split at hm
          · rename_i h
            simp only [Option.some.injEq] at hm
            subst hm
            exact h5 c hc
          · rcases remount_some hm with ⟨d, hd, hi, hok, rfl⟩ | ⟨hd, hi⟩
            · exact h5 c hc
            · exact H.apart m hd c hc
  | unmount q =>
    obtain ⟨h1, h2⟩ := hv
    obtain ⟨nodes, root, e, T, F⟩ := nodeUnmount_sim H.tree q h2 h1
    refine ⟨({ u with nodes := nodes, root := root } : Ush).emit (.ret (W.tree.unmount q).2), ?_, ?_, rfl⟩
    · simp only [FsOp.api, runApi]
      rw [e]
      rfl
    · refine ⟨T.congr rfl (fun _ _ => rfl) T.free, H.cmds.congr rfl ?_, ?_, ?_, H.apart⟩
      · intro c hc
        exact F c.id (fun m hm h => H.disj m hm c hc h)
      · intro m hm c hc
        exact H.disj m (unmount_fst_mem hm) c hc
      · intro m hm
        have D := H.cwd m hm
        obtain ⟨k1, k2, k3⟩ := nodeUnmount_fields e m.id
        refine ⟨D.cur, ?_, D.good, D.fits, k1.trans D.pathField, k2.trans D.files, ?_⟩
        · rcases D.linked with hl | hl
          · exact unmount_linked H.tree hl
          · exact .inr fun x hx => hl x (unmount_fst_mem hx)
        · show ((({ u with nodes := nodes, root := root } : Ush)).nodes m.id).parent = none ↔ _
          rw [k3]; exact D.parent
  | cd abs comps slash =>
    obtain ⟨h1, h2, m, hm, h3⟩ := hv
    have C := H.cwd m hm
    have hlen : (fullText (render m.path) (argText abs comps slash)).length < E.pathMax := by
      unfold fullText
      split
      · omega
      · split
        · simp; omega
        · simp; omega
    have hne : argText abs comps slash ≠ [] := by
      intro h
      unfold argText at h
      rw [List.append_eq_nil_iff] at h
      cases abs with
      | true => exact render_ne_nil _ h.1
      | false =>
        simp only [Bool.false_eq_true, if_false] at h
        have h' := h2 rfl
        have := h.1
        rw [render_ne _ h'] at this
        cases comps with
        | nil => exact absurd rfl h'
        | cons c comps =>
          simp only [chunks_cons, List.cons_append, List.drop_succ_cons, List.drop_zero,
            List.append_eq_nil_iff] at this
          exact (h1 c (by simp)).1 this.1
    obtain ⟨abs', e1, e2⟩ := setCurrentDir_sim H.tree C (argText abs comps slash) hne (argText_nul abs comps slash h1) hlen
    have e3 := getAbsolutePath_arg H.tree.pathMax C.path C.good abs comps slash h1 h2 h3
    rw [e1] at e3
    simp only [Except.ok.injEq] at e3
    subst e3
    have hg : ∀ c ∈ resolve m.path abs comps, GoodComp c := by
      apply good_of_normalize
      intro c hc'
      split at hc'
      · exact h1 c hc'
      · rcases List.mem_append.mp hc' with h' | h'
        · exact C.good c h'
        · exact h1 c h'
    rw [findText_render H.tree _ hg] at e2
    simp only [FsOp.api, runApi, e2, M.ok_bind, World.step, hm]
    cases hf : W.tree.find (resolve m.path abs comps) with
    | none =>
      refine ⟨_, rfl, ⟨H.tree.congr rfl (fun _ _ => rfl) H.tree.free, H.cmds.congr rfl (fun _ _ => rfl), H.disj, ?_, H.apart⟩, rfl⟩
      intro m' hm'
      exact (H.cwd m' hm').congr rfl rfl (H.cwd m' hm').linked
    | some m' =>
      refine ⟨_, rfl, ⟨H.tree.congr rfl (fun _ _ => rfl) H.tree.free, H.cmds.congr rfl (fun _ _ => rfl), H.disj, ?_, ?_⟩, rfl⟩
      · intro m'' hm''
        simp only [Option.some.injEq] at hm''
        subst hm''
        exact CwdInv.of_mem (H.tree.congr rfl (fun _ _ => rfl) H.tree.free) ((find_eq_some H.tree.nodupPath).mp hf).1 rfl
      · intro m'' hm'' c hc
        simp only [Option.some.injEq] at hm''
        subst hm''
        exact fun e => H.disj _ ((find_eq_some H.tree.nodupPath).mp hf).1 c hc e.symm
  | addGroup id files =>
    obtain ⟨h1, h2, h3, h4⟩ := hv
    obtain ⟨nodes, e, G, F, F2⟩ := commandsAdd_sim H.cmds id files h1 h2 h4
    refine ⟨({ u with nodes := nodes, commands := some id } : Ush).emit (.ret .ok), ?_, ?_, rfl⟩
    · simp only [FsOp.api, runApi]
      rw [e]
      rfl
    · refine ⟨H.tree.congr rfl ?_ ?_, G.congr rfl (fun _ _ => rfl), ?_, ?_, ?_⟩
      · intro m hm
        exact F m.id (h3 m hm)
      · intro i hi
        by_cases hid : i = id
        · subst hid
          simp only [Ush.emit]
          rw [F2]; exact H.tree.free i hi
        · simp only [Ush.emit]
          rw [F i hid]; exact H.tree.free i hi
      · intro m hm c hc
        rcases List.mem_cons.mp hc with rfl | hc
        · exact h3 m hm
        · exact H.disj m hm c hc
      · intro m hm
        simp only [World.step, Option.filter_eq_some_iff, bne_iff_ne] at hm
        exact (H.cwd m hm.1).congr rfl (F m.id hm.2) (H.cwd m hm.1).linked
      · intro m hm c hc
        simp only [World.step, Option.filter_eq_some_iff, bne_iff_ne] at hm
        rcases List.mem_cons.mp hc with rfl | hc
        · exact fun e => hm.2 e.symm
        · exact H.apart m hm.1 c hc
  | removeGroup id =>
    obtain ⟨nodes, cmds, e, G, F, F2⟩ := commandsRemove_sim H.cmds id
    refine ⟨({ u with nodes := nodes, commands := cmds } : Ush).emit (.ret (removeGroup W.groups id).2), ?_, ?_, rfl⟩
    · simp only [FsOp.api, runApi]
      rw [e]
      rfl
    · refine ⟨H.tree.congr rfl ?_ ?_, G.congr rfl (fun _ _ => rfl), ?_, ?_, fun m hm c hc => H.apart m hm c (groups_remove_mem hc)⟩
      · intro m hm
        exact F m.id (fun c hc h => H.disj m hm c hc h.symm)
      · intro i hi
        simp only [Ush.emit]
        rw [F2]; exact H.tree.free i hi
      · intro m hm c hc
        exact H.disj m hm c (groups_remove_mem hc)
      · intro m hm
        exact (H.cwd m hm).congr rfl (F m.id (H.apart m hm)) (H.cwd m hm).linked

/-- A history of operations. -/
theorem fsRun_sim {E : Env} : ∀ (os : List FsOp) (u : Ush) (W : World), WInv E u W → W.ValidRun E os →
    ∃ u', runApis E u (os.map FsOp.api) = .ok u' ∧ WInv E u' (W.run os).1 ∧
      u'.log = u.log ++ (W.run os).2.map .ret := by
  intro os
  induction os with
  | nil => intro u W H _; exact ⟨u, rfl, H, by simp [World.run]⟩
  | cons o os ih =>
    intro u W H hv
    obtain ⟨u1, e1, H1, l1⟩ := fsStep_sim H o hv.1
    obtain ⟨u2, e2, H2, l2⟩ := ih u1 _ H1 hv.2
    refine ⟨u2, ?_, H2, ?_⟩
    · rw [List.map_cons, runApis, e1]
      exact e2
    · rw [l2, l1]; simp [World.run]

/-- `ush_init` on a shell object without commands, when no node has children. -/
theorem ushInit_free {E : Env} (h : CfgOk E) {v : Ush} (hcm : v.commands = none) (hf : ∀ i, (v.nodes i).children = none) :
    ∃ u, ushInit E v = .ok u ∧ WInv E u (initWorld E) ∧ u.log = v.log ∧
      u.inBuf = v.inBuf ∧ u.outBuf = v.outBuf ∧ u.state = .writeChar ∧ u.writeNext = .resetPrompt ∧
      u.writeBuf = .str banner ∧ u.writeSize = banner.length ∧ u.writePos = 0 := by
  unfold ushInit
  have a1 : decide (E.inSize > 0) = true := by simpa using h.inSize
  have a2 : decide (E.outSize ≥ 4) = true := by simpa using h.outSize
  rw [a1, a2]
  cases hon : E.commandsOn with
  | false =>
    have hw : initWorld E = ⟨[], [], none⟩ := by simp [initWorld, hon]
    rw [hw]
    refine ⟨_, rfl, ?_, rfl, rfl, rfl, rfl, rfl, rfl, rfl, rfl⟩
    refine ⟨?_, ?_, by simp, by simp, by simp⟩
    · constructor
      case pathMax => exact h.pathMax
      case root => rfl
      case free => exact fun i _ => hf i
      all_goals simp
    · constructor
      · simp
      · simp
      · exact hcm
      · simp
      · simp
  | true =>
    have hw : initWorld E = ⟨[], [⟨0, builtinTable E⟩], none⟩ := by simp [initWorld, hon]
    have a3 : decide ((builtinTable E).length > 0) = true := by simpa using List.length_pos_iff.mpr (h.commands hon)
    rw [hw]
    unfold commandsAdd
    simp only [a3, if_true]
    refine ⟨_, rfl, ?_, rfl, rfl, rfl, rfl, rfl, rfl, rfl, rfl⟩
    refine ⟨?_, ?_, by simp, by simp, by simp⟩
    · constructor
      case pathMax => exact h.pathMax
      case root => rfl
      case free =>
        intro i _
        simp only [writePointerBin, setNode]
        split <;> exact hf _
      all_goals simp
    · constructor
      · simp
      · intro c hc
        simp only [List.mem_singleton] at hc
        subst hc; exact h.nodes
      · exact ⟨rfl, hcm⟩
      · intro c hc
        simp only [List.mem_singleton] at hc
        subst hc; rfl
      · intro c hc
        simp only [List.mem_singleton] at hc
        subst hc; rfl

theorem ushInit_blank {E : Env} (h : CfgOk E) (inBuf outBuf : List UInt8) :
    ∃ u, ushInit E (blank inBuf outBuf) = .ok u ∧ WInv E u (initWorld E) ∧ u.log = [] ∧
      u.inBuf = inBuf ∧ u.outBuf = outBuf ∧ u.state = .writeChar ∧ u.writeNext = .resetPrompt ∧
      u.writeBuf = .str banner ∧ u.writeSize = banner.length ∧ u.writePos = 0 :=
  ushInit_free h rfl (fun _ => rfl)

end Ush
