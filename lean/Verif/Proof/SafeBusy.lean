import Verif.Proof.SafeRead
/-!
# The invariant: changes of directories and commands while a built-in command or a completion is at work
-/
namespace Ush
open Spec

variable {E : Env} {L : Nat} {W W' : World} {u v : Ush} {k : Nat}

/-! ## The node objects determine the world -/

theorem IsChain.det {nodes : NodeId → Node} : ∀ {as bs : List NodeId} {s : Option NodeId}, IsChain nodes s as → IsChain nodes s bs → as = bs := by
  intro as
  induction as with
  | nil =>
    intro bs s ha hb
    cases bs with
    | nil => rfl
    | cons b bs => exact absurd (ha.symm.trans hb.1) (by simp)
  | cons a as ih =>
    intro bs s ha hb
    cases bs with
    | nil => exact absurd (hb.symm.trans ha.1) (by simp)
    | cons b bs =>
      have e : a = b := Option.some.inj (ha.1.symm.trans hb.1)
      subst e
      rw [ih ha.2 hb.2]

theorem TreeInv.mem_of {t t2 : Tree} (H : TreeInv E u t) (H2 : TreeInv E u t2) : ∀ (n : Nat) (m : Mount), m.path.length = n → m ∈ t → m ∈ t2 := by
  intro n
  have same : ∀ m ∈ t, ∀ m2 ∈ t2, m2.id = m.id → m2 = m := by
    intro m hm m2 hm2 e
    have h1 := H.path m hm
    have h2 := H2.path m2 hm2
    have h3 := H.files m hm
    have h4 := H2.files m2 hm2
    rw [e] at h2 h4
    have h5 := render_inj _ _ (H.good m hm) (H2.good m2 hm2) (Option.some.inj (h1.symm.trans h2))
    have h6 := h3.symm.trans h4
    cases m; cases m2; simp_all
  induction n with
  | zero =>
    intro m hl hm
    have hp : m.path = [] := List.length_eq_zero_iff.mp hl
    have h1 := H.root
    rw [(find_eq_some H.nodupPath).mpr ⟨hm, hp⟩, H2.root] at h1
    obtain ⟨m2, h2, h3⟩ := Option.map_eq_some_iff.mp h1
    have h4 := ((find_eq_some H2.nodupPath).mp h2).1
    rwa [← same m hm m2 h4 h3]
  | succ n ih =>
    intro m hl hm
    have hp : m.path ≠ [] := by intro h; rw [h] at hl; cases hl
    obtain ⟨p, h1, h2⟩ := H.closed m hm hp
    have h3 := ih p (by rw [h2, List.length_dropLast, hl]; rfl) h1
    have h4 := (H.kids p h1).det (H2.kids p h3)
    have h5 : m.id ∈ (t.kids p.path).map Mount.id :=
      List.mem_map_of_mem (List.mem_filter.mpr ⟨hm, by unfold isKid; simp [hp, h2]⟩)
    rw [h4] at h5
    obtain ⟨m2, h6, h7⟩ := List.mem_map.mp h5
    have h8 := (List.mem_filter.mp h6).1
    rwa [← same m hm m2 h8 h7]

/-- The same directories (perhaps in another order), commands and working directory. -/
structure SameWorld (W W' : World) : Prop where
  groups : W'.groups = W.groups
  cwd : W'.cwd = W.cwd
  mem : ∀ m, m ∈ W'.tree ↔ m ∈ W.tree
  len : W'.tree.length = W.tree.length

theorem CmdInv.eq_map {g : Groups} (H : CmdInv E u g) : g = (g.map Group.id).map (fun i => ⟨i, (u.nodes i).files⟩) := by
  rw [List.map_map]
  conv => lhs; rw [← List.map_id g]
  refine List.map_congr_left fun c hc => ?_
  have := H.files c hc
  cases c
  simp_all

theorem WInv.uniq (H : WInv E u W) (H2 : WInv E u W') (o : W.Ok E) (o2 : W'.Ok E) : SameWorld W W' := by
  have hm : ∀ m, m ∈ W'.tree ↔ m ∈ W.tree := fun m => ⟨H2.tree.mem_of H.tree _ m rfl, H.tree.mem_of H2.tree _ m rfl⟩
  refine ⟨?_, ?_, hm, ?_⟩
  · rw [H.cmds.eq_map, H2.cmds.eq_map, H2.cmds.chain.det H.cmds.chain]
  · obtain ⟨m, h1⟩ := Option.ne_none_iff_exists'.mp o.cwd
    obtain ⟨m2, h2⟩ := Option.ne_none_iff_exists'.mp o2.cwd
    have C := H.cwd m h1
    have C2 := H2.cwd m2 h2
    have e : m2.id = m.id := Option.some.inj (C2.cur.symm.trans C.cur)
    have h3 := C2.pathField
    have h4 := C2.files
    rw [e] at h3 h4
    have h5 := render_inj _ _ C.good C2.good (Option.some.inj (C.pathField.symm.trans h3))
    have h6 := C.files.symm.trans h4
    rw [h1, h2]
    cases m; cases m2; simp_all
  · exact ((List.perm_ext_iff_of_nodup H2.tree.nodupPath.of_map H.tree.nodupPath.of_map).mpr hm).length_eq

/-! ## Files -/

/-- The file is found, wherever the directory is in the list. -/
theorem worldFile_mem {t : Tree} {q : Str} {m : Mount} {f : FileDesc} (nd : (t.map Mount.path).Nodup) (good : ∀ m ∈ t, ∀ c ∈ m.path, GoodComp c)
    (names : ∀ m ∈ t, ∀ f ∈ m.files, GoodComp f.name) (hm : m ∈ t) (h : m.files.find? (fun f => render (m.path ++ [f.name]) == q) = some f) :
    t.findFile q = some f := by
  unfold Tree.findFile
  cases hx : t.findSome? (fun m => m.files.find? (fun f => render (m.path ++ [f.name]) == q)) with
  | none =>
    have := List.findSome?_eq_none_iff.mp hx m hm
    rw [h] at this; cases this
  | some g =>
    obtain ⟨m2, h2, h3⟩ := List.exists_of_findSome?_eq_some hx
    have e1 : render (m.path ++ [f.name]) = q := by simpa using List.find?_some h
    have e2 : render (m2.path ++ [g.name]) = q := by simpa using List.find?_some h3
    have g1 := names m hm f (List.mem_of_find?_eq_some h)
    have g2 := names m2 h2 g (List.mem_of_find?_eq_some h3)
    have e3 := render_inj (m.path ++ [f.name]) (m2.path ++ [g.name])
      (fun c hc => by rcases List.mem_append.mp hc with hc | hc; exacts [good m hm c hc, by rw [List.mem_singleton.mp hc]; exact g1])
      (fun c hc => by rcases List.mem_append.mp hc with hc | hc; exacts [good m2 h2 c hc, by rw [List.mem_singleton.mp hc]; exact g2])
      (e1.trans e2.symm)
    have e4 : m.path = m2.path := by simpa using congrArg List.dropLast e3
    have e5 := path_inj nd hm h2 e4
    subst e5
    exact h3.symm.trans h

theorem findFile_mono {t t2 : Tree} {q : Str} {f : FileDesc} (nd : (t2.map Mount.path).Nodup) (good : ∀ m ∈ t2, ∀ c ∈ m.path, GoodComp c)
    (names : ∀ m ∈ t2, ∀ f ∈ m.files, GoodComp f.name) (sub : ∀ m ∈ t, m ∈ t2) (h : t.findFile q = some f) : t2.findFile q = some f := by
  obtain ⟨m, h1, h2⟩ := List.exists_of_findSome?_eq_some h
  exact worldFile_mem nd good names (sub m h1) h2

theorem World.path_eq (h : W'.cwd = W.cwd) : W'.path = W.path := by unfold World.path; rw [h]

/-- More directories: the files that are found are the same. -/
theorem file_more (H : WInv E v W') (o : W'.Ok E) (hg : W'.groups = W.groups) (hc : W'.cwd = W.cwd) (sub : ∀ m ∈ W.tree, m ∈ W'.tree) {a : Str} {f : FileDesc}
    (h : W.file? a = some f) : W'.file? a = some f := by
  unfold World.file? at h ⊢
  rw [hg, World.path_eq hc]
  rcases Option.or_eq_some_iff.mp h with h | ⟨h1, h2⟩
  · exact Option.or_eq_some_iff.mpr (.inl h)
  · exact Option.or_eq_some_iff.mpr (.inr ⟨h1, findFile_mono H.tree.nodupPath H.tree.good (fun m hm f hf => (o.names m hm f hf).1) sub h2⟩)

/-! ## What is at work -/

theorem dirs_more (hc : W'.cwd = W.cwd) (sub : ∀ m ∈ W.tree, m ∈ W'.tree) {m : Mount} (h : m ∈ W.dirs) : m ∈ W'.dirs := by
  rcases mem_dirs.mp h with h | h
  · exact mem_dirs_of_tree (sub m h)
  · exact mem_dirs.mpr (.inr (hc.trans h))

/-- The rest of the list of commands. -/
theorem chain_more {gs : Groups} {n : Option NodeId} (H' : CmdInv E v W'.groups) (s : gs <:+ W'.groups) (h : IsChain u.nodes n (gs.map Group.id)) :
    IsChain v.nodes n (gs.map Group.id) := by
  cases gs with
  | nil => exact h
  | cons g gs =>
    obtain ⟨as, e⟩ := s
    have c := H'.chain
    rw [← e, List.map_append, List.map_cons] at c
    have e2 : n = some g.id := h.1
    rw [e2]
    exact IsChain.tail _ _ _ _ c

theorem HelpAt.more {n : Option NodeId} {item i : Nat} (H : CmdInv E u W.groups) (H' : CmdInv E v W'.groups) (s : W.groups <:+ W'.groups)
    (h : HelpAt W u.nodes n item i k) : HelpAt W' v.nodes n item i k := by
  obtain ⟨gs, h1, h2, h3⟩ := h.at'
  refine ⟨⟨gs, h1.trans s, chain_more H' (h1.trans s) h2, h3⟩, h.idx, fun hi => ?_⟩
  obtain ⟨x, f, d, e1, e2, e3⟩ := h.desc hi
  refine ⟨x, f, d, e1, ?_, e3⟩
  cases gs with
  | nil => exact absurd (e1.symm.trans h2) (by simp)
  | cons g gs =>
    have e4 : x = g.id := Option.some.inj (e1.symm.trans h2.1)
    have hg : g ∈ W.groups := h1.subset (by simp)
    rw [e4, H.files g hg] at e2
    rw [e4, H'.files g (s.subset hg)]
    exact e2

theorem siblings_suffix {nodes : NodeId → Node} {s : Option NodeId} {is js : List NodeId} (h : IsChain nodes s is) (hj : js <:+ is) : IsChain nodes js.head? js := by
  obtain ⟨as, rfl⟩ := hj
  cases js with
  | nil => rfl
  | cons j js => exact IsChain.tail _ _ _ _ h

theorem LsLive.more {s : St} (F : FsFrame u v) (H' : WInv E v W') (mem : ∀ m ∈ W.dirs, u.procNode = some m.id → m ∈ W'.dirs)
    (sub : ∀ m ∈ W.dirs, u.procNode = some m.id → ∀ ms : List Mount, ms <:+ W.tree.under m → u.procChild = (ms.map Mount.id).head? →
      ∃ ms' : List Mount, ms' <:+ W'.tree.under m ∧ (ms'.map Mount.id).head? = (ms.map Mount.id).head?) (h : LsLive W u k s) :
    LsLive W' v (k + 4 * W'.tree.length) s := by
  have e1 : v.procNode = u.procNode := by rw [F]
  have e2 : v.procChild = u.procChild := by rw [F]
  have e3 : v.procIndex = u.procIndex := by rw [F]
  have e4 : v.procItem = u.procItem := by rw [F]
  unfold LsLive at h ⊢
  rw [e1, e2, e3, e4]
  cases s
  case processStart =>
    obtain ⟨m, h1, h2, h3⟩ := h
    exact ⟨m, mem m h1 h2, h2, by omega⟩
  case processService =>
    obtain ⟨m, h1, h2, h3, ms, h4, h5, h6⟩ := h
    obtain ⟨ms', h7, h8⟩ := sub m h1 h2 ms h4 h5.head
    refine ⟨m, mem m h1 h2, h2, h3, ms', h7, ?_, ?_⟩
    · rw [h5.head, ← h8]
      exact siblings_suffix (H'.under (mem m h1 h2)) (h7.map _)
    · have g1 := h7.length_le
      have g2 : (W'.tree.under m).length ≤ W'.tree.length := by
        unfold Tree.under Tree.kids
        split
        · exact List.length_filter_le _ _
        · exact Nat.zero_le _
      omega
  case processFinish =>
    obtain ⟨m, h1, h2, h3, h4, h5⟩ := h
    exact ⟨m, mem m h1 h2, h2, h3, by omega, h5⟩
  all_goals exact h.elim

/-- Nothing is taken away. -/
theorem LsLive.grow {s : St} (F : FsFrame u v) (H' : WInv E v W') (mem : ∀ m ∈ W.dirs, u.procNode = some m.id → m ∈ W'.dirs)
    (sub : ∀ m ∈ W.dirs, u.procNode = some m.id → W.tree.under m <:+ W'.tree.under m) (h : LsLive W u k s) : LsLive W' v (k + 4 * W'.tree.length) s :=
  h.more F H' mem (fun m h1 h2 ms h3 _ => ⟨ms, h3.trans (sub m h1 h2), rfl⟩)

theorem CatLive.more {s : St} (F : FsFrame u v)
    (hf : ∀ a f id, W.file? a = some f → f.getData = some id → ∃ f' id', W'.file? a = some f' ∧ f'.getData = some id')
    (h : CatLive L W u k s) : CatLive L W' v k s := by
  have ca : CatArgs L W u → CatArgs L W' v := by
    rintro ⟨argv, h1, h2, h3⟩
    refine ⟨argv, by rw [F]; exact h1, by rw [F]; exact h2, fun o ho => ?_⟩
    obtain ⟨a, f, id, h4, h5, h6, h7⟩ := h3 o ho
    obtain ⟨f', id', h8, h9⟩ := hf a f id h6 h7
    exact ⟨a, f', id', by rw [F]; exact h4, h5, h8, h9⟩
  have e3 : v.argsCount = u.argsCount := by rw [F]
  have e4 : v.procItem = u.procItem := by rw [F]
  unfold CatLive at h ⊢
  rw [e3, e4]
  cases s
  case processStart => exact ⟨ca h.1, h.2⟩
  case processService => exact ⟨ca h.1, h.2⟩
  all_goals exact h

theorem XxdLive.more {s : St} (F : FsFrame u v) (h : XxdLive E u k s) : XxdLive E v k s := by
  rw [F]; exact h

/-- New directories or commands; the rest is the same. -/
structure More (E : Env) (W W' : World) (u v : Ush) : Prop where
  frame : FsFrame u v
  groups : W.groups <:+ W'.groups
  cwd : W'.cwd = W.cwd
  cur : v.current = u.current
  mem : ∀ m ∈ W.tree, m ∈ W'.tree
  len : W.tree.length ≤ W'.tree.length
  next : ∀ m ∈ W.tree, (v.nodes m.id).next = (u.nodes m.id).next
  cmds : CmdInv E v W'.groups

theorem cost_suffix {g g' : Groups} (h : g <:+ g') : cost g ≤ cost g' := by
  obtain ⟨as, rfl⟩ := h
  induction as with
  | nil => exact Nat.le_refl _
  | cons a as ih => rw [List.cons_append, cost]; omega

theorem More.files (M : More E W W' u v) : cwdFiles W' = cwdFiles W := by unfold cwdFiles; rw [M.cwd]

theorem More.scan (M : More E W W' u v) : scanCost W + 3 * (W'.tree.length - W.tree.length) ≤ scanCost W' := by
  unfold scanCost
  rw [M.files]
  have := cost_suffix M.groups
  have := M.len
  omega

theorem More.names (M : More E W W' u v) {n : Str} (h : n ∈ W.tabNames) : n ∈ W'.tabNames := by
  unfold World.tabNames at h ⊢
  rw [M.cwd]
  rcases List.mem_append.mp h with h | h
  · rcases List.mem_append.mp h with h | h
    · refine List.mem_append_left _ (List.mem_append_left _ ?_)
      obtain ⟨f, hf, rfl⟩ := List.mem_map.mp h
      refine List.mem_map_of_mem ?_
      obtain ⟨g, hg, hf⟩ := List.mem_flatMap.mp hf
      exact List.mem_flatMap.mpr ⟨g, M.groups.subset hg, hf⟩
    · exact List.mem_append_left _ (List.mem_append_right _ h)
  · obtain ⟨m, hm, rfl⟩ := List.mem_map.mp h
    exact List.mem_append_right _ (List.mem_map_of_mem (M.mem m hm))

theorem ScanAt.more {c : Nat} (M : More E W W' u v) (h : ScanAt W u c) : ScanAt W' v (c + (scanCost W' - scanCost W)) := by
  have F := M.frame
  have e1 : v.procNode = u.procNode := by rw [F]
  have e2 : v.procStage = u.procStage := by rw [F]
  have e3 : v.procIndex = u.procIndex := by rw [F]
  have e4 : v.procItem = u.procItem := by rw [F]
  have e5 : v.acCount = u.acCount := by rw [F]
  have hs := M.scan
  have hl := M.len
  unfold ScanAt at h ⊢
  rw [e1, e2, e3, e4, e5, M.files, M.cur]
  obtain ⟨h1, h2, h3⟩ := h
  refine ⟨h1, by omega, ?_⟩
  rcases h3 with ⟨h3, gs, h4, h5, h6⟩ | ⟨h3, h4, h5⟩ | ⟨h3, h4, h5⟩ | ⟨h3, ms, h4, h5, h6⟩
  · exact .inl ⟨h3, gs, h4.trans M.groups, chain_more M.cmds (h4.trans M.groups) h5, by omega⟩
  · exact .inr (.inl ⟨h3, h4, by omega⟩)
  · exact .inr (.inr (.inl ⟨h3, h4, by omega⟩))
  · refine .inr (.inr (.inr ⟨h3, ms, fun x hx => M.mem x (h4 x hx), h5.congr fun i hi => ?_, by omega⟩))
    obtain ⟨x, hx, rfl⟩ := List.mem_map.mp hi
    exact M.next x (h4 x hx)

theorem CandOk.more {x : Str} (M : More E W W' u v) (h : CandOk W u x) : CandOk W' v x := by
  have F := M.frame
  intro hc
  obtain ⟨c, h1, h2, h3⟩ := h (by rw [F] at hc; exact hc)
  exact ⟨c, by rw [F]; exact h1, h2, M.names h3⟩

theorem NamesFit.more {off : Nat} {x : Str} (hn : ∀ n ∈ W'.tabNames, n ∈ W.tabNames ∨ off + n.length < L) (h : NamesFit L W off x) : NamesFit L W' off x :=
  ⟨h.1, fun n hm hx => (hn n hm).elim (fun h' => h.2 n h' hx) id⟩

/-- The completion goes on. -/
theorem Live.tabMore {s : St} (M : More E W W' u v) (hn : ∀ n ∈ W'.tabNames, n ∈ W.tabNames ∨ u.inPos + n.length < L) (hs : isTab s = true)
    (h : Live E L W u k s) : ∃ j, Live E L W' v j s := by
  have F := M.frame
  have tw : ∀ {x}, TabWord u x → TabWord v x := fun h => by rw [F]; exact h
  have lo : LineOk E u → LineOk E v := fun h => by rw [F]; exact h
  have e1 : v.acInput = u.acInput := by rw [F]
  have e2 : v.inPos = u.inPos := by rw [F]
  have e3 : v.inBuf = u.inBuf := by rw [F]
  have e4 : v.acSuffixLen = u.acSuffixLen := by rw [F]
  have e5 : v.acPrevCount = u.acPrevCount := by rw [F]
  have e6 : v.acPrevState = u.acPrevState := by rw [F]
  have nf : ∀ {off x}, off ≤ u.inPos → NamesFit L W off x → NamesFit L W' off x := fun ho h =>
    h.more (fun n hm => (hn n hm).imp id (fun h => by omega))
  have tp : ∀ {x}, TabWord u x → u.acInput ≤ u.inPos := fun h => by have := h.pos; omega
  cases s <;> (try cases hs)
  case acPrepare =>
    obtain ⟨h1, h2, h3, h4, h5⟩ := h
    have hp : u.inPos ≤ u.inBuf.length := by
      obtain ⟨hlt, -⟩ := List.getElem?_eq_some_iff.mp h1.nul
      omega
    refine ⟨_, lo h1, by rw [e2, e3]; exact h2, ?_, ?_, Nat.le_refl _⟩
    · rw [e2, e3]
      refine nf ?_ h3
      have := congrArg List.length (lineHead_split (u.inBuf.take u.inPos)).1
      rw [List.length_append, List.length_take] at this
      omega
    · rw [e2, e3]; exact nf (Nat.zero_le _) h4
  case acCandStart =>
    obtain ⟨x, h1, h2, h3⟩ := h
    exact ⟨_, x, tw h1, by rw [e1]; exact nf (tp h1) h2, Nat.le_refl _⟩
  case acCandCount =>
    obtain ⟨x, c, h1, h2, h3, h4, h5⟩ := h
    exact ⟨_, x, _, tw h1, by rw [e1]; exact nf (tp h1) h2, h3.more M, h4.more M, Nat.le_refl _⟩
  case acCandOptimise =>
    obtain ⟨x, c, h1, h2, h3, h4, h5, h6, h7, h8⟩ := h
    exact ⟨_, x, _, tw h1, by rw [e1]; exact nf (tp h1) h2, h3.more M, h4.more M, by rw [e5]; exact h5, by rw [e4]; exact h6, by rw [e4]; exact h7, Nat.le_refl _⟩
  case acCandPrint =>
    obtain ⟨x, c, h1, h2, h3, h4⟩ := h
    exact ⟨_, x, _, tw h1, by rw [e2]; exact h2, h3.more M, Nat.le_refl _⟩
  case acCandFinish =>
    rcases h with ⟨h1, h2, h3⟩ | ⟨h1, ⟨x, h2, h3, h4⟩, h5⟩ | ⟨h1, ⟨x, h2, h3, h4, h5⟩, h6, h7, h8⟩
    · exact ⟨_, .inl ⟨by rw [e6]; exact h1, lo h2, Nat.le_refl _⟩⟩
    · exact ⟨_, .inr (.inl ⟨by rw [e6]; exact h1, ⟨x, tw h2, by rw [e1]; exact nf (tp h2) h3, h4.more M⟩, Nat.le_refl _⟩)⟩
    · exact ⟨_, .inr (.inr ⟨by rw [e6]; exact h1, ⟨x, tw h2, by rw [e1]; exact nf (tp h2) h3, h4.more M, by rw [e4]; exact h5⟩, by rw [e5]; exact h6, by rw [e4]; exact h7,
        Nat.le_refl _⟩)⟩
  case acPromptPrepare => exact h.elim
  case acPrompt => exact ⟨_, lo h.1, h.2⟩
  case acRecall => exact ⟨_, lo h.1, h.2⟩
  case acRecallSuffix =>
    obtain ⟨x, h1, h2, h3, h4⟩ := h
    exact ⟨_, x, tw h1, by rw [e2]; exact h2, by rw [e4]; exact h3, Nat.le_refl _⟩

/-- The order of the directories does not matter. -/
theorem SameWorld.more (S : SameWorld W W') (H' : WInv E u W') : More E W W' u u :=
  ⟨FsFrame.refl u, by rw [S.groups]; exact List.suffix_refl _, S.cwd, rfl, fun m => (S.mem m).mpr, by rw [S.len], fun _ _ => rfl, H'.cmds⟩

theorem SameWorld.under (S : SameWorld W W') (H : WInv E u W) (H' : WInv E u W') {m : Mount} (hm : m ∈ W.dirs) : W.tree.under m = W'.tree.under m := by
  have h1 := (H.under hm).det (H'.under (mem_dirs.mpr ((mem_dirs.mp hm).imp (S.mem m).mpr (fun h => S.cwd.trans h))))
  have h2 : ∀ (as bs : List Mount), (∀ x ∈ as, x ∈ W.tree) → (∀ x ∈ bs, x ∈ W.tree) → as.map Mount.id = bs.map Mount.id → as = bs := by
    intro as
    induction as with
    | nil => intro bs _ _ h; cases bs with | nil => rfl | cons b bs => cases h
    | cons a as ih =>
      intro bs ha hb h
      cases bs with
      | nil => cases h
      | cons b bs =>
        rw [List.map_cons, List.map_cons, List.cons.injEq] at h
        rw [id_inj H.tree.nodupId (ha a (by simp)) (hb b (by simp)) h.1, ih bs (fun x hx => ha x (by simp [hx])) (fun x hx => hb x (by simp [hx])) h.2]
  exact h2 _ _ (fun x hx => (under_mem hx).1) (fun x hx => (S.mem x).mp (under_mem hx).1) h1

theorem SameWorld.names (S : SameWorld W W') {n : Str} (h : n ∈ W'.tabNames) : n ∈ W.tabNames := by
  unfold World.tabNames at h ⊢
  rw [S.groups, S.cwd] at h
  rcases List.mem_append.mp h with h | h
  · exact List.mem_append_left _ h
  · obtain ⟨m, hm, rfl⟩ := List.mem_map.mp h
    exact List.mem_append_right _ (List.mem_map_of_mem ((S.mem m).mp hm))

/-- What is at work, process by process. -/
theorem ProcLive.map {s : St} {P : Builtin → Prop} (F : FsFrame u v) (hb : ∀ f, u.procFile = some f → ∀ b, f.process = some (.builtin b) → P b)
    (help : P .help → HelpLive W u k → ∃ j, HelpLive W' v j) (ls : P .ls → LsLive W u k s → ∃ j, LsLive W' v j s)
    (cat : P .cat → CatLive L W u k s → ∃ j, CatLive L W' v j s) (h : ProcLive E L W u k s) : ∃ j, ProcLive E L W' v j s := by
  obtain ⟨f, h1, h2⟩ := h
  have h3 := hb f h1
  have h1' : v.procFile = some f := by rw [F]; exact h1
  have goal : ∀ {j}, (match f.process with
    | none => 9 ≤ j
    | some (.user _) => True
    | some (.builtin .help) => s = .processStart ∧ HelpLive W' v j
    | some (.builtin .ls) => LsLive W' v j s
    | some (.builtin .cat) => CatLive L W' v j s
    | some (.builtin .xxd) => XxdLive E v j s
    | some (.builtin _) => False) → ∃ j, ProcLive E L W' v j s := fun h => ⟨_, f, h1', h⟩
  cases hf : f.process with
  | none => rw [hf] at goal; exact goal (Nat.le_refl 9)
  | some c =>
    cases c with
    | user i => rw [hf] at goal; exact goal (j := 0) trivial
    | builtin b =>
      rw [hf] at h2 goal
      have h4 := h3 b hf
      cases b
      case help => obtain ⟨j, hj⟩ := help h4 h2.2; exact goal ⟨h2.1, hj⟩
      case ls => obtain ⟨j, hj⟩ := ls h4 h2; exact goal hj
      case cat => obtain ⟨j, hj⟩ := cat h4 h2; exact goal hj
      case xxd => exact goal (XxdLive.more F h2)
      all_goals exact h2.elim

/-- What is at work, state by state. -/
theorem Live.map {P : Builtin → Prop} {T : Prop} (F : FsFrame u v) (S : Steady u P T)
    (help : P .help → HelpLive W u k → ∃ j, HelpLive W' v j) (ls : ∀ s, P .ls → LsLive W u k s → ∃ j, LsLive W' v j s)
    (cat : ∀ s, P .cat → CatLive L W u k s → ∃ j, CatLive L W' v j s)
    (tab : T → ∀ s, isTab s = true → Live E L W u k s → ∃ j, Live E L W' v j s)
    (h : Live E L W u k (next u)) : ∃ j, Live E L W' v j (next v) := by
  rw [show next v = next u by rw [F]; rfl]
  unfold Steady at S
  generalize next u = s at S h
  cases s
  case processStart => exact ProcLive.map F S help (ls _) (cat _) h
  case processService => exact ProcLive.map F S help (ls _) (cat _) h
  case processFinish => exact ProcLive.map F S help (ls _) (cat _) h
  all_goals first | exact tab S _ rfl h | exact ⟨k, by rw [F]; exact h⟩

theorem Live.same (S : SameWorld W W') (H : WInv E u W) (H' : WInv E u W') (o : W'.Ok E) (h : Live E L W u k (next u)) :
    ∃ j, Live E L W' u j (next u) := by
  have M := S.more H'
  refine Live.map (P := fun _ => True) (T := True) (FsFrame.refl u) ?_ ?_ ?_ ?_ ?_ h
  · unfold Steady; split <;> simp
  · exact fun _ h => ⟨_, h.more H.cmds H'.cmds M.groups⟩
  · exact fun s _ h => ⟨_, h.grow (FsFrame.refl u) H' (fun m hm _ => dirs_more M.cwd M.mem hm) (fun m hm _ => by rw [S.under H H' hm]; exact List.suffix_refl _)⟩
  · exact fun s _ h => ⟨_, h.more (FsFrame.refl u) (fun a f id h1 h2 => ⟨f, id, file_more H' o S.groups S.cwd M.mem h1, h2⟩)⟩
  · exact fun _ s hs h => h.tabMore M (fun n hn => .inl (S.names hn)) hs

/-! ## The calls -/

theorem nodeMount_next {p : Str} {id : NodeId} {files : List FileDesc} {r : Ush × Status} (h : nodeMount E u p id files = .ok r) (i : NodeId) (hi : i ≠ id) :
    (r.1.nodes i).next = (u.nodes i).next := by
  unfold nodeMount at h
  mgo h
  all_goals
    cases h
    grind [setNode]

theorem commandsAdd_next {id : NodeId} {files : List FileDesc} {r : Ush × Status} (h : commandsAdd u id files = .ok r) (i : NodeId) (hi : i ≠ id) :
    (r.1.nodes i).next = (u.nodes i).next := by
  unfold commandsAdd at h
  mgo h
  all_goals
    cases h
    grind [setNode]

theorem mount_cwd {p : List Str} {i : NodeId} {fs : List FileDesc} (hp : p ≠ []) (hc : W.NotCwd i) : (W.step (.mount p i fs)).1.cwd = W.cwd := by
  show (if _ ∧ p = [] then _ else W.remount _ _) = _
  rw [if_neg (fun h => hp h.2)]
  unfold World.remount
  cases h : W.cwd with
  | none => rfl
  | some d => exact if_neg (hc d h)

theorem mount_len {t : Tree} {p : List Str} {i : NodeId} {fs : List FileDesc} : t.length ≤ (t.mount p i fs).1.length := by
  unfold Tree.mount
  split
  · exact Nat.le_refl _
  · split
    · exact Nat.le_refl _
    · simp

theorem mount_under {t : Tree} {p : List Str} {i : NodeId} {fs : List FileDesc} {m : Mount} (h : m.id ≠ i) : t.under m <:+ (t.mount p i fs).1.under m := by
  unfold Tree.mount
  split
  · exact List.suffix_refl _
  · split
    · exact List.suffix_refl _
    · have e : m ∈ (⟨p, i, fs⟩ :: t : Tree) ↔ m ∈ t := by
        rw [List.mem_cons]
        exact ⟨fun h' => h'.elim (fun e => absurd (congrArg Mount.id e) h) id, .inr⟩
      unfold Tree.under
      by_cases hm : m ∈ t
      · rw [if_pos hm, if_pos (e.mpr hm)]
        unfold Tree.kids
        rw [List.filter_cons]
        split
        · exact List.suffix_cons _ _
        · exact List.suffix_refl _
      · rw [if_neg hm]; exact List.nil_suffix

theorem cur_eq (H : WInv E u W) (H' : WInv E v W') (o : W.Ok E) (h : W'.cwd = W.cwd) : v.current = u.current := by
  obtain ⟨m, h1⟩ := Option.ne_none_iff_exists'.mp o.cwd
  rw [(H.cwd m h1).cur, (H'.cwd m (h.trans h1)).cur]

theorem mount_more {p : List Str} {i : NodeId} {fs : List FileDesc} (H : WInv E u W) (o : W.Ok E) (hv : W.Valid E (.mount p i fs)) (hp : p ≠ []) (hc : W.NotCwd i)
    (e : runApi E u (FsOp.mount p i fs).api = .ok v) (H' : WInv E v (W.step (.mount p i fs)).1) : More E W (W.step (.mount p i fs)).1 u v := by
  have hcw := mount_cwd (fs := fs) hp hc
  refine ⟨fsApi_frame _ e, List.suffix_refl _, hcw, cur_eq H H' o hcw, fun m hm => mem_mount_fst hm, mount_len, fun m hm => ?_, H'.cmds⟩
  obtain ⟨r, h1, h2⟩ := M.bind_eq_ok.mp e
  cases h2
  exact nodeMount_next h1 m.id (hv.2.2.2.1 m hm)

theorem add_cwd {i : NodeId} {fs : List FileDesc} (hc : W.NotCwd i) : (W.step (.addGroup i fs)).1.cwd = W.cwd := by
  show W.cwd.filter _ = _
  cases h : W.cwd with
  | none => rfl
  | some d => simp [Option.filter, hc d h]

theorem add_more {i : NodeId} {fs : List FileDesc} (H : WInv E u W) (o : W.Ok E) (hv : W.Valid E (.addGroup i fs)) (hc : W.NotCwd i)
    (e : runApi E u (FsOp.addGroup i fs).api = .ok v) (H' : WInv E v (W.step (.addGroup i fs)).1) : More E W (W.step (.addGroup i fs)).1 u v := by
  have hcw := add_cwd (fs := fs) hc
  refine ⟨fsApi_frame _ e, List.suffix_cons _ _, hcw, cur_eq H H' o hcw, fun m hm => hm, Nat.le_refl _, fun m hm => ?_, H'.cmds⟩
  obtain ⟨r, h1, h2⟩ := M.bind_eq_ok.mp e
  cases h2
  exact commandsAdd_next h1 m.id (hv.2.2.1 m hm)

/-- A new command hides a file, but it is readable. -/
theorem file_add {i : NodeId} {fs : List FileDesc} (hc : W.NotCwd i) (hf : ∀ f ∈ fs, f.getData.isSome = true ∨ W.file? f.name = none) {a : Str} {f : FileDesc} {id : Nat}
    (h : W.file? a = some f) (hg : f.getData = some id) : ∃ f' id', (W.step (.addGroup i fs)).1.file? a = some f' ∧ f'.getData = some id' := by
  have hp : (W.step (.addGroup i fs)).1.path = W.path := World.path_eq (add_cwd hc)
  unfold World.file?
  rw [hp]
  have e : (W.step (.addGroup i fs)).1.groups.files = fs ++ W.groups.files := rfl
  rw [e, List.find?_append, Option.or_assoc]
  cases hx : fs.find? (fun f => f.name == a) with
  | none => exact ⟨f, id, h, hg⟩
  | some g =>
    have h1 : g.name = a := by simpa using List.find?_some hx
    rcases hf g (List.mem_of_find?_eq_some hx) with h2 | h2
    · obtain ⟨id', h3⟩ := Option.isSome_iff_exists.mp h2
      exact ⟨g, id', rfl, h3⟩
    · rw [h1, h] at h2; cases h2

theorem cost_filter (gs : Groups) (p : Group → Bool) : cost (gs.filter p) ≤ cost gs := by
  induction gs with
  | nil => exact Nat.le_refl _
  | cons g gs ih =>
    rw [List.filter_cons]
    split
    · rw [cost, cost]; omega
    · rw [cost]; omega

/-- Whatever is at work goes on after a change it does not mind. -/
theorem Live.change {o : FsOp} (H : WInv E u W) (ok : W.Ok E) (hs : Steady u (W.Bears u o) (W.BearsTab L u o)) (hv : W.Valid E o) (ok' : (W.step o).1.Ok E)
    (e : runApi E u o.api = .ok v) (H' : WInv E v (W.step o).1) (h : Live E L W u k (next u)) : ∃ j, Live E L (W.step o).1 v j (next v) := by
  have F := fsApi_frame o e
  have hp : HelpLive W u k → W.groups <:+ (W.step o).1.groups → ∃ j, HelpLive (W.step o).1 v j := fun h s => by
    have := h.more H.cmds H'.cmds s
    refine ⟨k, ?_⟩
    unfold HelpLive
    rw [show v.procNode = u.procNode by rw [F], show v.procItem = u.procItem by rw [F], show v.procIndex = u.procIndex by rw [F]]
    exact this
  cases o with
  | mount p i fs =>
    have M : p ≠ [] → W.NotCwd i → _ := fun h1 h2 => mount_more H ok hv h1 h2 e H'
    refine Live.map F hs (fun _ h => hp h (List.suffix_refl _)) ?_ ?_ ?_ h
    · rintro s ⟨h1, h2⟩ h
      have M := M h1 h2
      refine ⟨_, h.grow F H' (fun m hm _ => dirs_more M.cwd M.mem hm) (fun m hm _ => mount_under ?_)⟩
      rcases mem_dirs.mp hm with hm | hm
      · exact hv.2.2.2.1 m hm
      · exact h2 m hm
    · rintro s ⟨h1, h2⟩ h
      have M := M h1 h2
      exact ⟨_, h.more F (fun a f id h1 h2 => ⟨f, id, file_more (W := W) H' ok' rfl M.cwd M.mem h1, h2⟩)⟩
    · rintro ⟨h1, h2, h3⟩ s hs h
      have M := M h1 h2
      refine h.tabMore M (fun n hn => ?_) hs
      unfold World.tabNames at hn ⊢
      rw [M.cwd] at hn
      rcases List.mem_append.mp hn with hn | hn
      · exact .inl (List.mem_append_left _ hn)
      · obtain ⟨m, hm, rfl⟩ := List.mem_map.mp hn
        rcases mount_fst_mem hm with hm | rfl
        · exact .inl (List.mem_append_right _ (List.mem_map_of_mem hm))
        · exact .inr h3
  | unmount q =>
    refine Live.map F hs (fun _ h => hp h (List.suffix_refl _)) ?_ (fun _ h => h.elim) (fun h => h.elim) h
    intro s hq h
    have et : (W.step (.unmount q)).1.tree = (W.tree.unmount q).1 := rfl
    unfold Tree.unmount at et
    cases hf : W.tree.findText q with
    | none =>
      rw [hf] at et
      exact ⟨_, h.grow F H' (fun m hm _ => mem_dirs.mpr (by rw [et]; exact mem_dirs.mp hm)) (fun m hm _ => by rw [et]; exact List.suffix_refl _)⟩
    | some x =>
      obtain ⟨q1, q2⟩ := hq x hf
      rw [hf] at et
      simp only at et
      split at et
      · exact ⟨_, h.grow F H' (fun m hm _ => mem_dirs.mpr (by rw [et]; exact mem_dirs.mp hm)) (fun m hm _ => by rw [et]; exact List.suffix_refl _)⟩
      · have hx : x ∈ W.tree := List.mem_of_find?_eq_some hf
        have keep : ∀ m ∈ W.tree, m.id ≠ x.id → m ∈ (W.step (.unmount q)).1.tree := fun m hm hne => by
          rw [et]
          exact List.mem_filter.mpr ⟨hm, by simpa using fun h => hne (by rw [path_inj H.tree.nodupPath hm hx h])⟩
        refine ⟨_, h.more F H' (fun m hm hn => ?_) (fun m hm hn ms h1 h2 => ?_)⟩
        · exact mem_dirs.mpr ((mem_dirs.mp hm).imp (fun h => keep m h (fun e => q1 (hn.trans (by rw [e])))) id)
        · cases ms with
          | nil => exact ⟨[], List.nil_suffix, rfl⟩
          | cons c ms =>
            have hc := (under_mem (h1.subset (List.mem_cons_self (a := c) (l := ms)))).1
            have hm' : m ∈ W.tree := by
              by_contra hm'
              unfold Tree.under at h1
              rw [if_neg hm'] at h1
              cases List.suffix_nil.mp h1
            have hmk := keep m hm' (fun e => q1 (hn.trans (by rw [e])))
            refine ⟨(c :: ms).filter (fun y => y.path != x.path), ?_, ?_⟩
            · rw [under_eq hmk, et]
              rw [under_eq hm'] at h1
              have := h1.filter (fun y => y.path != x.path)
              unfold Tree.kids at this ⊢
              rw [List.filter_filter] at this ⊢
              simpa only [Bool.and_comm] using this
            · have hne : (c.path != x.path) = true := by
                simp only [bne_iff_ne, ne_eq]
                intro e
                exact q2 (h2.trans (by rw [← path_inj H.tree.nodupPath hc hx e]; rfl))
              rw [List.filter_cons_of_pos (by simpa using hne)]
              rfl
  | cd a c s =>
    have eg : (W.step (.cd a c s)).1.groups = W.groups := by
      simp only [World.step]
      split
      · rfl
      · split <;> rfl
    have et : (W.step (.cd a c s)).1.tree = W.tree := by
      simp only [World.step]
      split
      · rfl
      · split <;> rfl
    refine Live.map F hs (fun _ h => hp h (by rw [eg]; exact List.suffix_refl _)) ?_ (fun _ h => h.elim) (fun h => h.elim) h
    intro s hm h
    refine ⟨_, h.grow F H' (fun m hd hn => ?_) (fun m hm _ => by rw [et]; exact List.suffix_refl _)⟩
    refine mem_dirs_of_tree ?_
    rw [et]
    exact (mem_dirs.mp hd).elim id (fun h => (hm m h).elim id (fun h => absurd hn h))
  | addGroup i fs =>
    have M : W.NotCwd i → _ := fun h2 => add_more H ok hv h2 e H'
    refine Live.map F hs (fun _ h => hp h (List.suffix_cons _ _)) ?_ ?_ ?_ h
    · intro s h2 h
      have M := M h2
      exact ⟨_, h.grow F H' (fun m hm _ => dirs_more M.cwd M.mem hm) (fun m hm _ => List.suffix_refl _)⟩
    · rintro s ⟨h1, h2⟩ h
      exact ⟨_, h.more F (fun a f id h3 h4 => file_add h1 h2 h3 h4)⟩
    · rintro ⟨h1, h2⟩ s hs h
      have M := M h1
      refine h.tabMore M (fun n hn => ?_) hs
      unfold World.tabNames at hn ⊢
      rw [M.cwd] at hn
      rcases List.mem_append.mp hn with hn | hn
      · rcases List.mem_append.mp hn with hn | hn
        · rw [show (W.step (.addGroup i fs)).1.groups.files = fs ++ W.groups.files from rfl, List.map_append] at hn
          rcases List.mem_append.mp hn with hn | hn
          · obtain ⟨f, hf, rfl⟩ := List.mem_map.mp hn
            exact .inr (h2 f hf)
          · exact .inl (List.mem_append_left _ (List.mem_append_left _ hn))
        · exact .inl (List.mem_append_left _ (List.mem_append_right _ hn))
      · exact .inl (List.mem_append_right _ hn)
  | removeGroup i =>
    refine Live.map F hs ?_ (fun s _ h => ⟨_, LsLive.grow (W := W) F H' (fun m hm _ => hm) (fun m hm _ => List.suffix_refl _) h⟩) (fun _ h => h.elim) (fun h => h.elim) h
    intro hi h
    have eg : (W.step (.removeGroup i)).1.groups = (W.groups.remove i).1 := rfl
    unfold Groups.remove at eg
    split at eg
    · obtain ⟨gs, h1, h2, h3⟩ := h.at'
      have sfx : gs.filter (fun c => c.id != i) <:+ (W.step (.removeGroup i)).1.groups := by rw [eg]; exact h1.filter _
      refine ⟨k, ?_⟩
      unfold HelpLive
      rw [show v.procNode = u.procNode by rw [F], show v.procItem = u.procItem by rw [F], show v.procIndex = u.procIndex by rw [F]]
      have hd : (gs.filter (fun c => c.id != i)).map Group.id = [] ∧ gs = [] ∨ ∃ g gs', gs = g :: gs' ∧ gs.filter (fun c => c.id != i) = g :: gs'.filter (fun c => c.id != i) := by
        cases gs with
        | nil => exact .inl ⟨rfl, rfl⟩
        | cons g gs' =>
          refine .inr ⟨g, gs', rfl, List.filter_cons_of_pos ?_⟩
          simp only [bne_iff_ne, ne_eq]
          exact fun e => hi (h2.1.trans (by rw [e]))
      have hl : left (gs.filter (fun c => c.id != i)) u.procItem u.procIndex ≤ left gs u.procItem u.procIndex := by
        rcases hd with ⟨-, rfl⟩ | ⟨g, gs', rfl, e⟩
        · exact Nat.le_refl _
        · rw [e]
          have := cost_filter gs' (fun c => c.id != i)
          simp only [left]
          omega
      refine ⟨⟨_, sfx, ?_, by omega⟩, h.idx, fun hx => ?_⟩
      · have := siblings_suffix H'.cmds.chain (sfx.map Group.id)
        have hh : u.procNode = ((gs.filter (fun c => c.id != i)).map Group.id).head? := by
          rw [h2.head]
          rcases hd with ⟨-, rfl⟩ | ⟨g, gs', rfl, e⟩
          · rfl
          · rw [e]; rfl
        rw [hh]; exact this
      · obtain ⟨x, f, d, e1, e2, e3⟩ := h.desc hx
        refine ⟨x, f, d, e1, ?_, e3⟩
        rcases hd with ⟨-, rfl⟩ | ⟨g, gs', rfl, e⟩
        · exact absurd (e1.symm.trans h2) (by simp)
        · have e4 : x = g.id := Option.some.inj (e1.symm.trans h2.1)
          rw [e] at sfx
          rw [e4, H.cmds.files g (h1.subset (by simp))] at e2
          rw [e4, H'.cmds.files g (sfx.subset (by simp))]
          exact e2
    · exact hp h (by rw [eg]; exact List.suffix_refl _)

/-- `ush_node_set_current_dir` with any text. -/
theorem Live.changeDir {m : Option Mount} (H : WInv E u W) (hs : Steady u (W.Bears u (.cd true [] false)) False)
    (F : FsFrame u v) (H' : WInv E v { W with cwd := m }) (en : v.nodes = u.nodes) (ec : v.commands = u.commands) (h : Live E L W u k (next u)) : ∃ j, Live E L { W with cwd := m } v j (next v) := by
  refine Live.map F hs ?_ ?_ (fun _ h => h.elim) (fun h => h.elim) h
  · intro _ h
    have := h.more (v := v) (W' := { W with cwd := m }) H.cmds (H.cmds.congr ec (fun _ _ => by rw [en])) (List.suffix_refl _)
    refine ⟨k, ?_⟩
    unfold HelpLive
    rw [show v.procNode = u.procNode by rw [F], show v.procItem = u.procItem by rw [F], show v.procIndex = u.procIndex by rw [F]]
    exact this
  · intro s hm h
    exact ⟨_, h.grow F H' (fun x hd hn => mem_dirs_of_tree (W := { W with cwd := m }) ((mem_dirs (W := W).mp hd).elim id (fun h => (hm x h).elim id (fun h => absurd hn h))))
      (fun x hx _ => List.suffix_refl _)⟩

/-- A directory without files can be mounted at any time. -/
theorem Inv.mountBare {p : List Str} {i : NodeId} (I : Inv E L W k v) (hp : ∀ c ∈ p, GoodComp c) (hne : p ≠ []) (hl : (render p).length < E.pathMax)
    (fit : (fullText (render p) []).length + L ≤ E.pathMax) (hi : i < E.nodeCount) (unl : W.Unlinked i) (hc : v.current ≠ some i)
    (ht : Steady v (fun _ => True) (v.inPos + (dirName p).length < L)) : Allowed E L v (.mount (render p) i []) := by
  have nc : W.NotCwd i := fun m hm e => hc (by rw [(I.rep.cwd m hm).cur, e])
  have hcw := mount_cwd (fs := []) hne nc
  have hd : ∀ m ∈ (W.step (.mount p i [])).1.dirs, m ∈ W.dirs ∨ m = ⟨p, i, []⟩ := by
    intro m hm
    rcases mem_dirs.mp hm with hm | hm
    · exact (mount_fst_mem hm).imp mem_dirs_of_tree id
    · rw [hcw] at hm; exact .inl (mem_dirs.mpr (.inr hm))
  refine ⟨p, rfl, W, I.rep, I.ok, I.fits, ?_, ⟨hp, hl, hi, unl⟩, ⟨?_, ?_, ?_, ?_⟩, ⟨?_, ?_, ?_⟩⟩
  · have pl : ∀ s, ProcLive E L W v k s → ∀ f, v.procFile = some f → ∀ b, f.process = some (.builtin b) → W.Bears v (.mount p i []) b := by
      rintro s ⟨f, h1, h2⟩ g hg b hb
      cases h1.symm.trans hg
      rw [hb] at h2
      cases b <;> first | exact h2.elim | trivial
    have hlive := I.live
    unfold Steady at ht ⊢
    generalize next v = s at ht hlive
    cases s
    case processStart => exact pl _ hlive
    case processService => exact pl _ hlive
    case processFinish => exact pl _ hlive
    all_goals trivial
  · rw [hcw]; exact I.ok.cwd
  · intro m hm f hf
    rcases mount_fst_mem hm with hm | rfl
    · exact I.ok.names m hm f hf
    · cases hf
  · intro m hm f hf
    rcases hd m hm with hm | rfl
    · exact I.ok.treeTexts m hm f hf
    · cases hf
  · exact I.ok.cmdTexts
  · intro f hf
    refine I.fits.files f ?_
    unfold World.files at hf ⊢
    rcases List.mem_append.mp hf with hf | hf
    · exact List.mem_append_left _ hf
    · obtain ⟨m, hm, hf⟩ := List.mem_flatMap.mp hf
      rcases hd m hm with hm | rfl
      · exact List.mem_append_right _ (List.mem_flatMap.mpr ⟨m, hm, hf⟩)
      · cases hf
  · intro m hm
    rcases hd m hm with hm | rfl
    · exact I.fits.paths m hm
    · exact fit
  · exact I.fits.line

end Ush
