import Verif.Proof.Tree
/-!
# Mounting, unmounting and command registration refine the abstract operations
-/
namespace Ush
open Spec

/-- Changing nodes outside the tree (keeping `children` empty) preserves the tree. -/
theorem TreeInv.congr {E : Env} {u u' : Ush} {t : Tree} (H : TreeInv E u t) (hr : u'.root = u.root)
    (hn : ∀ m ∈ t, u'.nodes m.id = u.nodes m.id)
    (hf : ∀ i, (∀ m ∈ t, m.id ≠ i) → (u'.nodes i).children = none) : TreeInv E u' t where
  pathMax := H.pathMax
  good := H.good
  fits := H.fits
  nodupPath := H.nodupPath
  nodupId := H.nodupId
  idLt := H.idLt
  closed := H.closed
  root := by rw [hr, H.root]
  path := fun m hm => by rw [hn m hm]; exact H.path m hm
  files := fun m hm => by rw [hn m hm]; exact H.files m hm
  parent := fun m hm => by rw [hn m hm]; exact H.parent m hm
  kids := fun m hm => by
    rw [hn m hm]
    refine (H.kids m hm).congr ?_
    intro i hi
    obtain ⟨k, hk, rfl⟩ := List.mem_map.mp hi
    rw [hn k (mem_kids.mp hk).1]
  rootNext := fun m hm h => by rw [hn m hm]; exact H.rootNext m hm h
  free := hf

theorem pathUpper_render (p : List Str) (hp : ∀ c ∈ p, GoodComp c) :
    pathUpper (render p) = if p = [] then [] else render p.dropLast := by
  rcases List.eq_nil_or_concat p with rfl | ⟨l, c, rfl⟩
  · rfl
  · rw [List.concat_eq_append] at *
    rw [pathUpper_concat l c (hp c (by simp)), if_neg (by simp)]
    simp

theorem render_dropLast_length (p : List Str) : (render p.dropLast).length ≤ (render p).length := by
  rcases List.eq_nil_or_concat p with rfl | ⟨l, c, rfl⟩
  · simp
  · rw [List.concat_eq_append, List.dropLast_concat, render_concat]
    split
    · rename_i h; subst h; simp [render]
    · simp

theorem getParentByPath_render {E : Env} {u : Ush} {t : Tree} (H : TreeInv E u t) (p : List Str)
    (hp : ∀ c ∈ p, GoodComp c) (hfit : (render p).length < E.pathMax) :
    getParentByPath E u (render p) = .ok (if p = [] then none else (t.find p.dropLast).map Mount.id) := by
  unfold getParentByPath
  rw [pathUpper_render p hp]
  by_cases h : p = []
  · subst h; rfl
  · simp only [if_neg h]
    rw [if_neg (render_ne_nil _), getByPath_eq H _ (Nat.lt_of_le_of_lt (render_dropLast_length p) hfit)
      (render_ne_nil _), findText_render H _ (fun c hc => hp c (List.dropLast_subset _ hc))]

theorem kids_cons (m : Mount) (t : Tree) (q : List Str) :
    Tree.kids (m :: t) q = if m.path ≠ [] ∧ m.path.dropLast = q then m :: t.kids q else t.kids q := by
  unfold Tree.kids
  rw [List.filter_cons]
  simp [isKid]

theorem find_cons (m : Mount) (t : Tree) (q : List Str) :
    Tree.find (m :: t) q = if m.path = q then some m else t.find q := by
  unfold Tree.find
  rw [List.find?_cons]
  by_cases h : m.path = q
  · simp [h]
  · have : (m.path == q) = false := by simpa using h
    rw [this, if_neg h]

/-- A path that is not mounted has nothing below it. -/
theorem TreeInv.kids_of_not_mounted {E : Env} {u : Ush} {t : Tree} (H : TreeInv E u t) (p : List Str)
    (h : t.find p = none) : t.kids p = [] := by
  rw [List.eq_nil_iff_forall_not_mem]
  intro k hk
  obtain ⟨hkt, hk0, hkp⟩ := mem_kids.mp hk
  obtain ⟨m', hm', hp'⟩ := H.closed k hkt hk0
  exact find_eq_none.mp h m' hm' (by rw [hp', hkp])

/-- Linking a new directory below a mounted one. -/
theorem TreeInv.link {E : Env} {u u' : Ush} {t : Tree} (H : TreeInv E u t) (p : List Str) (id : NodeId)
    (files : List FileDesc) (P : Mount)
    (hp : ∀ c ∈ p, GoodComp c) (hfit : (render p).length < E.pathMax) (hid : id < E.nodeCount)
    (hfree : ∀ m ∈ t, m.id ≠ id) (hnew : t.find p = none) (hp0 : p ≠ []) (hP : P ∈ t) (hPp : P.path = p.dropLast)
    (hr : u'.root = u.root)
    (h1 : u'.nodes id = ⟨files, some (render p), some P.id, none, (u.nodes P.id).children⟩)
    (h2 : u'.nodes P.id = { u.nodes P.id with children := some id })
    (h3 : ∀ j, j ≠ id → j ≠ P.id → u'.nodes j = u.nodes j) : TreeInv E u' (⟨p, id, files⟩ :: t) := by
  have hpid : P.id ≠ id := hfree P hP
  have hself : p.dropLast ≠ p := by
    intro h; have := congrArg List.length h; simp at this
    have := List.length_pos_iff.mpr hp0; omega
  -- fields other than `children` of old nodes are unchanged
  have hold : ∀ m ∈ t, (u'.nodes m.id).path = (u.nodes m.id).path ∧ (u'.nodes m.id).files = (u.nodes m.id).files ∧
      (u'.nodes m.id).next = (u.nodes m.id).next ∧ (u'.nodes m.id).parent = (u.nodes m.id).parent ∧
      (m.path ≠ p.dropLast → (u'.nodes m.id).children = (u.nodes m.id).children) := by
    intro m hm
    by_cases hmP : m.id = P.id
    · have : m = P := id_inj H.nodupId hm hP hmP
      subst this
      rw [h2]
      exact ⟨rfl, rfl, rfl, rfl, fun h => absurd hPp h⟩
    · rw [h3 m.id (hfree m hm) hmP]
      exact ⟨rfl, rfl, rfl, rfl, fun _ => rfl⟩
  have hfind : ∀ q, q ≠ p → Tree.find (⟨p, id, files⟩ :: t) q = t.find q := by
    intro q hq; rw [find_cons, if_neg (fun h => hq h.symm)]
  have hchain : ∀ q, IsChain u.nodes (u.nodes P.id).children ((t.kids q).map Mount.id) →
      IsChain u'.nodes (u.nodes P.id).children ((t.kids q).map Mount.id) := by
    intro q h
    refine h.congr ?_
    intro i hi
    obtain ⟨k, hk, rfl⟩ := List.mem_map.mp hi
    exact (hold k (mem_kids.mp hk).1).2.2.1
  have hchain' : ∀ (m : Mount) q, m ∈ t → IsChain u.nodes (u.nodes m.id).children ((t.kids q).map Mount.id) →
      IsChain u'.nodes (u.nodes m.id).children ((t.kids q).map Mount.id) := by
    intro m q hm h
    refine h.congr ?_
    intro i hi
    obtain ⟨k, hk, rfl⟩ := List.mem_map.mp hi
    exact (hold k (mem_kids.mp hk).1).2.2.1
  constructor
  case pathMax => exact H.pathMax
  case good =>
    intro m hm
    rcases List.mem_cons.mp hm with rfl | hm
    · exact hp
    · exact H.good m hm
  case fits =>
    intro m hm
    rcases List.mem_cons.mp hm with rfl | hm
    · exact hfit
    · exact H.fits m hm
  case nodupPath =>
    rw [List.map_cons, List.nodup_cons]
    refine ⟨?_, H.nodupPath⟩
    intro h
    obtain ⟨m, hm, hmp⟩ := List.mem_map.mp h
    exact find_eq_none.mp hnew m hm hmp
  case nodupId =>
    rw [List.map_cons, List.nodup_cons]
    refine ⟨?_, H.nodupId⟩
    intro h
    obtain ⟨m, hm, hmp⟩ := List.mem_map.mp h
    exact hfree m hm hmp
  case idLt =>
    intro m hm
    rcases List.mem_cons.mp hm with rfl | hm
    · exact hid
    · exact H.idLt m hm
  case closed =>
    intro m hm h0
    rcases List.mem_cons.mp hm with rfl | hm
    · exact ⟨P, by simp [hP], hPp⟩
    · obtain ⟨m', hm', h'⟩ := H.closed m hm h0
      exact ⟨m', by simp [hm'], h'⟩
  case root => rw [hr, H.root, hfind [] (fun h => hp0 h.symm)]
  case path =>
    intro m hm
    rcases List.mem_cons.mp hm with rfl | hm
    · simp [h1]
    · rw [(hold m hm).1]; exact H.path m hm
  case files =>
    intro m hm
    rcases List.mem_cons.mp hm with rfl | hm
    · simp [h1]
    · rw [(hold m hm).2.1]; exact H.files m hm
  case parent =>
    intro m hm
    rcases List.mem_cons.mp hm with rfl | hm
    · simp only [h1, if_neg hp0]
      rw [hfind _ hself, (find_eq_some H.nodupPath).mpr ⟨hP, hPp⟩]
      rfl
    · rw [(hold m hm).2.2.2.1, H.parent m hm]
      by_cases hm0 : m.path = []
      · simp [hm0]
      · rw [if_neg hm0, if_neg hm0, hfind]
        obtain ⟨m', hm', h'⟩ := H.closed m hm hm0
        rw [← h']
        intro h
        exact find_eq_none.mp hnew m' hm' h
  case kids =>
    intro m hm
    rw [kids_cons]
    rcases List.mem_cons.mp hm with rfl | hm
    · simp only [h1]
      rw [if_neg (by rintro ⟨-, h⟩; exact hself h), H.kids_of_not_mounted p hnew]
      rfl
    · by_cases hmP : m.path = p.dropLast
      · have : m = P := path_inj H.nodupPath hm hP (by rw [hmP, hPp])
        subst this
        simp only
        rw [if_pos ⟨hp0, hmP.symm⟩, h2, List.map_cons]
        refine ⟨rfl, ?_⟩
        simp only [h1]
        exact hchain _ (H.kids m hm)
      · simp only
        rw [if_neg (by rintro ⟨-, h⟩; exact hmP h.symm), (hold m hm).2.2.2.2 hmP]
        exact hchain' m _ hm (H.kids m hm)
  case rootNext =>
    intro m hm h0
    rcases List.mem_cons.mp hm with rfl | hm
    · exact absurd h0 hp0
    · rw [(hold m hm).2.2.1]; exact H.rootNext m hm h0
  case free =>
    intro i hi
    have hi1 : i ≠ id := fun h => hi ⟨p, id, files⟩ (by simp) h.symm
    have hi2 : ∀ m ∈ t, m.id ≠ i := fun m hm => hi m (by simp [hm])
    rw [h3 i hi1 (fun h => hi2 P hP h.symm)]
    exact H.free i hi2

/-- What mounting may change of the shell object. -/
def mountFrame (u u' : Ush) : Prop :=
  ∃ nodes root current, u' = { u with nodes := nodes, root := root, current := current }

/-- `ush_node_mount` refines the abstract mount. -/
theorem nodeMount_sim {E : Env} {u : Ush} {t : Tree} (H : TreeInv E u t) (p : List Str) (id : NodeId)
    (files : List FileDesc) (hp : ∀ c ∈ p, GoodComp c) (hfit : (render p).length < E.pathMax)
    (hid : id < E.nodeCount) (hfree : ∀ m ∈ t, m.id ≠ id) :
    ∃ nodes root current, nodeMount E u (render p) id files =
        .ok ({ u with nodes := nodes, root := root, current := current }, (t.mount p id files).2) ∧
      TreeInv E { u with nodes := nodes, root := root, current := current } (t.mount p id files).1 ∧
      (∀ i, (∀ m ∈ t, m.id ≠ i) → i ≠ id → nodes i = u.nodes i) ∧
      current = if (t.mount p id files).2 = .ok ∧ p = [] then some id else u.current := by
  unfold nodeMount
  generalize hu1 : ({ u with nodes := setNode u.nodes id { u.nodes id with files := files, path := some (render p) } } : Ush) = u1
  have hn1 : ∀ j, j ≠ id → u1.nodes j = u.nodes j := by
    intro j hj; rw [← hu1]; simp [setNode, hj]
  have hn1' : u1.nodes id = { u.nodes id with files := files, path := some (render p) } := by
    rw [← hu1]; simp [setNode]
  have hch : (u.nodes id).children = none := H.free id hfree
  have H1 : TreeInv E u1 t := by
    refine H.congr (by rw [← hu1]) (fun m hm => hn1 _ (hfree m hm)) ?_
    intro i hi
    by_cases hi' : i = id
    · subst hi'; rw [hn1']; exact hch
    · rw [hn1 i hi']; exact H.free i hi
  simp only
  rw [getByPath_eq H1 _ hfit (render_ne_nil _), findText_render H1 p hp]
  simp only [M.ok_bind]
  cases hf : t.find p with
  | some m =>
    simp only [Option.map_some, Tree.mount, hf, Option.isSome_some, if_true]
    refine ⟨u1.nodes, u.root, u.current, ?_, ?_, ?_, ?_⟩
    · simp [← hu1]
    · have : ({ u with nodes := u1.nodes, root := u.root, current := u.current } : Ush) = u1 := by simp [← hu1]
      rw [this]; exact H1
    · intro i _ hi; exact hn1 i hi
    · simp
  | none =>
    simp only [Option.map_none, Tree.mount, hf, Option.isSome_none, Bool.false_eq_true, if_false]
    rw [getParentByPath_render H1 p hp hfit]
    simp only [M.ok_bind]
    by_cases hp0 : p = []
    · -- mounting the root
      subst hp0
      have ht : t = [] := by
        by_contra hne
        obtain ⟨m, hm⟩ := List.exists_mem_of_ne_nil t hne
        have hall : ∀ n, ∀ m ∈ t, m.path.length ≤ n → ∃ r ∈ t, r.path = [] := by
          intro n
          induction n with
          | zero => intro m hm h; exact ⟨m, hm, List.eq_nil_of_length_eq_zero (by omega)⟩
          | succ n ih =>
            intro m hm h
            by_cases h0 : m.path = []
            · exact ⟨m, hm, h0⟩
            · obtain ⟨m', hm', hp'⟩ := H.closed m hm h0
              refine ih m' hm' ?_
              rw [hp']; simp; omega
        obtain ⟨r, hr', hrp⟩ := hall _ m hm (Nat.le_refl _)
        exact (find_eq_none.mp hf) r hr' hrp
      subst ht
      simp only [ne_eq, not_true_eq_false, false_and, if_false, if_true]
      rw [if_pos (by decide)]
      refine ⟨setNode u1.nodes id { u1.nodes id with next := none, parent := none }, some id, some id, ?_, ?_, ?_, ?_⟩
      · simp [← hu1]
      · constructor
        case pathMax => exact H.pathMax
        case good => simp
        case fits => intro m hm; rw [List.mem_singleton] at hm; subst hm; exact hfit
        case nodupPath => simp
        case nodupId => simp
        case idLt => intro m hm; rw [List.mem_singleton] at hm; subst hm; exact hid
        case closed => intro m hm h; rw [List.mem_singleton] at hm; subst hm; exact absurd rfl h
        case root => rfl
        case path => intro m hm; rw [List.mem_singleton] at hm; subst hm; simp [setNode, hn1']
        case files => intro m hm; rw [List.mem_singleton] at hm; subst hm; simp [setNode, hn1']
        case parent => intro m hm; rw [List.mem_singleton] at hm; subst hm; simp [setNode]
        case kids =>
          intro m hm; rw [List.mem_singleton] at hm; subst hm
          rw [kids_cons]
          simp [setNode, hn1', hch, Tree.kids, IsChain]
        case rootNext => intro m hm _; rw [List.mem_singleton] at hm; subst hm; simp [setNode]
        case free =>
          intro i hi
          have hi1 : i ≠ id := fun h => hi ⟨[], id, files⟩ (by simp) h.symm
          simp only [setNode, if_neg hi1]
          rw [hn1 i hi1]
          exact H.free i (by simp)
      · intro i _ hi
        simp only [setNode, if_neg hi]
        exact hn1 i hi
      · simp
    · rw [if_neg hp0]
      cases hpar : t.find p.dropLast with
      | none =>
        simp only [Option.map_none, ne_eq, hp0, not_false_eq_true, and_self, if_true]
        rw [if_neg (render_ne_slash p hp hp0)]
        refine ⟨u1.nodes, u.root, u.current, ?_, ?_, ?_, ?_⟩
        · simp [← hu1]
        · have : ({ u with nodes := u1.nodes, root := u.root, current := u.current } : Ush) = u1 := by simp [← hu1]
          rw [this]; exact H1
        · intro i _ hi; exact hn1 i hi
        · simp
      | some P =>
        obtain ⟨hP, hPp⟩ := (find_eq_some H.nodupPath).mp hpar
        have hpid : P.id ≠ id := hfree P hP
        have hpid' : id ≠ P.id := fun h => hpid h.symm
        simp only [Option.map_some, ne_eq, hp0, not_false_eq_true, true_and, reduceCtorEq, if_false]
        generalize hN : (setNode _ id _ : NodeId → Node) = N
        have hN1 : N id = ⟨files, some (render p), some P.id, none, (u.nodes P.id).children⟩ := by
          rw [← hN]
          simp [setNode, hpid', hn1', hn1 P.id hpid, hch]
        have hN2 : N P.id = { u.nodes P.id with children := some id } := by
          rw [← hN]
          simp [setNode, hpid, hn1 P.id hpid]
        have hN3 : ∀ j, j ≠ id → j ≠ P.id → N j = u.nodes j := by
          intro j h1 h2
          rw [← hN]
          simp [setNode, h1, h2, hn1 j h1]
        refine ⟨N, u.root, u.current, ?_, ?_, ?_, ?_⟩
        · simp [← hu1]
        · exact H.link p id files P hp hfit hid hfree hf hp0 hP hPp rfl hN1 hN2 hN3
        · intro i hi1 hi2
          exact hN3 i hi2 (fun h => hi1 P hP h.symm)
        · simp

/-- Removing a leaf from the tree. -/
theorem TreeInv.unlink {E : Env} {u u' : Ush} {t : Tree} (H : TreeInv E u t) (m P : Mount) (hm : m ∈ t)
    (hm0 : m.path ≠ []) (hP : P ∈ t) (hPp : P.path = m.path.dropLast) (hleaf : t.kids m.path = [])
    (hr : u'.root = u.root)
    (hpath : ∀ i, (u'.nodes i).path = (u.nodes i).path) (hfiles : ∀ i, (u'.nodes i).files = (u.nodes i).files)
    (hparent : ∀ i, (u'.nodes i).parent = (u.nodes i).parent)
    (hchild : ∀ i, i ≠ P.id → (u'.nodes i).children = (u.nodes i).children)
    (hnext : ∀ k ∈ t, k.path.dropLast ≠ m.path.dropLast → (u'.nodes k.id).next = (u.nodes k.id).next)
    (hroot : ∀ k ∈ t, k.path = [] → (u'.nodes k.id).next = (u.nodes k.id).next)
    (hchain : IsChain u'.nodes (u'.nodes P.id).children (((t.kids P.path).map Mount.id).filter (· ≠ m.id))) :
    TreeInv E u' (List.filter (fun x => x.path != m.path) t) := by
  have hmem : ∀ x, x ∈ List.filter (fun x => x.path != m.path) t ↔ x ∈ t ∧ x.path ≠ m.path := by
    intro x; simp
  have hsub : List.Sublist (List.filter (fun x => x.path != m.path) t) t := List.filter_sublist
  have hfind : ∀ q, q ≠ m.path → Tree.find (List.filter (fun x => x.path != m.path) t) q = t.find q := by
    intro q hq
    unfold Tree.find
    rw [List.find?_filter]
    apply find?_congr'
    intro x _
    by_cases hx : x.path = q
    · simp [hx, hq]
    · have : (x.path == q) = false := by simpa using hx
      simp [this]
  have hkids : ∀ q, (Tree.kids (List.filter (fun x => x.path != m.path) t) q).map Mount.id =
      ((t.kids q).map Mount.id).filter (· ≠ m.id) := by
    intro q
    unfold Tree.kids
    rw [List.filter_map, List.filter_filter, List.filter_filter]
    congr 1
    apply List.filter_congr
    intro x hx
    have : x.path = m.path ↔ x.id = m.id :=
      ⟨fun h => by rw [path_inj H.nodupPath hx hm h], fun h => by rw [id_inj H.nodupId hx hm h]⟩
    simp only [Function.comp, bne, Bool.and_comm]
    by_cases h : x.path = m.path
    · simp [h, this.mp h]
    · have h' : ¬ x.id = m.id := fun h' => h (this.mpr h')
      simp [h, h']
  have hkids' : ∀ q, q ≠ P.path → ((t.kids q).map Mount.id).filter (· ≠ m.id) = (t.kids q).map Mount.id := by
    intro q hq
    apply List.filter_eq_self.mpr
    intro i hi
    obtain ⟨k, hk, rfl⟩ := List.mem_map.mp hi
    simp only [ne_eq, decide_eq_true_eq]
    intro h
    have : k = m := id_inj H.nodupId (mem_kids.mp hk).1 hm h
    subst this
    exact hq (by rw [hPp]; exact (mem_kids.mp hk).2.2.symm)
  constructor
  case pathMax => exact H.pathMax
  case good => intro x hx; exact H.good x ((hmem x).mp hx).1
  case fits => intro x hx; exact H.fits x ((hmem x).mp hx).1
  case nodupPath => exact (hsub.map Mount.path).nodup H.nodupPath
  case nodupId => exact (hsub.map Mount.id).nodup H.nodupId
  case idLt => intro x hx; exact H.idLt x ((hmem x).mp hx).1
  case closed =>
    intro x hx h0
    obtain ⟨hxt, hxm⟩ := (hmem x).mp hx
    obtain ⟨m', hm', h'⟩ := H.closed x hxt h0
    refine ⟨m', (hmem m').mpr ⟨hm', ?_⟩, h'⟩
    intro he
    have : x ∈ t.kids m.path := mem_kids.mpr ⟨hxt, h0, by rw [← h', he]⟩
    rw [hleaf] at this
    cases this
  case root => rw [hr, H.root, hfind [] (fun h => hm0 h.symm)]
  case path => intro x hx; rw [hpath]; exact H.path x ((hmem x).mp hx).1
  case files => intro x hx; rw [hfiles]; exact H.files x ((hmem x).mp hx).1
  case parent =>
    intro x hx
    obtain ⟨hxt, hxm⟩ := (hmem x).mp hx
    rw [hparent, H.parent x hxt]
    by_cases h0 : x.path = []
    · simp [h0]
    · rw [if_neg h0, if_neg h0, hfind]
      intro he
      have : x ∈ t.kids m.path := mem_kids.mpr ⟨hxt, h0, he⟩
      rw [hleaf] at this
      cases this
  case kids =>
    intro x hx
    obtain ⟨hxt, hxm⟩ := (hmem x).mp hx
    rw [hkids]
    by_cases hxP : x.path = P.path
    · have : x = P := path_inj H.nodupPath hxt hP hxP
      subst this
      exact hchain
    · rw [hkids' _ hxP, hchild _ (fun h => hxP (by rw [id_inj H.nodupId hxt hP h]))]
      refine (H.kids x hxt).congr ?_
      intro i hi
      obtain ⟨k, hk, rfl⟩ := List.mem_map.mp hi
      obtain ⟨hkt, hk0, hkp⟩ := mem_kids.mp hk
      apply hnext k hkt
      rw [hkp, ← hPp]
      exact hxP
  case rootNext =>
    intro x hx h0
    obtain ⟨hxt, hxm⟩ := (hmem x).mp hx
    rw [hroot x hxt h0]
    exact H.rootNext x hxt h0
  case free =>
    intro i hi
    by_cases him : i = m.id
    · subst him
      have hne : m.id ≠ P.id := by
        intro h
        have := id_inj H.nodupId hm hP h
        rw [← this] at hPp
        have h2 := congrArg List.length hPp
        simp at h2
        have := List.length_pos_iff.mpr hm0; omega
      rw [hchild _ hne]
      have := H.kids m hm
      rw [hleaf] at this
      exact this
    · have hi' : ∀ k ∈ t, k.id ≠ i := by
        intro k hk h
        by_cases hkm : k.path = m.path
        · exact him (by rw [← h, path_inj H.nodupPath hk hm hkm])
        · exact hi k ((hmem k).mpr ⟨hk, hkm⟩) h
      rw [hchild i (fun h => hi' P hP h.symm)]
      exact H.free i hi'

theorem findText_some {E : Env} {u : Ush} {t : Tree} (_ : TreeInv E u t) {q : Str} {m : Mount}
    (h : t.findText q = some m) : m ∈ t ∧ render m.path = q := by
  unfold Tree.findText at h
  exact ⟨List.mem_of_find?_eq_some h, by simpa using List.find?_some h⟩

/-- `ush_node_unmount` refines the abstract unmount, for every path text. -/
theorem nodeUnmount_sim {E : Env} {u : Ush} {t : Tree} (H : TreeInv E u t) (q : Str) (hq : q.length < E.pathMax)
    (hq1 : q ≠ []) :
    ∃ nodes root, nodeUnmount E u q = .ok ({ u with nodes := nodes, root := root }, (t.unmount q).2) ∧
      TreeInv E { u with nodes := nodes, root := root } (t.unmount q).1 ∧
      (∀ i, (∀ m ∈ t, m.id ≠ i) → nodes i = u.nodes i) := by
  have hpar : ∃ r, getParentByPath E u q = .ok r := by
    unfold getParentByPath
    simp only
    split
    · exact ⟨_, rfl⟩
    · rename_i h
      refine ⟨_, getByPath_eq H _ ?_ h⟩
      have : (pathUpper q).length ≤ q.length := by
        have hl : ∀ k, (pathUpperLoop q k).length ≤ q.length := by
          intro k
          induction k with
          | zero => simp [pathUpperLoop]
          | succ k ih =>
            rw [pathUpperLoop]
            split
            · exact ih
            · split
              · simp; omega
              · simp; omega
        unfold pathUpper
        split
        · simp
        · exact hl _
      omega
  unfold nodeUnmount
  unfold Tree.unmount
  cases hft : t.findText q with
  | none =>
    obtain ⟨r, hr⟩ := hpar
    rw [hr, getByPath_eq H q hq hq1, hft]
    exact ⟨u.nodes, u.root, rfl, H, fun _ _ => rfl⟩
  | some m =>
    obtain ⟨hm, rfl⟩ := findText_some H hft
    rw [getParentByPath_render H m.path (H.good m hm) hq, getByPath_eq H _ hq hq1, hft]
    simp only [M.ok_bind, Option.map_some]
    have hchain := H.kids m hm
    by_cases hm0 : m.path = []
    · -- the root
      have hfr : t.find [] = some m := (find_eq_some H.nodupPath).mpr ⟨hm, hm0⟩
      have hroot : u.root = some m.id := by rw [H.root, hfr]; rfl
      rw [if_pos hm0, if_neg (by simp [hroot])]
      by_cases hk : t.kids m.path = []
      · rw [hk] at hchain
        have hc : (u.nodes m.id).children = none := hchain
        rw [if_neg (by simp [hc]), if_neg (by simp [hk])]
        refine ⟨u.nodes, none, rfl, ?_, fun _ _ => rfl⟩
        have ht : List.filter (fun x => x.path != m.path) t = [] := by
          rw [List.eq_nil_iff_forall_not_mem]
          intro x hx
          simp only [List.mem_filter, bne_iff_ne, ne_eq] at hx
          have hall : ∀ n, ∀ x ∈ t, x.path ≠ [] → x.path.length ≤ n → ∃ r, r ∈ t.kids [] := by
            intro n
            induction n with
            | zero => intro x hx h0 h; exact absurd (List.eq_nil_of_length_eq_zero (by omega)) h0
            | succ n ih =>
              intro x hx h0 h
              obtain ⟨m', hm', hp'⟩ := H.closed x hx h0
              by_cases h1 : m'.path = []
              · exact ⟨x, mem_kids.mpr ⟨hx, h0, by rw [← hp', h1]⟩⟩
              · exact ih m' hm' h1 (by rw [hp']; simp; omega)
          obtain ⟨r, hr⟩ := hall _ x hx.1 (by rw [hm0] at hx; exact hx.2) (Nat.le_refl _)
          rw [hm0] at hk
          rw [hk] at hr
          cases hr
        rw [ht]
        constructor
        case pathMax => exact H.pathMax
        case root => rfl
        case free =>
          intro i _
          by_cases hi : ∃ k ∈ t, k.id = i
          · obtain ⟨k, hk', rfl⟩ := hi
            have : k = m := by
              by_contra hne
              have : k ∈ List.filter (fun x => x.path != m.path) t := by
                simp only [List.mem_filter, bne_iff_ne, ne_eq]
                exact ⟨hk', fun h => hne (path_inj H.nodupPath hk' hm h)⟩
              rw [ht] at this
              cases this
            subst this
            exact hc
          · exact H.free i (fun k hk' h => hi ⟨k, hk', h⟩)
        all_goals simp
      · have hc : (u.nodes m.id).children ≠ none := by
          intro h; exact hk (by simpa using hchain.eq_none.mp h)
        rw [if_pos hc, if_pos hk]
        exact ⟨u.nodes, u.root, rfl, H, fun _ _ => rfl⟩
    · obtain ⟨P, hP, hPp⟩ := H.closed m hm hm0
      have hfP : t.find m.path.dropLast = some P := (find_eq_some H.nodupPath).mpr ⟨hP, hPp⟩
      rw [if_neg hm0, hfP]
      simp only [Option.map_some]
      rw [if_neg (by simp)]
      by_cases hk : t.kids m.path = []
      · have hc : (u.nodes m.id).children = none := by rw [hk] at hchain; exact hchain
        rw [if_neg (by simp [hc]), if_neg (by simp [hk])]
        have hPc := H.kids P hP
        have hmk : m.id ∈ (t.kids P.path).map Mount.id :=
          List.mem_map_of_mem (mem_kids.mpr ⟨hm, hm0, hPp.symm⟩)
        have hnd := kids_ids_nodup H.nodupId P.path
        rw [findPrev_mem u.nodes m.id _ _ none _ hPc (H.kids_length P.path), if_pos hmk]
        simp only [M.ok_bind, Option.or_none]
        have hPnk : ∀ k ∈ t, k.path.dropLast = m.path.dropLast → k.path ≠ [] → k.id ≠ P.id := by
          intro k hk' h1 h2 h3
          have := id_inj H.nodupId hk' hP h3
          subst this
          rw [← hPp] at h1
          have h4 := congrArg List.length h1
          simp at h4
          have := List.length_pos_iff.mpr h2; omega
        cases hq' : (((t.kids P.path).map Mount.id).takeWhile (· ≠ m.id)).getLast? with
        | none =>
          refine ⟨setNode u.nodes P.id { u.nodes P.id with children := (u.nodes m.id).next }, u.root, rfl, ?_, ?_⟩
          · refine H.unlink m P hm hm0 hP hPp hk rfl ?_ ?_ ?_ ?_ ?_ ?_ ?_
            · intro i; simp only [setNode]; split <;> simp_all
            · intro i; simp only [setNode]; split <;> simp_all
            · intro i; simp only [setNode]; split <;> simp_all
            · intro i hi; simp only [setNode, if_neg hi]
            · intro k _ _; simp only [setNode]; split <;> simp_all
            · intro k _ _; simp only [setNode]; split <;> simp_all
            · have h1 : IsChain u.nodes (u.nodes m.id).next (((t.kids P.path).map Mount.id).filter (· ≠ m.id)) :=
                hPc.remove_head m.id hnd hmk hq'
              have h2 : ((setNode u.nodes P.id { u.nodes P.id with children := (u.nodes m.id).next }) P.id).children =
                  (u.nodes m.id).next := by simp [setNode]
              simp only [h2]
              refine h1.congr ?_
              intro i _
              simp only [setNode]; split <;> simp_all
          · intro i hi
            simp only [setNode, if_neg (fun h : i = P.id => hi P hP h.symm)]
        | some r =>
          have hrmem : r ∈ (t.kids P.path).map Mount.id :=
            (List.takeWhile_sublist _).subset (List.mem_of_getLast? hq')
          obtain ⟨R, hR, rfl⟩ := List.mem_map.mp hrmem
          obtain ⟨hRt, hR0, hRp⟩ := mem_kids.mp hR
          have hRP : P.id ≠ R.id := fun h => hPnk R hRt (by rw [hRp, hPp]) hR0 h.symm
          refine ⟨setNode u.nodes R.id { u.nodes R.id with next := (u.nodes m.id).next }, u.root, rfl, ?_, ?_⟩
          · refine H.unlink m P hm hm0 hP hPp hk rfl ?_ ?_ ?_ ?_ ?_ ?_ ?_
            · intro i; simp only [setNode]; split <;> simp_all
            · intro i; simp only [setNode]; split <;> simp_all
            · intro i; simp only [setNode]; split <;> simp_all
            · intro i hi; simp only [setNode]; split <;> simp_all
            · intro k hk' hne
              have : k.id ≠ R.id := by
                intro h
                have := id_inj H.nodupId hk' hRt h
                subst this
                exact hne (by rw [hRp, hPp])
              simp only [setNode, if_neg this]
            · intro k hk' h0
              have : k.id ≠ R.id := by
                intro h
                have := id_inj H.nodupId hk' hRt h
                subst this
                exact hR0 h0
              simp only [setNode, if_neg this]
            · have h2 : ((setNode u.nodes R.id { u.nodes R.id with next := (u.nodes m.id).next }) P.id).children =
                  (u.nodes P.id).children := by simp [setNode, hRP]
              simp only [h2]
              exact hPc.remove m.id R.id hnd hmk hq'
          · intro i hi
            simp only [setNode, if_neg (fun h : i = R.id => hi R hRt h.symm)]
      · have hc : (u.nodes m.id).children ≠ none := by
          intro h; exact hk (by simpa using hchain.eq_none.mp h)
        rw [if_pos hc, if_pos hk]
        exact ⟨u.nodes, u.root, rfl, H, fun _ _ => rfl⟩

/-! ## Command groups -/

theorem CmdInv.congr {E : Env} {u u' : Ush} {g : Groups} (H : CmdInv E u g) (hc : u'.commands = u.commands)
    (hn : ∀ c ∈ g, u'.nodes c.id = u.nodes c.id) : CmdInv E u' g where
  nodupId := H.nodupId
  idLt := H.idLt
  chain := by
    rw [hc]
    refine H.chain.congr ?_
    intro i hi
    obtain ⟨c, hc', rfl⟩ := List.mem_map.mp hi
    rw [hn c hc']
  files := fun c h => by rw [hn c h]; exact H.files c h
  path := fun c h => by rw [hn c h]; exact H.path c h

/-- Adding a group. -/
theorem commandsAdd_sim {E : Env} {u : Ush} {g : Groups} (H : CmdInv E u g) (id : NodeId) (files : List FileDesc)
    (hf : files ≠ []) (hid : id < E.nodeCount) (hfree : ∀ c ∈ g, c.id ≠ id) :
    ∃ nodes, commandsAdd u id files = .ok ({ u with nodes := nodes, commands := some id }, .ok) ∧
      CmdInv E { u with nodes := nodes, commands := some id } (⟨id, files⟩ :: g) ∧
      (∀ i, i ≠ id → nodes i = u.nodes i) ∧ (nodes id).children = (u.nodes id).children := by
  unfold commandsAdd
  have : decide (files.length > 0) = true := by
    simpa using List.length_pos_iff.mpr hf
  rw [this]
  refine ⟨setNode u.nodes id { u.nodes id with files := files, path := none, next := u.commands }, rfl, ?_, ?_, ?_⟩
  · constructor
    · rw [List.map_cons, List.nodup_cons]
      refine ⟨?_, H.nodupId⟩
      intro h
      obtain ⟨c, hc, h'⟩ := List.mem_map.mp h
      exact hfree c hc h'
    · intro c hc
      rcases List.mem_cons.mp hc with rfl | hc
      · exact hid
      · exact H.idLt c hc
    · refine ⟨rfl, ?_⟩
      show IsChain _ (setNode _ _ _ id).next _
      simp only [setNode, if_true]
      refine H.chain.congr ?_
      intro i hi
      obtain ⟨c, hc', rfl⟩ := List.mem_map.mp hi
      simp [setNode, hfree c hc']
    · intro c hc
      rcases List.mem_cons.mp hc with rfl | hc
      · simp [setNode]
      · simp only [setNode, if_neg (hfree c hc)]; exact H.files c hc
    · intro c hc
      rcases List.mem_cons.mp hc with rfl | hc
      · simp [setNode]
      · simp only [setNode, if_neg (hfree c hc)]; exact H.path c hc
  · intro i hi; simp [setNode, hi]
  · simp [setNode]

/-- Abstract removal of a group. -/
def removeGroup (g : Groups) (id : NodeId) : Groups × Status :=
  if id ∈ g.map Group.id then (g.filter (fun c => c.id != id), .ok) else (g, .nodeNotFound)

theorem commandsRemove_sim {E : Env} {u : Ush} {g : Groups} (H : CmdInv E u g) (id : NodeId) :
    ∃ nodes cmds, commandsRemove E u id = .ok ({ u with nodes := nodes, commands := cmds }, (removeGroup g id).2) ∧
      CmdInv E { u with nodes := nodes, commands := cmds } (removeGroup g id).1 ∧
      (∀ i, (∀ c ∈ g, c.id ≠ i) → nodes i = u.nodes i) ∧ (∀ i, (nodes i).children = (u.nodes i).children) := by
  unfold commandsRemove removeGroup
  have hlen : (g.map Group.id).length ≤ E.nodeCount := by
    apply nodup_lt_length H.nodupId
    intro i hi
    obtain ⟨c, hc, rfl⟩ := List.mem_map.mp hi
    exact H.idLt c hc
  rw [findPrev_mem u.nodes id _ _ none _ H.chain hlen]
  by_cases hin : id ∈ g.map Group.id
  · rw [if_pos hin, if_pos hin]
    simp only [M.ok_bind, Option.or_none]
    have hmap : (g.filter (fun c => c.id != id)).map Group.id = (g.map Group.id).filter (· ≠ id) := by
      rw [List.filter_map]
      congr 1
      apply List.filter_congr
      intro c _
      simp only [bne, Function.comp, ne_eq, decide_not]
      rfl
    cases hq : ((g.map Group.id).takeWhile (· ≠ id)).getLast? with
    | none =>
      refine ⟨u.nodes, (u.nodes id).next, rfl, ?_, fun _ _ => rfl, fun _ => rfl⟩
      constructor
      · exact (List.filter_sublist.map Group.id).nodup H.nodupId
      · intro c hc; exact H.idLt c (List.mem_filter.mp hc).1
      · rw [hmap]; exact H.chain.remove_head id H.nodupId hin hq
      · intro c hc; exact H.files c (List.mem_filter.mp hc).1
      · intro c hc; exact H.path c (List.mem_filter.mp hc).1
    | some r =>
      have hrmem : r ∈ g.map Group.id := (List.takeWhile_sublist _).subset (List.mem_of_getLast? hq)
      refine ⟨setNode u.nodes r { u.nodes r with next := (u.nodes id).next }, u.commands, rfl, ?_, ?_, ?_⟩
      · constructor
        · exact (List.filter_sublist.map Group.id).nodup H.nodupId
        · intro c hc; exact H.idLt c (List.mem_filter.mp hc).1
        · rw [hmap]; exact H.chain.remove id r H.nodupId hin hq
        · intro c hc
          simp only [setNode]
          split
          · rename_i h; rw [← h]; exact H.files c (List.mem_filter.mp hc).1
          · exact H.files c (List.mem_filter.mp hc).1
        · intro c hc
          simp only [setNode]
          split
          · rename_i h; rw [← h]; exact H.path c (List.mem_filter.mp hc).1
          · exact H.path c (List.mem_filter.mp hc).1
      · intro i hi
        obtain ⟨c, hc, rfl⟩ := List.mem_map.mp hrmem
        simp only [setNode, if_neg (fun h : i = c.id => hi c hc h.symm)]
      · intro i; simp only [setNode]; split <;> simp_all
  · rw [if_neg hin, if_neg hin]
    exact ⟨u.nodes, u.commands, rfl, H, fun _ _ => rfl, fun _ => rfl⟩

end Ush
