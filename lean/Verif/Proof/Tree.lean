import Verif.Proof.PathFns
import Verif.Spec.Tree
import Mathlib.Data.List.Nodup
import Mathlib.Data.List.Perm.Subperm
/-!
# The pointer structure of the node objects represents the abstract tree
-/
namespace Ush
open Spec

/-! ## Rendering is injective -/

theorem append_chunks_inj (c d : Str) (cs ds : List Str) (hc : cSlash ∉ c) (hd : cSlash ∉ d)
    (h : c ++ chunks cs = d ++ chunks ds) : c = d ∧ chunks cs = chunks ds := by
  have tw : ∀ (c : Str) (cs : List Str), cSlash ∉ c → (c ++ chunks cs).takeWhile (· ≠ cSlash) = c := by
    intro c cs hc
    have h1 : ∀ a ∈ c, (decide (a ≠ cSlash)) = true := by
      intro a ha; simp only [decide_eq_true_eq]; rintro rfl; exact hc ha
    rw [List.takeWhile_append_of_pos h1]
    cases cs with
    | nil => simp
    | cons x xs => simp
  have e : c = d := by rw [← tw c cs hc, h, tw d ds hd]
  subst e
  exact ⟨rfl, List.append_cancel_left h⟩

theorem chunks_inj : ∀ (cs ds : List Str), (∀ c ∈ cs, GoodComp c) → (∀ c ∈ ds, GoodComp c) →
    chunks cs = chunks ds → cs = ds := by
  intro cs
  induction cs with
  | nil =>
    intro ds _ _ h
    cases ds with
    | nil => rfl
    | cons d ds => simp at h
  | cons c cs ih =>
    intro ds hc hd h
    cases ds with
    | nil => simp at h
    | cons d ds =>
      simp only [chunks_cons, List.cons_append, List.cons.injEq, true_and] at h
      obtain ⟨e, h⟩ := append_chunks_inj c d cs ds (hc c (by simp)).2.1 (hd d (by simp)).2.1 h
      rw [e, ih ds (fun c h' => hc c (by simp [h'])) (fun c h' => hd c (by simp [h'])) h]

theorem render_inj (cs ds : List Str) (hc : ∀ c ∈ cs, GoodComp c) (hd : ∀ c ∈ ds, GoodComp c)
    (h : render cs = render ds) : cs = ds := by
  by_cases h1 : cs = []
  · by_cases h2 : ds = []
    · rw [h1, h2]
    · subst h1; exact absurd h.symm (render_ne_slash ds hd h2)
  · by_cases h2 : ds = []
    · subst h2; exact absurd h (render_ne_slash cs hc h1)
    · rw [render_ne _ h1, render_ne _ h2] at h
      exact chunks_inj cs ds hc hd h

theorem render_ne_nil (cs : List Str) : render cs ≠ [] := by
  have := render_length_pos cs
  intro h; rw [h] at this; simp at this

/-! ## Chains -/

/-- The `next` list starting at `s` consists of exactly the nodes `ids`. -/
def IsChain (nodes : NodeId → Node) : Option NodeId → List NodeId → Prop
  | s, [] => s = none
  | s, i :: is => s = some i ∧ IsChain nodes (nodes i).next is

theorem IsChain.congr {nodes nodes' : NodeId → Node} : ∀ {s : Option NodeId} {is : List NodeId},
    IsChain nodes s is → (∀ i ∈ is, (nodes' i).next = (nodes i).next) → IsChain nodes' s is := by
  intro s is
  induction is generalizing s with
  | nil => intro h _; exact h
  | cons i is ih =>
    intro h hn
    refine ⟨h.1, ?_⟩
    rw [hn i (by simp)]
    exact ih h.2 (fun j hj => hn j (by simp [hj]))

theorem IsChain.head {nodes : NodeId → Node} {s : Option NodeId} {is : List NodeId} (h : IsChain nodes s is) :
    s = is.head? := by
  cases is with
  | nil => exact h
  | cons i is => exact h.1

theorem IsChain.eq_none {nodes : NodeId → Node} {s : Option NodeId} {is : List NodeId} (h : IsChain nodes s is) :
    s = none ↔ is = [] := by
  rw [h.head]; simp

/-- Searching a chain for a path. -/
theorem findPath_chain (nodes : NodeId → Node) (lp : Str) (txt : NodeId → Str) :
    ∀ (is : List NodeId) (fuel : Nat) (s : Option NodeId), IsChain nodes s is → is.length ≤ fuel →
    (∀ i ∈ is, (nodes i).path = some (txt i)) →
    findPath nodes lp fuel s = .ok (is.find? (fun i => txt i == lp)) := by
  intro is
  induction is with
  | nil => intro fuel s h _ _; cases h; cases fuel <;> rfl
  | cons i is ih =>
    intro fuel s h hf hp
    obtain ⟨rfl, h⟩ := h
    simp only [List.length_cons] at hf
    obtain ⟨fuel, rfl⟩ : ∃ k, fuel = k + 1 := ⟨fuel - 1, by omega⟩
    rw [findPath, hp i (by simp)]
    simp only [List.find?_cons]
    by_cases he : txt i = lp
    · simp [he]
    · rw [if_neg he]
      have : (txt i == lp) = false := by simpa using he
      rw [this]
      exact ih fuel _ h (by omega) (fun j hj => hp j (by simp [hj]))

/-- Position of a node in a chain: the previous node. -/
theorem findPrev_mem (nodes : NodeId → Node) (x : NodeId) : ∀ (is : List NodeId) (fuel : Nat) (prev s : Option NodeId),
    IsChain nodes s is → is.length ≤ fuel →
    findPrev nodes x fuel prev s =
      .ok (if x ∈ is then some ((is.takeWhile (· ≠ x)).getLast?.or prev) else none) := by
  intro is
  induction is with
  | nil => intro fuel prev s h _; cases h; cases fuel <;> rfl
  | cons i is ih =>
    intro fuel prev s h hf
    obtain ⟨rfl, h⟩ := h
    simp only [List.length_cons] at hf
    obtain ⟨fuel, rfl⟩ : ∃ k, fuel = k + 1 := ⟨fuel - 1, by omega⟩
    rw [findPrev]
    by_cases he : i = x
    · subst he
      simp
    · rw [if_pos he, ih fuel _ _ h (by omega)]
      have hm : (x ∈ i :: is) = (x ∈ is) := by
        simp only [List.mem_cons, eq_iff_iff, or_iff_right_iff_imp]
        intro h; exact absurd h.symm he
      simp only [hm]
      split
      · rw [List.takeWhile_cons_of_pos (by simpa using he)]
        congr 2
        cases (is.takeWhile (· ≠ x)) with
        | nil => simp
        | cons y ys => 
          rw [List.getLast?_cons_cons]
          simp [List.getLast?_cons]
      · rfl

/-- Removing a node from a chain: unlink it from its predecessor. -/
theorem IsChain.remove {nodes : NodeId → Node} (x q : NodeId) : ∀ {is : List NodeId} {s : Option NodeId},
    IsChain nodes s is → is.Nodup → x ∈ is → (is.takeWhile (· ≠ x)).getLast? = some q →
    IsChain (setNode nodes q { nodes q with next := (nodes x).next }) s (is.filter (· ≠ x)) := by
  intro is
  induction is with
  | nil => intro s _ _ h; cases h
  | cons i is ih =>
    intro s h hnd hx hq
    obtain ⟨rfl, h⟩ := h
    have hnd' := List.nodup_cons.mp hnd
    by_cases he : i = x
    · subst he; simp at hq
    · rw [List.takeWhile_cons_of_pos (by simpa using he)] at hq
      rw [List.filter_cons_of_pos (by simpa using he)]
      have hx' : x ∈ is := by
        rcases List.mem_cons.mp hx with h | h
        · exact absurd h.symm he
        · exact h
      refine ⟨rfl, ?_⟩
      cases is with
      | nil => cases hx'
      | cons j is =>
        by_cases hj : j = x
        · subst hj
          have : q = i := by simpa using hq.symm
          subst this
          have e : ((setNode nodes q { nodes q with next := (nodes j).next }) q).next = (nodes j).next := by
            simp [setNode]
          rw [e]
          have hnj := (List.nodup_cons.mp hnd'.2).1
          have hfe : (j :: is).filter (· ≠ j) = is := by
            rw [List.filter_cons_of_neg (by simp)]
            apply List.filter_eq_self.mpr
            intro a ha
            simp only [ne_eq, decide_eq_true_eq]
            rintro rfl; exact hnj ha
          rw [hfe]
          refine h.2.congr ?_
          intro k hk
          have : k ≠ q := by
            rintro rfl; exact hnd'.1 (by simp [hk])
          simp [setNode, this]
        · have hq' : ((j :: is).takeWhile (· ≠ x)).getLast? = some q := by
            rw [List.takeWhile_cons_of_pos (by simpa using hj)] at hq ⊢
            rwa [List.getLast?_cons_cons] at hq
          have hqi : i ≠ q := by
            rintro rfl
            have := List.mem_of_getLast? hq'
            exact hnd'.1 ((List.takeWhile_sublist _).subset this)
          have e : ((setNode nodes q { nodes q with next := (nodes x).next }) i).next = (nodes i).next := by
            simp [setNode, hqi]
          rw [e]
          exact ih h hnd'.2 hx' hq'

/-- Removing the head of a chain. -/
theorem IsChain.remove_head {nodes : NodeId → Node} (x : NodeId) {is : List NodeId} {s : Option NodeId}
    (h : IsChain nodes s is) (hnd : is.Nodup) (hx : x ∈ is) (hq : (is.takeWhile (· ≠ x)).getLast? = none) :
    IsChain nodes (nodes x).next (is.filter (· ≠ x)) := by
  cases is with
  | nil => cases hx
  | cons i is =>
    by_cases he : i = x
    · subst he
      rw [List.filter_cons_of_neg (by simp)]
      have hnd' := List.nodup_cons.mp hnd
      rw [List.filter_eq_self.mpr]
      · exact h.2
      · intro a ha
        simp only [ne_eq, decide_eq_true_eq]
        rintro rfl; exact hnd'.1 ha
    · rw [List.takeWhile_cons_of_pos (by simpa using he)] at hq
      simp at hq

/-! ## The tree invariant -/

/-- The node objects represent the tree `t`. -/
structure TreeInv (E : Env) (u : Ush) (t : Tree) : Prop where
  pathMax : 0 < E.pathMax
  good : ∀ m ∈ t, ∀ c ∈ m.path, GoodComp c
  fits : ∀ m ∈ t, (render m.path).length < E.pathMax
  nodupPath : (t.map Mount.path).Nodup
  nodupId : (t.map Mount.id).Nodup
  idLt : ∀ m ∈ t, m.id < E.nodeCount
  closed : ∀ m ∈ t, m.path ≠ [] → ∃ m' ∈ t, m'.path = m.path.dropLast
  root : u.root = (t.find []).map Mount.id
  path : ∀ m ∈ t, (u.nodes m.id).path = some (render m.path)
  files : ∀ m ∈ t, (u.nodes m.id).files = m.files
  parent : ∀ m ∈ t, (u.nodes m.id).parent = if m.path = [] then none else (t.find m.path.dropLast).map Mount.id
  kids : ∀ m ∈ t, IsChain u.nodes (u.nodes m.id).children ((t.kids m.path).map Mount.id)
  rootNext : ∀ m ∈ t, m.path = [] → (u.nodes m.id).next = none
  free : ∀ i, (∀ m ∈ t, m.id ≠ i) → (u.nodes i).children = none

/-- The node objects represent the command groups `g`. -/
structure CmdInv (E : Env) (u : Ush) (g : Groups) : Prop where
  nodupId : (g.map Group.id).Nodup
  idLt : ∀ c ∈ g, c.id < E.nodeCount
  chain : IsChain u.nodes u.commands (g.map Group.id)
  files : ∀ c ∈ g, (u.nodes c.id).files = c.files
  path : ∀ c ∈ g, (u.nodes c.id).path = none

theorem nodup_lt_length {l : List Nat} {n : Nat} (h : l.Nodup) (hl : ∀ i ∈ l, i < n) : l.length ≤ n := by
  have : l ⊆ List.range n := fun i hi => List.mem_range.mpr (hl i hi)
  have := (h.subperm this).length_le
  simpa using this

theorem find_eq_some {t : Tree} {p : List Str} {m : Mount} (hnd : (t.map Mount.path).Nodup) :
    t.find p = some m ↔ m ∈ t ∧ m.path = p := by
  unfold Tree.find
  constructor
  · intro h
    exact ⟨List.mem_of_find?_eq_some h, by simpa using List.find?_some h⟩
  · rintro ⟨hm, rfl⟩
    induction t with
    | nil => cases hm
    | cons x t ih =>
      simp only [List.map_cons, List.nodup_cons] at hnd
      rw [List.find?_cons]
      by_cases hx : x.path = m.path
      · have : m = x := by
          rcases List.mem_cons.mp hm with h | h
          · exact h
          · exact absurd (hx ▸ List.mem_map_of_mem h) hnd.1
        subst this; simp
      · have hb : (x.path == m.path) = false := by simpa using hx
        rw [hb]
        refine ih hnd.2 ?_
        rcases List.mem_cons.mp hm with h | h
        · exact absurd (by rw [h]) hx
        · exact h

theorem find_eq_none {t : Tree} {p : List Str} : t.find p = none ↔ ∀ m ∈ t, m.path ≠ p := by
  unfold Tree.find; simp

theorem id_inj {t : Tree} (hnd : (t.map Mount.id).Nodup) {a b : Mount} (ha : a ∈ t) (hb : b ∈ t)
    (h : a.id = b.id) : a = b := List.inj_on_of_nodup_map hnd ha hb h

theorem path_inj {t : Tree} (hnd : (t.map Mount.path).Nodup) {a b : Mount} (ha : a ∈ t) (hb : b ∈ t)
    (h : a.path = b.path) : a = b := List.inj_on_of_nodup_map hnd ha hb h

theorem mem_kids {t : Tree} {p : List Str} {m : Mount} : m ∈ t.kids p ↔ m ∈ t ∧ m.path ≠ [] ∧ m.path.dropLast = p := by
  unfold Tree.kids isKid
  simp

theorem kids_ids_nodup {t : Tree} (h : (t.map Mount.id).Nodup) (p : List Str) : ((t.kids p).map Mount.id).Nodup :=
  (List.filter_sublist.map Mount.id).nodup h

theorem TreeInv.kids_length {E : Env} {u : Ush} {t : Tree} (H : TreeInv E u t) (p : List Str) :
    ((t.kids p).map Mount.id).length ≤ E.nodeCount := by
  apply nodup_lt_length (kids_ids_nodup H.nodupId p)
  intro i hi
  obtain ⟨m, hm, rfl⟩ := List.mem_map.mp hi
  exact H.idLt m (mem_kids.mp hm).1

theorem findText_render {E : Env} {u : Ush} {t : Tree} (H : TreeInv E u t) (p : List Str) (hp : ∀ c ∈ p, GoodComp c) :
    t.findText (render p) = t.find p := by
  have key : ∀ t' : Tree, (∀ m ∈ t', m ∈ t) → t'.findText (render p) = t'.find p := by
    intro t'
    induction t' with
    | nil => intro _; rfl
    | cons m t' ih =>
      intro hm
      have ih' := ih (fun x hx => hm x (by simp [hx]))
      unfold Tree.findText Tree.find at ih' ⊢
      rw [List.find?_cons, List.find?_cons, ih']
      by_cases h : m.path = p
      · subst h; simp
      · have : ¬ render m.path = render p := fun h' => h (render_inj _ _ (H.good m (hm m (by simp))) hp h')
        have h1 : (m.path == p) = false := by simpa using h
        have h2 : (render m.path == render p) = false := by simpa using this
        rw [h1, h2]
  exact key t (fun _ h => h)

theorem find?_congr' {α : Type} {p q : α → Bool} {l : List α} (h : ∀ x ∈ l, p x = q x) : l.find? p = l.find? q := by
  induction l with
  | nil => rfl
  | cons a l ih =>
    rw [List.find?_cons, List.find?_cons, h a (by simp), ih (fun x hx => h x (by simp [hx]))]

/-- Searching the directories below `p`. -/
theorem TreeInv.findPath_kids {E : Env} {u : Ush} {t : Tree} (H : TreeInv E u t) (m : Mount) (hm : m ∈ t) (lp : Str) :
    findPath u.nodes lp E.nodeCount (u.nodes m.id).children =
      .ok (((t.kids m.path).find? (fun k => render k.path == lp)).map Mount.id) := by
  have h1 := H.kids m hm
  let txt : NodeId → Str := fun i => ((u.nodes i).path).getD []
  rw [findPath_chain u.nodes lp txt _ _ _ h1 (H.kids_length m.path)]
  · congr 1
    rw [List.find?_map]
    congr 1
    apply find?_congr'
    intro k hk
    have := H.path k (mem_kids.mp hk).1
    simp [txt, this]
  · intro i hi
    obtain ⟨k, hk, rfl⟩ := List.mem_map.mp hi
    simp [txt, H.path k (mem_kids.mp hk).1]

theorem pathLevelLoop_le (level : Nat) : ∀ (s : Str) (i : Nat) (out : Str),
    (pathLevelLoop level i s out).length ≤ out.length + s.length := by
  intro s
  induction s with
  | nil => intro i out; simp [pathLevelLoop]
  | cons c s ih =>
    intro i out
    rw [pathLevelLoop]
    split
    · refine Nat.le_trans (ih _ _) ?_
      simp; omega
    · simp

theorem pathLevelLoop_all (level : Nat) : ∀ (s : Str) (i : Nat) (out : Str), i + s.tail.count cSlash ≤ level →
    pathLevelLoop level i s out = out ++ s := by
  intro s
  induction s with
  | nil => intro i out _; simp [pathLevelLoop]
  | cons c s ih =>
    intro i out h
    simp only [List.tail_cons] at h
    rw [pathLevelLoop, if_pos (by omega), ih]
    · simp
    · cases s with
      | nil => simpa using h
      | cons d s =>
        simp only [List.head?_cons, Option.some.injEq, List.tail_cons]
        rw [List.count_cons] at h
        by_cases hd : d = cSlash
        · simp [hd] at h ⊢; omega
        · simp [hd] at h ⊢; omega

theorem pathLevel_ok (cap i : Nat) (q : Str) (hq : q.length < cap) (hq1 : q ≠ []) :
    ∃ lp, pathLevel cap i q = .ok lp := by
  have hl : 0 < q.length := List.length_pos_iff.mpr hq1
  unfold pathLevel
  split
  · exact ⟨_, strcpy_ok (by simp; omega)⟩
  · refine ⟨_, strcpy_ok ?_⟩
    have := pathLevelLoop_le i q 1 []
    simp at this; omega

theorem pathLevel_last (cap : Nat) (q : Str) (hq : q.length < cap) (hq1 : q ≠ []) (hq2 : q ≠ b!"/") :
    pathLevel cap (pathLevelsCount q) q = .ok q := by
  unfold pathLevel pathLevelsCount
  rw [if_neg hq2, if_neg hq1, levelsLoop_eq, if_neg (by omega), pathLevelLoop_all _ _ _ _ (Nat.le_refl _)]
  simpa using strcpy_ok hq

/-- What the path walk returns has the searched path (whatever the structure of the query). -/
theorem getByPathLoop_sound {E : Env} {u : Ush} {t : Tree} (H : TreeInv E u t) (q : Str) (hq : q.length < E.pathMax)
    (hq1 : q ≠ []) (hq2 : q ≠ b!"/") :
    ∀ (rem i : Nat) (m : Mount), m ∈ t → 1 ≤ rem → i + rem = pathLevelsCount q + 1 →
    ∃ r, getByPathLoop E u.nodes q rem i (u.nodes m.id).children = .ok r ∧
      ∀ x, r = some x → ∃ k ∈ t, k.id = x ∧ render k.path = q := by
  intro rem
  induction rem with
  | zero => intro i m _ h; omega
  | succ rem ih =>
    intro i m hm _ hi
    obtain ⟨lp, hlp⟩ := pathLevel_ok E.pathMax i q hq hq1
    rw [getByPathLoop, hlp]
    simp only [M.ok_bind]
    rw [H.findPath_kids m hm lp]
    simp only [M.ok_bind]
    cases hf : (t.kids m.path).find? (fun k => render k.path == lp) with
    | none => exact ⟨none, rfl, fun x h => by cases h⟩
    | some k =>
      have hk := List.mem_of_find?_eq_some hf
      have hkp : render k.path = lp := by simpa using List.find?_some hf
      simp only [Option.map_some]
      by_cases hr : rem = 0
      · subst hr
        rw [if_pos rfl]
        refine ⟨some k.id, rfl, ?_⟩
        intro x hx
        have hil : i = pathLevelsCount q := by omega
        rw [hil, pathLevel_last E.pathMax q hq hq1 hq2] at hlp
        simp only [Except.ok.injEq] at hlp
        exact ⟨k, (mem_kids.mp hk).1, by simpa using hx, by rw [hkp, hlp]⟩
      · rw [if_neg hr]
        exact ih (i + 1) k (mem_kids.mp hk).1 (by omega) (by omega)

theorem dropLast_take_succ {α : Type} (p : List α) (i : Nat) (h : i < p.length) :
    (p.take (i + 1)).dropLast = p.take i := by
  rw [List.dropLast_eq_take, List.take_take]
  congr 1
  simp; omega

/-- The walk finds what is mounted. -/
theorem getByPathLoop_complete {E : Env} {u : Ush} {t : Tree} (H : TreeInv E u t) (p : List Str)
    (hfit : (render p).length < E.pathMax) (m : Mount) (hm : m ∈ t) (hmp : m.path = p) (hp0 : p ≠ []) :
    ∀ (rem i : Nat) (a : Mount), a ∈ t → a.path = p.take i → i + 1 + rem = p.length →
    getByPathLoop E u.nodes (render p) (rem + 1) (i + 1) (u.nodes a.id).children = .ok (some m.id) := by
  have hgood : ∀ c ∈ p, GoodComp c := hmp ▸ H.good m hm
  -- every prefix of a mounted path is mounted
  have hpre : ∀ k, ∃ b ∈ t, b.path = p.take (p.length - k) := by
    intro k
    induction k with
    | zero => exact ⟨m, hm, by simp [hmp]⟩
    | succ k ih =>
      obtain ⟨b, hb, hbp⟩ := ih
      by_cases hk : p.length - k = 0
      · exact ⟨b, hb, by rw [hbp, show p.length - (k + 1) = p.length - k by omega]⟩
      · obtain ⟨b', hb', hbp'⟩ := H.closed b hb (by rw [hbp]; simp [hp0]; omega)
        refine ⟨b', hb', ?_⟩
        rw [hbp', hbp]
        obtain ⟨j, hj⟩ : ∃ j, p.length - k = j + 1 := ⟨p.length - k - 1, by omega⟩
        rw [hj, dropLast_take_succ p j (by omega), show p.length - (k + 1) = j by omega]
  intro rem
  induction rem with
  | zero =>
    intro i a ha hap hi
    rw [getByPathLoop, pathLevel_render E.pathMax (i + 1) p hgood hp0 hfit]
    simp only [M.ok_bind]
    rw [H.findPath_kids a ha]
    rw [List.take_of_length_le (by omega)]
    have : (t.kids a.path).find? (fun k => render k.path == render p) = some m := by
      have hex : m ∈ t.kids a.path := by
        rw [mem_kids, hmp, hap]
        refine ⟨hm, hp0, ?_⟩
        rw [List.dropLast_eq_take]; congr 1; omega
      cases hf : (t.kids a.path).find? (fun k => render k.path == render p) with
      | none =>
        rw [List.find?_eq_none] at hf
        exact absurd (by simp [hmp]) (hf m hex)
      | some k =>
        have hk := (mem_kids.mp (List.mem_of_find?_eq_some hf)).1
        have hkp : render k.path = render p := by simpa using List.find?_some hf
        have : k.path = m.path := by rw [hmp]; exact render_inj _ _ (H.good k hk) hgood hkp
        rw [path_inj H.nodupPath hk hm this]
    rw [this]
    simp
  | succ rem ih =>
    intro i a ha hap hi
    rw [getByPathLoop, pathLevel_render E.pathMax (i + 1) p hgood hp0 hfit]
    simp only [M.ok_bind]
    rw [H.findPath_kids a ha]
    obtain ⟨b, hb, hbp⟩ := hpre (p.length - (i + 1))
    rw [show p.length - (p.length - (i + 1)) = i + 1 by omega] at hbp
    have hgp : ∀ c ∈ p.take (i + 1), GoodComp c := fun c hc => hgood c (List.mem_of_mem_take hc)
    have : (t.kids a.path).find? (fun k => render k.path == render (p.take (i + 1))) = some b := by
      have hex : b ∈ t.kids a.path := by
        rw [mem_kids, hbp, hap]
        exact ⟨hb, by simp [hp0], dropLast_take_succ p i (by omega)⟩
      cases hf : (t.kids a.path).find? (fun k => render k.path == render (p.take (i + 1))) with
      | none =>
        rw [List.find?_eq_none] at hf
        exact absurd (by simp [hbp]) (hf b hex)
      | some k =>
        have hk := (mem_kids.mp (List.mem_of_find?_eq_some hf)).1
        have hkp : render k.path = render (p.take (i + 1)) := by simpa using List.find?_some hf
        have : k.path = b.path := by rw [hbp]; exact render_inj _ _ (H.good k hk) hgp hkp
        rw [path_inj H.nodupPath hk hb this]
    rw [this]
    simp only [M.ok_bind, Option.map_some]
    rw [if_neg (by omega)]
    exact ih (i + 1) b hb hbp (by omega)

/-- `ush_node_get_by_path` is lookup in the abstract tree, for every query text. -/
theorem getByPath_eq {E : Env} {u : Ush} {t : Tree} (H : TreeInv E u t) (q : Str) (hq : q.length < E.pathMax)
    (hq1 : q ≠ []) : getByPath E u q = .ok ((t.findText q).map Mount.id) := by
  unfold getByPath
  rw [vla_ok H.pathMax]
  simp only [M.ok_bind]
  by_cases hq2 : q = b!"/"
  · subst hq2
    rw [if_pos (by decide), H.root]
    have := findText_render H [] (by simp)
    rw [render_nil] at this
    rw [this]; rfl
  · have hlev : 1 ≤ pathLevelsCount q := by
      unfold pathLevelsCount; rw [if_neg hq2, if_neg hq1, levelsLoop_eq]; omega
    rw [if_neg (by omega)]
    rw [H.root]
    cases hr : t.find [] with
    | none =>
      -- nothing is mounted
      have : t = [] := by
        by_contra hne
        obtain ⟨m, hm⟩ := List.exists_mem_of_ne_nil t hne
        have hall : ∀ n, ∀ m ∈ t, m.path.length ≤ n → ∃ r ∈ t, r.path = [] := by
          intro n
          induction n with
          | zero => intro m hm h; exact ⟨m, hm, List.eq_nil_of_length_eq_zero (by omega)⟩
          | succ n ih =>
            intro m hm h
            by_cases h0 : m.path = []
            · exact ⟨m, hm, h0⟩
            · obtain ⟨m', hm', hp'⟩ := H.closed m hm h0
              refine ih m' hm' ?_
              rw [hp']; simp; omega
        obtain ⟨r, hr', hrp⟩ := hall _ m hm (Nat.le_refl _)
        exact (find_eq_none.mp hr) r hr' hrp
      subst this
      rfl
    | some r =>
      obtain ⟨hrm, hrp⟩ := (find_eq_some H.nodupPath).mp hr
      simp only [Option.map_some]
      obtain ⟨res, h1, h2⟩ := getByPathLoop_sound H q hq hq1 hq2 (pathLevelsCount q) 1 r hrm hlev (by omega)
      cases hft : t.findText q with
      | none =>
        rw [h1]
        cases res with
        | none => rfl
        | some x =>
          obtain ⟨k, hk, -, hkq⟩ := h2 x rfl
          unfold Tree.findText at hft
          rw [List.find?_eq_none] at hft
          exact absurd (by simp [hkq]) (hft k hk)
      | some m =>
        unfold Tree.findText at hft
        have hm := List.mem_of_find?_eq_some hft
        have hmq : render m.path = q := by simpa using List.find?_some hft
        have hp0 : m.path ≠ [] := by
          intro h; rw [h] at hmq; exact hq2 hmq.symm
        subst hmq
        rw [pathLevelsCount_render _ (H.good m hm)]
        have hl : 0 < m.path.length := List.length_pos_iff.mpr hp0
        obtain ⟨n, hn⟩ : ∃ n, m.path.length = n + 1 := ⟨m.path.length - 1, by omega⟩
        rw [hn]
        exact getByPathLoop_complete H m.path hq m hm rfl hp0 n 0 r hrm (by simp [hrp]) (by omega)

end Ush
