import Verif.Spec.Own
import Verif.Proof.Service
/-!
# A shell instance depends on its own nodes only
-/
namespace Ush
open Spec

variable {S : NodeId → Bool} {g : NodeId → Node} {E : Env} {u : Ush}

/-- Two computations with the same outcome up to `r`. -/
def Sim {α β : Type} (r : α → β → Prop) (m : M α) (m' : M β) : Prop :=
  match m, m' with
  | .ok a, .ok b => r a b
  | .error e, .error f => e = f
  | _, _ => False

theorem Sim.bind {α β γ δ : Type} {r : α → β → Prop} {q : γ → δ → Prop} {m : M α} {m' : M β} {k : α → M γ} {k' : β → M δ} (h : Sim r m m')
    (hk : ∀ a b, r a b → Sim q (k a) (k' b)) : Sim q (m >>= k) (m' >>= k') := by
  cases m with
  | ok a =>
    cases m' with
    | ok b => exact hk a b h
    | error f => exact h.elim
  | error e =>
    cases m' with
    | ok b => exact h.elim
    | error f => exact h

theorem Sim.same {α γ δ : Type} {q : γ → δ → Prop} (m : M α) {k : α → M γ} {k' : α → M δ} (hk : ∀ a, m = .ok a → Sim q (k a) (k' a)) :
    Sim q (m >>= k) (m >>= k') := by
  cases m with
  | ok a => exact hk a rfl
  | error e => rfl

theorem Sim.eq_same {α γ δ : Type} {q : γ → δ → Prop} {m m' : M α} (e : m' = m) {k : α → M γ} {k' : α → M δ} (hk : ∀ a, m = .ok a → Sim q (k a) (k' a)) :
    Sim q (m >>= k) (m' >>= k') := by rw [e]; exact .same m hk

theorem Spec.PtrIn.none : PtrIn S none := fun _ h => by cases h

theorem Spec.PtrIn.some {i : NodeId} (h : S i = true) : PtrIn S (some i) := fun _ e => by cases e; exact h

theorem mix_in {a : NodeId → Node} {i : NodeId} (h : S i = true) : mix S a g i = a i := if_pos h

theorem mix_set (a : NodeId → Node) {i : NodeId} (h : S i = true) (n : Node) : setNode (mix S a g) i n = mix S (setNode a i n) g := by
  funext j
  simp only [setNode, mix]
  by_cases hj : j = i
  · subst hj; simp [h]
  · simp [hj]

/-- The two shells: the second one lives among other nodes. -/
def Same (S : NodeId → Bool) (g : NodeId → Node) (u v : Ush) : Prop := v = over S g u ∧ Own S u

/-- A change of fields that are not pointers. -/
theorem Spec.Own.to {v : Ush} (O : Own S u) (h : v.nodes = u.nodes ∧ v.root = u.root ∧ v.current = u.current ∧ v.commands = u.commands ∧
    v.procNode = u.procNode ∧ v.procChild = u.procChild) : Own S v := by
  obtain ⟨h1, h2, h3, h4, h5, h6⟩ := h
  exact ⟨by rw [h1]; exact O.node, by rw [h2]; exact O.root, by rw [h3]; exact O.current, by rw [h4]; exact O.commands,
    by rw [h5]; exact O.procNode, by rw [h6]; exact O.procChild⟩

theorem Spec.Own.pn {p : Option NodeId} (O : Own S u) (hp : PtrIn S p) : Own S { u with procNode := p } :=
  ⟨O.node, O.root, O.current, O.commands, hp, O.procChild⟩

/-! ## Searching the nodes -/

theorem findPath_mix {a : NodeId → Node} (hn : ∀ i, S i = true → PtrIn S (a i).next) (lp : Str) : ∀ (fuel : Nat) (s : Option NodeId), PtrIn S s →
    findPath (mix S a g) lp fuel s = findPath a lp fuel s ∧ ∀ r, findPath a lp fuel s = .ok r → PtrIn S r := by
  intro fuel
  induction fuel with
  | zero => intro s hs; cases s with
    | none => exact ⟨rfl, fun r h => by cases h; exact .none⟩
    | some i => exact ⟨rfl, fun r h => by cases h⟩
  | succ n ih =>
    intro s hs
    cases s with
    | none => exact ⟨rfl, fun r h => by cases h; exact .none⟩
    | some i =>
      have hi := hs i rfl
      obtain ⟨h1, h2⟩ := ih _ (hn i hi)
      simp only [findPath, mix_in hi]
      cases (a i).path with
      | none => exact ⟨rfl, fun r h => by cases h⟩
      | some p =>
        by_cases hp : p = lp
        · simp only [if_pos hp]
          exact ⟨trivial, fun r h => by cases h; exact .some hi⟩
        · simp only [if_neg hp]
          exact ⟨h1, h2⟩

theorem getByPathLoop_mix {a : NodeId → Node} (hn : ∀ i, S i = true → PtrIn S (a i).next ∧ PtrIn S (a i).children ∧ PtrIn S (a i).parent) (path : Str) :
    ∀ (rem i : Nat) (s : Option NodeId), PtrIn S s → getByPathLoop E (mix S a g) path rem i s = getByPathLoop E a path rem i s ∧
      ∀ r, getByPathLoop E a path rem i s = .ok r → PtrIn S r := by
  intro rem
  induction rem with
  | zero => intro i s _; exact ⟨rfl, fun r h => by cases h; exact .none⟩
  | succ n ih =>
    intro i s hs
    simp only [getByPathLoop]
    cases pathLevel E.pathMax i path with
    | error e => exact ⟨rfl, fun r h => by cases h⟩
    | ok lp =>
      simp only [M.ok_bind]
      obtain ⟨h1, h2⟩ := findPath_mix (g := g) (fun i hi => (hn i hi).1) lp E.nodeCount s hs
      rw [h1]
      cases hf : findPath a lp E.nodeCount s with
      | error e => exact ⟨rfl, fun r h => by cases h⟩
      | ok f =>
        simp only [M.ok_bind]
        have h3 := h2 _ hf
        cases f with
        | none => exact ⟨rfl, fun r h => by cases h; exact .none⟩
        | some id =>
          have hid := h3 id rfl
          simp only [mix_in hid]
          by_cases h0 : n = 0
          · simp only [if_pos h0]
            exact ⟨trivial, fun r h => by cases h; exact h3⟩
          · simp only [if_neg h0]
            exact ih _ _ (hn id hid).2.1

theorem getByPath_over (O : Own S u) (p : Str) : getByPath E (over S g u) p = getByPath E u p ∧ ∀ r, getByPath E u p = .ok r → PtrIn S r := by
  unfold getByPath
  cases vla E.pathMax with
  | error e => exact ⟨rfl, fun r h => by cases h⟩
  | ok _ =>
    simp only [M.ok_bind]
    by_cases h0 : pathLevelsCount p = 0
    · simp only [if_pos h0]
      exact ⟨trivial, fun r h => by cases h; exact O.root⟩
    · simp only [if_neg h0]
      cases hr : u.root with
      | none => exact ⟨rfl, fun r h => by cases h; exact .none⟩
      | some r =>
        have hS := O.root r hr
        simp only [mix_in hS]
        exact getByPathLoop_mix O.node p _ _ _ (O.node r hS).2.1

theorem currentPath_over (O : Own S u) : currentPath (over S g u) = currentPath u := by
  unfold currentPath
  cases hc : u.current with
  | none => rfl
  | some c => simp only [mix_in (O.current c hc)]

theorem getAbsolutePath_over (O : Own S u) (p : Str) : getAbsolutePath E (over S g u) p = getAbsolutePath E u p := by
  unfold getAbsolutePath
  rw [currentPath_over O]

theorem getParentByPath_over (O : Own S u) (p : Str) :
    getParentByPath E (over S g u) p = getParentByPath E u p ∧ ∀ r, getParentByPath E u p = .ok r → PtrIn S r := by
  unfold getParentByPath
  by_cases h : pathUpper p = []
  · simp only [if_pos h]; exact ⟨trivial, fun r h => by cases h; exact .none⟩
  · simp only [if_neg h]; exact getByPath_over O _

theorem findPrev_mix {a : NodeId → Node} (hn : ∀ i, S i = true → PtrIn S (a i).next) (x : NodeId) : ∀ (fuel : Nat) (p s : Option NodeId), PtrIn S p → PtrIn S s →
    findPrev (mix S a g) x fuel p s = findPrev a x fuel p s ∧ ∀ r, findPrev a x fuel p s = .ok (some r) → PtrIn S r := by
  intro fuel
  induction fuel with
  | zero => intro p s hp hs; cases s with
    | none => exact ⟨rfl, fun r h => by cases h⟩
    | some i => exact ⟨rfl, fun r h => by cases h⟩
  | succ n ih =>
    intro p s hp hs
    cases s with
    | none => exact ⟨rfl, fun r h => by cases h⟩
    | some i =>
      have hi := hs i rfl
      simp only [findPrev, mix_in hi]
      by_cases he : i ≠ x
      · simp only [if_pos he]
        exact ih _ _ (.some hi) (hn i hi)
      · simp only [if_neg he]
        exact ⟨trivial, fun r h => by cases h; exact hp⟩

theorem findCommand_mix {a : NodeId → Node} (hn : ∀ i, S i = true → PtrIn S (a i).next) (name : Str) : ∀ (fuel : Nat) (s : Option NodeId), PtrIn S s →
    findCommand (mix S a g) name fuel s = findCommand a name fuel s := by
  intro fuel
  induction fuel with
  | zero => intro s _; cases s <;> rfl
  | succ n ih =>
    intro s hs
    cases s with
    | none => rfl
    | some i =>
      have hi := hs i rfl
      simp only [findCommand, mix_in hi, ih _ (hn i hi)]

theorem findFile_mix {a : NodeId → Node} (hn : ∀ i, S i = true → PtrIn S (a i).next) (abs : Str) : ∀ (fuel : Nat) (s : Option NodeId), PtrIn S s →
    findFile E (mix S a g) abs fuel s = findFile E a abs fuel s := by
  intro fuel
  induction fuel with
  | zero => intro s _; cases s <;> rfl
  | succ n ih =>
    intro s hs
    cases s with
    | none => rfl
    | some i =>
      have hi := hs i rfl
      simp only [findFile, mix_in hi, ih _ (hn i hi)]

theorem fileFindByName_over (O : Own S u) (name : Str) : fileFindByName E (over S g u) name = fileFindByName E u name := by
  unfold fileFindByName
  simp only [findCommand_mix (fun i hi => (O.node i hi).1) name E.nodeCount _ O.commands, getAbsolutePath_over O]
  cases vla E.pathMax with
  | error e => rfl
  | ok _ =>
    simp only [M.ok_bind]
    cases findCommand u.nodes name E.nodeCount u.commands with
    | error e => rfl
    | ok c =>
      simp only [M.ok_bind]
      cases c with
      | some f => rfl
      | none =>
        simp only
        cases getAbsolutePath E u name with
        | error e => rfl
        | ok abs =>
          simp only [M.ok_bind]
          obtain ⟨h1, h2⟩ := getParentByPath_over (E := E) (g := g) O abs
          rw [h1]
          cases hp : getParentByPath E u abs with
          | error e => rfl
          | ok par =>
            simp only [M.ok_bind]
            exact findFile_mix (fun i hi => (O.node i hi).1) abs E.nodeCount par (h2 _ hp)

/-! ## Changing the nodes -/

theorem Spec.Own.set {n : Node} {i : NodeId} (O : Own S u) (h1 : PtrIn S n.next) (h2 : PtrIn S n.children) (h3 : PtrIn S n.parent) :
    Own S { u with nodes := setNode u.nodes i n } := by
  refine ⟨fun j hj => ?_, O.root, O.current, O.commands, O.procNode, O.procChild⟩
  simp only [setNode]
  split
  · exact ⟨h1, h2, h3⟩
  · exact O.node j hj

/-- Results with a status. -/
def SameR (S : NodeId → Bool) (g : NodeId → Node) {α : Type} (x y : Ush × α) : Prop := Same S g x.1 y.1 ∧ y.2 = x.2

theorem setCurrentDir_own (O : Own S u) (p : Str) : Sim (SameR S g) (setCurrentDir E u p) (setCurrentDir E (over S g u) p) := by
  unfold setCurrentDir
  by_cases h0 : p = []
  · simp only [if_pos h0]; exact ⟨⟨rfl, O⟩, rfl⟩
  · simp only [if_neg h0]
    refine .eq_same (getAbsolutePath_over O p) fun abs _ => ?_
    obtain ⟨h1, h2⟩ := getByPath_over (E := E) (g := g) O abs
    refine .eq_same h1 fun r hr => ?_
    cases r with
    | none => exact ⟨⟨rfl, O⟩, rfl⟩
    | some i => exact ⟨⟨rfl, ⟨O.node, O.root, h2 _ hr, O.commands, O.procNode, O.procChild⟩⟩, rfl⟩

/-- `ush_node_mount` after the fields of the node have been set. -/
def mountTail (E : Env) (u : Ush) (path : Str) (node : NodeId) : M (Ush × Status) := do
  let ex ← getByPath E u path
  match ex with
  | some _ => return (u, .nodeAlreadyMounted)
  | none =>
    let par ← getParentByPath E u path
    match par with
    | some p =>
      let nodes := setNode u.nodes node { u.nodes node with next := (u.nodes p).children }
      let nodes := setNode nodes p { nodes p with children := some node }
      let nodes := setNode nodes node { nodes node with parent := some p }
      return ({ u with nodes := nodes }, .ok)
    | none =>
      if path = b!"/" then
        let nodes := setNode u.nodes node { u.nodes node with next := none, parent := none }
        return ({ u with nodes := nodes, root := some node, current := some node }, .ok)
      else
        return (u, .nodeWithoutParent)

theorem nodeMount_tail (E : Env) (u : Ush) (p : Str) (i : NodeId) (fs : List FileDesc) : nodeMount E u p i fs =
    mountTail E { u with nodes := setNode u.nodes i { u.nodes i with files := fs, path := some p } } p i := rfl

theorem mountTail_own {w : Ush} (O1 : Own S w) (p : Str) {i : NodeId} (hi : S i = true) :
    Sim (SameR S g) (mountTail E w p i) (mountTail E (over S g w) p i) := by
  unfold mountTail
  obtain ⟨h1, h2⟩ := getByPath_over (E := E) (g := g) O1 p
  refine .eq_same h1 fun r hr => ?_
  cases r with
  | some _ => exact ⟨⟨rfl, O1⟩, rfl⟩
  | none =>
    obtain ⟨h3, h4⟩ := getParentByPath_over (E := E) (g := g) O1 p
    refine .eq_same h3 fun par hp => ?_
    cases par with
    | some q =>
      have hq := h4 _ hp q rfl
      simp only [mix_in hi, mix_in hq, mix_set _ hi, mix_set _ hq]
      refine ⟨⟨rfl, ?_⟩, rfl⟩
      have O2 : Own S { w with nodes := setNode w.nodes i { w.nodes i with next := (w.nodes q).children } } :=
        O1.set (O1.node q hq).2.1 (O1.node i hi).2.1 (O1.node i hi).2.2
      have O3 := O2.set (i := q) (n := { setNode w.nodes i { w.nodes i with next := (w.nodes q).children } q with children := some i })
        (O2.node q hq).1 (.some hi) (O2.node q hq).2.2
      have O4 := fun (n : Node) (h1 : PtrIn S n.next) (h2 : PtrIn S n.children) (h3 : PtrIn S n.parent) => O3.set (i := i) (n := n) h1 h2 h3
      refine O4 _ ?_ ?_ ?_
      · exact (O3.node i hi).1
      · exact (O3.node i hi).2.1
      · exact .some hq
    | none =>
      by_cases hr : p = b!"/"
      · simp only [if_pos hr, mix_in hi, mix_set _ hi]
        refine ⟨⟨rfl, ?_⟩, rfl⟩
        have O2 : Own S { w with nodes := setNode w.nodes i { w.nodes i with next := none, parent := none } } :=
          O1.set .none (O1.node i hi).2.1 .none
        exact ⟨O2.node, .some hi, .some hi, O2.commands, O2.procNode, O2.procChild⟩
      · simp only [if_neg hr]
        exact ⟨⟨rfl, O1⟩, rfl⟩

theorem nodeMount_own (O : Own S u) (p : Str) {i : NodeId} (hi : S i = true) (fs : List FileDesc) :
    Sim (SameR S g) (nodeMount E u p i fs) (nodeMount E (over S g u) p i fs) := by
  rw [nodeMount_tail, nodeMount_tail]
  simp only [mix_in hi, mix_set _ hi]
  exact mountTail_own (O.set (i := i) (n := { u.nodes i with files := fs, path := some p }) (O.node i hi).1 (O.node i hi).2.1 (O.node i hi).2.2) p hi

theorem nodeUnmount_own (O : Own S u) (p : Str) : Sim (SameR S g) (nodeUnmount E u p) (nodeUnmount E (over S g u) p) := by
  unfold nodeUnmount
  obtain ⟨h3, h4⟩ := getParentByPath_over (E := E) (g := g) O p
  refine .eq_same h3 fun par hp => ?_
  obtain ⟨h1, h2⟩ := getByPath_over (E := E) (g := g) O p
  refine .eq_same h1 fun r hr => ?_
  cases r with
  | none => exact ⟨⟨rfl, O⟩, rfl⟩
  | some i =>
    have hi := h2 _ hr i rfl
    simp only [mix_in hi]
    by_cases c1 : some i ≠ u.root ∧ par = none
    · simp only [if_pos c1]; exact ⟨⟨rfl, O⟩, rfl⟩
    simp only [if_neg c1]
    by_cases c2 : (u.nodes i).children ≠ none
    · simp only [if_pos c2]; exact ⟨⟨rfl, O⟩, rfl⟩
    simp only [if_neg c2]
    cases par with
    | none => exact ⟨⟨rfl, ⟨O.node, .none, O.current, O.commands, O.procNode, O.procChild⟩⟩, rfl⟩
    | some q =>
      have hq := h4 _ hp q rfl
      simp only [mix_in hq]
      obtain ⟨h5, h6⟩ := findPrev_mix (g := g) (fun i hi => (O.node i hi).1) i E.nodeCount none (u.nodes q).children .none (O.node q hq).2.1
      refine .eq_same h5 fun f hf => ?_
      cases f with
      | none => exact ⟨⟨rfl, O⟩, rfl⟩
      | some x =>
        cases x with
        | none =>
          simp only [mix_set _ hq]
          exact ⟨⟨rfl, O.set (O.node q hq).1 (O.node i hi).1 (O.node q hq).2.2⟩, rfl⟩
        | some k =>
          have hk := h6 _ hf k rfl
          simp only [mix_in hk, mix_set _ hk]
          exact ⟨⟨rfl, O.set (O.node i hi).1 (O.node k hk).2.1 (O.node k hk).2.2⟩, rfl⟩

theorem commandsAdd_own (O : Own S u) {i : NodeId} (hi : S i = true) (fs : List FileDesc) :
    Sim (SameR S g) (commandsAdd u i fs) (commandsAdd (over S g u) i fs) := by
  unfold commandsAdd
  refine .same _ fun _ _ => ?_
  simp only [mix_in hi, mix_set _ hi]
  have O1 : Own S { u with nodes := setNode u.nodes i { u.nodes i with files := fs, path := none, next := u.commands } } :=
    O.set O.commands (O.node i hi).2.1 (O.node i hi).2.2
  exact ⟨⟨rfl, ⟨O1.node, O1.root, O1.current, .some hi, O1.procNode, O1.procChild⟩⟩, rfl⟩

theorem commandsRemove_own (O : Own S u) {i : NodeId} (hi : S i = true) :
    Sim (SameR S g) (commandsRemove E u i) (commandsRemove E (over S g u) i) := by
  unfold commandsRemove
  obtain ⟨h5, h6⟩ := findPrev_mix (g := g) (fun i hi => (O.node i hi).1) i E.nodeCount none u.commands .none O.commands
  refine .eq_same h5 fun f hf => ?_
  cases f with
  | none => exact ⟨⟨rfl, O⟩, rfl⟩
  | some x =>
    simp only [mix_in hi]
    cases x with
    | none => exact ⟨⟨rfl, ⟨O.node, O.root, O.current, (O.node i hi).1, O.procNode, O.procChild⟩⟩, rfl⟩
    | some k =>
      have hk := h6 _ hf k rfl
      simp only [mix_in hk, mix_set _ hk]
      exact ⟨⟨rfl, O.set (O.node i hi).1 (O.node k hk).2.1 (O.node k hk).2.2⟩, rfl⟩

theorem deinitRec_mix : ∀ (fuel : Nat) (a : NodeId → Node) (s : Option NodeId),
    (∀ i, S i = true → PtrIn S (a i).next ∧ PtrIn S (a i).children ∧ PtrIn S (a i).parent) → PtrIn S s →
    Sim (fun b c => c = mix S b g ∧ ∀ i, S i = true → PtrIn S (b i).next ∧ PtrIn S (b i).children ∧ PtrIn S (b i).parent)
      (deinitRec a fuel s) (deinitRec (mix S a g) fuel s) := by
  intro fuel
  induction fuel with
  | zero => intro a s ha hs; cases s with
    | none => exact ⟨rfl, ha⟩
    | some i => exact rfl
  | succ n ih =>
    intro a s ha hs
    cases s with
    | none => exact ⟨rfl, ha⟩
    | some i =>
      have hi := hs i rfl
      simp only [deinitRec, mix_in hi]
      refine Sim.bind (r := fun b c => c = mix S b g ∧ ∀ i, S i = true → PtrIn S (b i).next ∧ PtrIn S (b i).children ∧ PtrIn S (b i).parent) ?_ ?_
      · cases hc : (a i).children with
        | none => exact ⟨rfl, ha⟩
        | some k => exact ih a _ ha (.some ((ha i hi).2.1 k hc))
      · rintro b c ⟨rfl, hb⟩
        simp only [mix_in hi, mix_set _ hi]
        refine ih _ _ ?_ (hb i hi).1
        intro j hj
        simp only [setNode]
        split
        · exact ⟨.none, .none, .none⟩
        · exact hb j hj

end Ush
