import Verif.Proof.History
/-!
# `ush_deinit`
-/
namespace Ush
open Spec

/-- The nodes reached from `s` by the links to the next node and to the first child, in the order of a walk. -/
inductive Forest (nodes : NodeId → Node) : Option NodeId → List NodeId → Prop
  | nil : Forest nodes none []
  | cons {c : NodeId} {A B : List NodeId} : Forest nodes (nodes c).children A → Forest nodes (nodes c).next B →
      c ∉ A → (∀ b ∈ B, b ≠ c ∧ b ∉ A) → Forest nodes (some c) (c :: (A ++ B))

theorem Forest.congr {nodes nodes' : NodeId → Node} {s : Option NodeId} {L : List NodeId} (h : Forest nodes s L)
    (he : ∀ i ∈ L, nodes' i = nodes i) : Forest nodes' s L := by
  induction h with
  | nil => exact .nil
  | @cons c A B hA hB h1 h2 iA iB =>
    refine .cons ?_ ?_ h1 h2
    · rw [he c (by simp)]; exact iA (fun i hi => he i (by simp [hi]))
    · rw [he c (by simp)]; exact iB (fun i hi => he i (by simp [hi]))

theorem Forest.nodup {nodes : NodeId → Node} {s : Option NodeId} {L : List NodeId} (h : Forest nodes s L) : L.Nodup := by
  induction h with
  | nil => exact List.nodup_nil
  | @cons c A B hA hB h1 h2 iA iB =>
    rw [List.nodup_cons]
    refine ⟨?_, ?_⟩
    · rw [List.mem_append]
      rintro (h | h)
      · exact h1 h
      · exact (h2 c h).1 rfl
    · rw [List.nodup_append]
      exact ⟨iA, iB, fun a ha b hb e => (h2 b hb).2 (e ▸ ha)⟩

/-- Clearing a forest. -/
theorem Forest.deinit {nodes : NodeId → Node} {s : Option NodeId} {L : List NodeId} (h : Forest nodes s L) :
    ∀ fuel, L.length ≤ fuel → deinitRec nodes fuel s = .ok (fun i => if i ∈ L then {} else nodes i) := by
  suffices H : ∀ nodes', (∀ i ∈ L, nodes' i = nodes i) → ∀ fuel, L.length ≤ fuel →
      deinitRec nodes' fuel s = .ok (fun i => if i ∈ L then {} else nodes' i) from H nodes (fun _ _ => rfl)
  induction h with
  | nil => intro nodes' _ fuel _; cases fuel <;> simp [deinitRec]
  | @cons c A B hA hB h1 h2 iA iB =>
    intro nodes' he fuel hf
    simp only [List.length_cons, List.length_append] at hf
    obtain ⟨fuel, rfl⟩ : ∃ k, fuel = k + 1 := ⟨fuel - 1, by omega⟩
    have hc : nodes' c = nodes c := he c (by simp)
    have hA' := iA nodes' (fun i hi => he i (by simp [hi])) fuel (by omega)
    have e1 : deinitRec nodes' (fuel + 1) (some c) =
        deinitRec (setNode (fun i => if i ∈ A then {} else nodes' i) c {}) fuel (nodes c).next := by
      rw [deinitRec]
      cases hk : (nodes' c).children with
      | none =>
        rw [← hc, hk] at hA'
        have hn : (fun i => if i ∈ A then {} else nodes' i) = nodes' := by
          have h0 : deinitRec nodes' fuel none = .ok nodes' := by cases fuel <;> rfl
          rw [h0] at hA'
          exact (Except.ok.inj hA').symm
        simp only [M.ok_bind, hn, hc]
      | some k =>
        rw [← hc, hk] at hA'
        simp only [hA', M.ok_bind, if_neg h1, hc]
    rw [e1]
    rw [iB _ _ fuel (by omega)]
    · congr 1
      funext i
      simp only [setNode]
      by_cases h3 : i ∈ B
      · simp [h3]
      · by_cases h4 : i = c
        · simp [h4]
        · by_cases h5 : i ∈ A
          · simp [h5]
          · simp [h3, h4, h5]
    · intro i hi
      obtain ⟨g1, g2⟩ := h2 i hi
      simp only [setNode, if_neg g1, if_neg g2]
      exact he i (by simp [hi])

/-! ## The mounted nodes are a forest -/

theorem TreeInv.ancestor {E : Env} {u : Ush} {t : Tree} (H : TreeInv E u t) : ∀ (n : Nat) (x : Mount), x ∈ t → x.path.length = n → ∀ p, p <+: x.path → ∃ m ∈ t, m.path = p := by
  intro n
  induction n with
  | zero =>
    intro x hx hl p hp
    have : x.path = [] := List.length_eq_zero_iff.mp hl
    rw [this] at hp
    exact ⟨x, hx, by rw [this, List.prefix_nil.mp hp]⟩
  | succ n ih =>
    intro x hx hl p hp
    have hne : x.path ≠ [] := by intro h; rw [h] at hl; simp at hl
    by_cases he : p = x.path
    · exact ⟨x, hx, he.symm⟩
    · obtain ⟨y, hy, hyp⟩ := H.closed x hx hne
      refine ih y hy (by rw [hyp]; simp [hl]) p ?_
      rw [hyp]
      obtain ⟨r, hr⟩ := hp
      have hr0 : r ≠ [] := by rintro rfl; exact he (by simpa using hr)
      rw [← hr, List.dropLast_append_of_ne_nil hr0]
      exact List.prefix_append _ _

/-- Below a directory: the nodes reached through its children. -/
theorem TreeInv.forest {E : Env} {u : Ush} {t : Tree} (H : TreeInv E u t) : ∀ (n : Nat) (m : Mount), m ∈ t →
    (∀ x ∈ t, x.path.length ≤ m.path.length + n) →
    ∃ L, Forest u.nodes (u.nodes m.id).children L ∧ ∀ i, i ∈ L ↔ ∃ x ∈ t, x.id = i ∧ m.path <+: x.path ∧ x.path ≠ m.path := by
  intro n
  induction n with
  | zero =>
    intro m hm hb
    have hk : t.kids m.path = [] := by
      rw [List.eq_nil_iff_forall_not_mem]
      intro k hk
      obtain ⟨h1, h2, h3⟩ := mem_kids.mp hk
      have := hb k h1
      have h4 : m.path.length + 1 = k.path.length := by
        rw [← h3, List.length_dropLast]
        have := List.length_pos_of_ne_nil h2
        omega
      omega
    refine ⟨[], ?_, ?_⟩
    · have := (H.kids m hm)
      rw [hk] at this
      rw [show (u.nodes m.id).children = none from this]
      exact .nil
    · intro i
      constructor
      · intro h; cases h
      · rintro ⟨x, hx, -, hp, hne⟩
        have := hb x hx
        exact absurd (hp.eq_of_length (by have := hp.length_le; omega)).symm hne
  | succ n ih =>
    intro m hm hb
    -- along the list of children
    have chain : ∀ (ks : List Mount), (∀ k ∈ ks, k ∈ t.kids m.path) → (ks.map Mount.id).Nodup → ∀ s, IsChain u.nodes s (ks.map Mount.id) →
        ∃ L, Forest u.nodes s L ∧ ∀ i, i ∈ L ↔ ∃ k ∈ ks, ∃ x ∈ t, x.id = i ∧ k.path <+: x.path := by
      intro ks
      induction ks with
      | nil =>
        intro _ _ s hs
        refine ⟨[], ?_, by simp⟩
        rw [show s = none from hs]; exact .nil
      | cons k ks ihk =>
        intro hk hnd s hs
        simp only [List.map_cons, List.nodup_cons] at hnd
        obtain ⟨rfl, hs⟩ := hs
        obtain ⟨B, hB, hBm⟩ := ihk (fun x hx => hk x (by simp [hx])) hnd.2 _ hs
        obtain ⟨hkt, hk0, hkd⟩ := mem_kids.mp (hk k (by simp))
        have hkl : k.path.length = m.path.length + 1 := by
          rw [← hkd, List.length_dropLast]
          have := List.length_pos_of_ne_nil hk0
          omega
        obtain ⟨A, hA, hAm⟩ := ih k hkt (fun x hx => by have := hb x hx; omega)
        refine ⟨k.id :: (A ++ B), .cons hA hB ?_ ?_, ?_⟩
        · intro h
          obtain ⟨x, hx, he, -, hne⟩ := (hAm _).mp h
          exact hne (by rw [id_inj H.nodupId hx hkt he])
        · intro b hbB
          obtain ⟨k2, hk2, x, hx, rfl, hp⟩ := (hBm b).mp hbB
          obtain ⟨h1, h2, h3⟩ := mem_kids.mp (hk k2 (by simp [hk2]))
          have hl2 : k2.path.length = m.path.length + 1 := by
            rw [← h3, List.length_dropLast]
            have := List.length_pos_of_ne_nil h2
            omega
          have hdiff : ¬ k.path <+: x.path := by
            intro hp1
            have : k.path = k2.path := by
              rcases List.prefix_or_prefix_of_prefix hp1 hp with h | h
              · exact h.eq_of_length (by omega)
              · exact (h.eq_of_length (by omega)).symm
            have := path_inj H.nodupPath hkt h1 this
            subst this
            exact hnd.1 (List.mem_map_of_mem hk2)
          refine ⟨?_, ?_⟩
          · intro he
            have := id_inj H.nodupId hx hkt he
            subst this
            exact hdiff List.prefix_rfl
          · intro hxA
            obtain ⟨y, hy, he, hpy, -⟩ := (hAm _).mp hxA
            have := id_inj H.nodupId hy hx he
            subst this
            exact hdiff hpy
        · intro i
          simp only [List.mem_cons, List.mem_append, hAm, hBm]
          constructor
          · rintro (rfl | ⟨x, hx, rfl, hp, -⟩ | ⟨k2, hk2, h⟩)
            · exact ⟨k, .inl rfl, k, hkt, rfl, List.prefix_rfl⟩
            · exact ⟨k, .inl rfl, x, hx, rfl, hp⟩
            · exact ⟨k2, .inr hk2, h⟩
          · rintro ⟨k2, rfl | hk2, x, hx, rfl, hp⟩
            · by_cases he : x.path = k2.path
              · exact .inl (by rw [path_inj H.nodupPath hx hkt he])
              · exact .inr (.inl ⟨x, hx, rfl, hp, he⟩)
            · exact .inr (.inr ⟨k2, hk2, x, hx, rfl, hp⟩)
    obtain ⟨L, hL, hLm⟩ := chain (t.kids m.path) (fun _ h => h) (kids_ids_nodup H.nodupId _) _ (H.kids m hm)
    refine ⟨L, hL, fun i => (hLm i).trans ?_⟩
    constructor
    · rintro ⟨k, hk, x, hx, rfl, hp⟩
      obtain ⟨h1, h2, h3⟩ := mem_kids.mp hk
      have hmk : m.path <+: k.path := by rw [← h3]; exact List.dropLast_prefix _
      refine ⟨x, hx, rfl, hmk.trans hp, ?_⟩
      intro he
      have := hp.length_le
      rw [he, ← h3, List.length_dropLast] at this
      have := List.length_pos_of_ne_nil h2
      omega
    · rintro ⟨x, hx, rfl, ⟨r, hr⟩, hne⟩
      cases r with
      | nil => exact absurd (by simpa using hr.symm) hne
      | cons c r =>
        obtain ⟨k, hk, hkp⟩ := H.ancestor _ x hx rfl (m.path ++ [c]) ⟨r, by rw [← hr]; simp⟩
        exact ⟨k, mem_kids.mpr ⟨hk, by simp [hkp], by simp [hkp]⟩, x, hx, rfl, ⟨r, by rw [hkp, ← hr]; simp⟩⟩

/-- All mounted nodes are reached from the root. -/
theorem TreeInv.whole {E : Env} {u : Ush} {t : Tree} (H : TreeInv E u t) :
    ∃ L, Forest u.nodes u.root L ∧ ∀ i, i ∈ L ↔ ∃ x ∈ t, x.id = i := by
  cases hr : t.find [] with
  | none =>
    have ht : t = [] := by
      rw [List.eq_nil_iff_forall_not_mem]
      intro x hx
      obtain ⟨m, hm, hp⟩ := H.ancestor _ x hx rfl [] List.nil_prefix
      exact find_eq_none.mp hr m hm hp
    refine ⟨[], ?_, by simp [ht]⟩
    rw [H.root, hr]; exact .nil
  | some m =>
    obtain ⟨hm, hp⟩ := (find_eq_some H.nodupPath).mp hr
    have hbound : ∃ n, ∀ x ∈ t, x.path.length ≤ n := by
      clear * -
      induction t with
      | nil => exact ⟨0, by simp⟩
      | cons y t ih =>
        obtain ⟨n, hn⟩ := ih
        refine ⟨n + y.path.length, fun x hx => ?_⟩
        rcases List.mem_cons.mp hx with rfl | h
        · omega
        · have := hn x h; omega
    obtain ⟨n, hn⟩ := hbound
    obtain ⟨A, hA, hAm⟩ := H.forest n m hm (fun x hx => by rw [hp]; simpa using hn x hx)
    refine ⟨m.id :: (A ++ []), ?_, ?_⟩
    · rw [H.root, hr]
      refine .cons hA ?_ ?_ (by simp)
      · rw [H.rootNext m hm hp]; exact .nil
      · intro h
        obtain ⟨x, hx, he, -, hne⟩ := (hAm _).mp h
        exact hne (by rw [id_inj H.nodupId hx hm he])
    · intro i
      simp only [List.mem_cons, List.append_nil, hAm]
      constructor
      · rintro (rfl | ⟨x, hx, rfl, -⟩)
        · exact ⟨m, hm, rfl⟩
        · exact ⟨x, hx, rfl⟩
      · rintro ⟨x, hx, rfl⟩
        by_cases he : x.path = m.path
        · exact .inl (by rw [path_inj H.nodupPath hx hm he])
        · exact .inr ⟨x, hx, rfl, by rw [hp]; exact List.nil_prefix, he⟩

/-- `ush_deinit` of a shell that represents `W`. -/
theorem deinit_sim {E : Env} {u : Ush} {W : World} (H : WInv E u W) :
    ∃ nodes, ushDeinit E u = .ok { inBuf := u.inBuf, outBuf := u.outBuf, nodes := nodes, log := u.log } ∧
      nodes 0 = {} ∧ (∀ m ∈ W.tree, nodes m.id = {}) ∧ (∀ i, i ≠ 0 → (∀ m ∈ W.tree, m.id ≠ i) → nodes i = u.nodes i) := by
  obtain ⟨L, hL, hLm⟩ := H.tree.whole
  have hlen : L.length ≤ E.nodeCount := nodup_lt_length hL.nodup (fun i hi => by
    obtain ⟨x, hx, rfl⟩ := (hLm i).mp hi; exact H.tree.idLt x hx)
  refine ⟨setNode (fun i => if i ∈ L then {} else u.nodes i) 0 {}, ?_, ?_, ?_, ?_⟩
  · unfold ushDeinit
    rw [hL.deinit _ hlen]; rfl
  · simp [setNode]
  · intro m hm
    simp only [setNode]
    split
    · rfl
    · rw [if_pos ((hLm _).mpr ⟨m, hm, rfl⟩)]
  · intro i h0 hi
    simp only [setNode, if_neg h0]
    rw [if_neg]
    intro h
    obtain ⟨x, hx, rfl⟩ := (hLm i).mp h
    exact hi x hx rfl

end Ush
