import Verif.Proof.Tab
/-!
# TAB where no directory has a name that begins with a dot

There `World.tabs` (what the code does) is `World.complete` (the longest common prefix of the candidates).
-/
namespace Ush
open Spec

variable {E : Env} {W : World} {w x head : Str}

/-- The directory whose sub-directories are offered is the one at the path of the working directory, except for the words `.` and `..`. -/
theorem tabDir_plain (hp : ∀ c ∈ W.path, c ≠ b!"." ∧ c ≠ b!"..") (h0 : x ≠ []) (h1 : x ≠ b!".") (h2 : x ≠ b!"..") :
    W.tabDir x = (W.tree.find W.path).or W.cwd := by
  have : resolve W.path false [x] = W.path ++ [x] := by
    unfold resolve
    exact normalize_plain _ (fun c hc => by
      rcases List.mem_append.mp hc with hc | hc
      · exact hp c hc
      · rw [List.mem_singleton.mp hc]; exact ⟨h1, h2⟩)
  unfold World.tabDir
  simp only [this, List.dropLast_concat]
  rw [if_neg (by simp [h0])]

/-- The names of the directories below one. -/
theorem mem_below (t : Tree) (o : Option Mount) (n : Str) : n ∈ ((o.map t.under).getD []).map (fun m => dirName m.path) ↔
    ∃ d, o = some d ∧ d ∈ t ∧ ∃ m ∈ t, m.path ≠ [] ∧ m.path.dropLast = d.path ∧ m.path.getLast? = some n := by
  cases o with
  | none => simp
  | some d =>
    simp only [Option.map_some, Option.getD_some, List.mem_map, Option.some.injEq, exists_eq_left']
    unfold Tree.under
    split
    · rename_i hd
      simp only [mem_kids, hd, true_and]
      constructor
      · rintro ⟨m, ⟨h1, h2, h3⟩, h4⟩
        refine ⟨m, h1, h2, h3, ?_⟩
        rw [← h4, dirName, List.getLast?_eq_getLast_of_ne_nil h2]
        rfl
      · rintro ⟨m, h1, h2, h3, h4⟩
        exact ⟨m, ⟨h1, h2, h3⟩, by rw [dirName, h4]; rfl⟩
    · rename_i hd
      simp [hd]

theorem offers_split (W : World) (x : Str) :
    W.offers x = (W.groups.files.map (·.name) ++ ((W.cwd.map Mount.files).getD []).map (·.name)).filter (fun n => x.isPrefixOf n) ++
      ((((W.tabDir x).map W.tree.under).getD []).map (fun m => dirName m.path)).filter (fun n => x.isPrefixOf n) := by
  unfold World.offers
  rw [List.filter_append]

theorem candidates_split (W : World) (x : Str) :
    W.candidates x = (W.groups.files.map (·.name) ++ ((W.cwd.map Mount.files).getD []).map (·.name)).filter (fun n => x.isPrefixOf n) ++
      (W.below.map (fun m => dirName m.path)).filter (fun n => x.isPrefixOf n) := by
  unfold World.candidates World.names
  rw [List.filter_append]

theorem dots_none {o : Option Mount} (h : ∀ m ∈ W.tree, ∀ c ∈ m.path, ¬ x <+: c) :
    (((o.map W.tree.under).getD []).map (fun m => dirName m.path)).filter (fun n => x.isPrefixOf n) = [] := by
  rw [List.filter_eq_nil_iff]
  intro n hn hpre
  obtain ⟨m, hm, rfl⟩ := List.mem_map.mp hn
  obtain ⟨h1, h2⟩ : m ∈ W.tree ∧ m.path ≠ [] := by
    cases o with
    | none => cases hm
    | some d =>
      obtain ⟨a, b⟩ := under_mem hm
      simp [isKid] at b
      exact ⟨a, b.1⟩
  refine h m h1 (dirName m.path) ?_ (List.isPrefixOf_iff_prefix.mp hpre)
  unfold dirName
  rw [List.getLast?_eq_getLast_of_ne_nil h2]
  exact List.getLast_mem h2

/-- The names offered are the candidates. -/
theorem offers_eq (hh : W.Usual w) (hx : w <+: x) : W.offers x = W.candidates x := by
  rw [offers_split, candidates_split]
  unfold World.below
  by_cases h1 : x = b!"."
  · have := hh.2.1 b!"." (by simp) (h1 ▸ hx)
    rw [← h1] at this
    rw [dots_none this, dots_none this]
  · by_cases h2 : x = b!".."
    · have := hh.2.1 b!".." (by simp) (h2 ▸ hx)
      rw [← h2] at this
      rw [dots_none this, dots_none this]
    · by_cases h0 : x = []
      · rw [show W.tabDir x = W.cwd by unfold World.tabDir; rw [if_pos (Or.inl h0)]]
      · rw [tabDir_plain hh.1 h0 h1 h2, hh.2.2]

theorem candidates_prefix {c : Str} (h : c ∈ W.candidates x) : x <+: c := List.isPrefixOf_iff_prefix.mp (List.mem_filter.mp h).2

/-- All candidates for `x` that continue with `z` are those for `z`. -/
theorem candidates_keep {z : Str} (hxz : x <+: z) (h : ∀ c ∈ W.candidates x, z <+: c) : W.candidates z = W.candidates x := by
  have e : W.candidates z = hits z (W.candidates x) := (hits_mono hxz W.names).symm
  rw [e]
  exact List.filter_eq_self.mpr (fun c hc => List.isPrefixOf_iff_prefix.mpr (h c hc))

theorem more_at (hh : W.Usual w) (h2 : 2 ≤ (W.candidates w).length) :
    (∀ x, w <+: x → x <+: commonPrefix (W.candidates w) → x ≠ commonPrefix (W.candidates w) →
      ∃ z, W.more x = some z ∧ z.length = x.length + 1 ∧ w <+: z ∧ z <+: commonPrefix (W.candidates w)) ∧
    W.more (commonPrefix (W.candidates w)) = none := by
  have hne : W.candidates w ≠ [] := by intro h; rw [h] at h2; simp at h2
  have hwp : w <+: commonPrefix (W.candidates w) := prefix_commonPrefix hne (fun c hc => candidates_prefix hc)
  have keep : ∀ x, w <+: x → x <+: commonPrefix (W.candidates w) → W.candidates x = W.candidates w := fun x h1 h2 =>
    candidates_keep h1 (fun c hc => h2.trans (commonPrefix_prefix hc))
  obtain ⟨c, hc⟩ : ∃ c, (W.candidates w).getLast? = some c := ⟨_, List.getLast?_eq_getLast_of_ne_nil hne⟩
  have hcm := List.mem_of_getLast? hc
  have hpc : commonPrefix (W.candidates w) <+: c := commonPrefix_prefix hcm
  constructor
  · intro x hwx hxp hxn
    have hlt : x.length < (commonPrefix (W.candidates w)).length := by
      have := hxp.length_le
      rcases Nat.lt_or_ge x.length (commonPrefix (W.candidates w)).length with h | h
      · exact h
      · exact absurd (hxp.eq_of_length (by omega)) hxn
    obtain ⟨t, ht⟩ := hxp
    cases t with
    | nil => rw [← ht] at hlt; simp at hlt
    | cons a t =>
      have hz : x ++ [a] <+: commonPrefix (W.candidates w) := ⟨t, by rw [← ht]; simp⟩
      have hwz : w <+: x ++ [a] := hwx.trans (List.prefix_append _ _)
      have hca : c[x.length]? = some a := by
        obtain ⟨s, hs⟩ := hpc
        rw [← hs, ← ht]
        simp
      refine ⟨x ++ [a], ?_, by simp, hwz, hz⟩
      unfold World.more
      rw [offers_eq hh hwx, keep x hwx ⟨_, ht⟩, hc]
      simp only [Option.bind_some]
      rw [hca]
      simp only [Option.bind_some]
      rw [offers_eq hh hwz, keep _ hwz hz, if_pos ⟨h2, Nat.le_refl _⟩]
  · generalize hp : commonPrefix (W.candidates w) = p at *
    unfold World.more
    rw [offers_eq hh hwp, keep p hwp (List.prefix_refl p), hc]
    simp only [Option.bind_some]
    cases ha : c[p.length]? with
    | none => rfl
    | some a =>
      simp only [Option.bind_some]
      have hwz : w <+: p ++ [a] := hwp.trans (List.prefix_append _ _)
      rw [offers_eq hh hwz]
      refine if_neg (fun h => ?_)
      have e : W.candidates (p ++ [a]) = hits (p ++ [a]) (W.candidates w) := (hits_mono hwz W.names).symm
      have e2 : W.candidates (p ++ [a]) = W.candidates w := by
        have h' := h.2
        rw [e] at h' ⊢
        exact (List.filter_sublist).eq_of_length_le h'
      have : p ++ [a] <+: commonPrefix (W.candidates w) := prefix_commonPrefix hne (fun d hd => by
        rw [← e2] at hd
        exact candidates_prefix hd)
      rw [hp] at this
      have := this.length_le
      simp at this
      omega

/-- The word grows to the longest common prefix, through words with the same candidates. -/
theorem growth_ideal (hh : W.Usual w) (h2 : 2 ≤ (W.candidates w).length) :
    ∀ (k : Nat) (x : Str), w <+: x → x <+: commonPrefix (W.candidates w) → (commonPrefix (W.candidates w)).length ≤ k + x.length →
      lastOf W k x = commonPrefix (W.candidates w) ∧ ∀ z ∈ W.growth k x, w <+: z ∧ z <+: commonPrefix (W.candidates w) := by
  obtain ⟨m1, m2⟩ := more_at hh h2
  intro k
  induction k with
  | zero =>
    intro x hwx hxp hk
    have := hxp.length_le
    have e := hxp.eq_of_length (by omega)
    refine ⟨e, fun z hz => ?_⟩
    rw [List.mem_singleton.mp hz]
    exact ⟨hwx, hxp⟩
  | succ k ih =>
    intro x hwx hxp hk
    by_cases hx : x = commonPrefix (W.candidates w)
    · have hm : W.more x = none := by rw [hx]; exact m2
      rw [lastOf_none hm, growth_none hm]
      refine ⟨hx, fun z hz => ?_⟩
      rw [List.mem_singleton.mp hz]
      exact ⟨hwx, hxp⟩
    · obtain ⟨z, hz, hzl, hwz, hzp⟩ := m1 x hwx hxp hx
      rw [lastOf_some hz, growth_some hz]
      obtain ⟨i1, i2⟩ := ih z hwz hzp (by omega)
      refine ⟨i1, fun y hy => ?_⟩
      rcases List.mem_cons.mp hy with rfl | hy
      · exact ⟨hwx, hxp⟩
      · exact i2 y hy

/-- The names considered are the candidates. -/
theorem considered_ideal (hh : W.Usual w) (ht : ∀ c ∈ W.candidates w, c.length < E.inSize) : ∀ c ∈ W.considered E w, c ∈ W.candidates w := by
  intro c hc
  obtain ⟨z, hz, hc⟩ := List.mem_flatMap.mp hc
  by_cases h2 : 2 ≤ (W.candidates w).length
  · have hne : W.candidates w ≠ [] := by intro h; rw [h] at h2; simp at h2
    obtain ⟨d, hd⟩ := List.exists_mem_of_ne_nil _ hne
    have h3 := (commonPrefix_prefix hd).length_le
    have h4 := ht d hd
    obtain ⟨h5, h6⟩ := (growth_ideal hh h2 E.inSize w (List.prefix_refl w) (prefix_commonPrefix hne (fun c hc => candidates_prefix hc)) (by omega)).2 z hz
    rw [offers_eq hh h5, candidates_keep h5 (fun c hc => h6.trans (commonPrefix_prefix hc))] at hc
    exact hc
  · have hm : W.more w = none := by
      unfold World.more
      rw [offers_eq hh (List.prefix_refl w)]
      cases (W.candidates w).getLast? with
      | none => rfl
      | some c =>
        simp only [Option.bind_some]
        cases c[w.length]? with
        | none => rfl
        | some a => simp only [Option.bind_some]; exact if_neg (fun h => h2 h.1)
    rw [growth_none hm] at hz
    rw [List.mem_singleton.mp hz, offers_eq hh (List.prefix_refl w)] at hc
    exact hc

theorem tabOk_ideal (hh : W.Usual w) (ht : W.Typable E head w) : W.TabOk E head w :=
  tabOk_of ht.1 (fun c hc => ht.2 c (considered_ideal hh (fun d hd => by have := (ht.2 d hd).1; omega) c hc))

theorem grown_ideal (hh : W.Usual w) (ht : ∀ c ∈ W.candidates w, c.length < E.inSize) :
    W.grown E w = if W.candidates w = [] then w else commonPrefix (W.candidates w) := by
  have e := offers_eq hh (List.prefix_refl w)
  rcases hcs : W.candidates w with _ | ⟨c, _ | ⟨d, l⟩⟩
  · have hm : W.more w = none := by unfold World.more; rw [e, hcs]; rfl
    unfold World.grown
    rw [e, hcs, growth_none hm]
    rfl
  · unfold World.grown
    rw [e, hcs]
    rfl
  · have h2 : 2 ≤ (W.candidates w).length := by rw [hcs]; simp
    have hne : W.candidates w ≠ [] := by rw [hcs]; simp
    have h3 := (commonPrefix_prefix (cs := W.candidates w) (c := c) (by rw [hcs]; simp)).length_le
    have h4 := ht c (by rw [hcs]; simp)
    have := (growth_ideal hh h2 E.inSize w (List.prefix_refl w) (prefix_commonPrefix hne (fun c hc => candidates_prefix hc)) (by omega)).1
    unfold World.grown
    rw [e, hcs, if_neg (by simp)]
    rw [hcs] at this
    exact this

theorem tabs_ideal (hh : W.Usual w) (ht : ∀ c ∈ W.candidates w, c.length < E.inSize) : W.tabs E head w = W.complete E head w := by
  unfold World.tabs World.complete
  rw [grown_ideal hh ht, offers_eq hh (List.prefix_refl w)]
  simp only
  by_cases h0 : W.candidates w = []
  · simp [h0]
  · rw [if_neg h0, if_neg h0]
    by_cases hp : commonPrefix (W.candidates w) = w
    · by_cases h1 : (W.candidates w).length = 1
      · simp [hp, h1]
      · have : 2 ≤ (W.candidates w).length := by
          have := List.length_pos_iff.mpr h0
          omega
        simp [hp, h1, this]
    · rw [if_pos hp, if_neg (fun h => hp h.2)]

end Ush
