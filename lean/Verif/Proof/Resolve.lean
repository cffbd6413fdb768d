import Verif.Proof.World
/-!
# `ush_node_get_absolute_path` is `resolveText`
-/
namespace Ush
open Spec

theorem parts_ne (b : Bool) (s : Str) : parts b s ≠ [] := by
  cases s with
  | nil => simp [parts]
  | cons c s =>
    unfold parts
    split
    · simp
    · cases parts false s <;> simp [push]

theorem parts_shape : ∀ (s : Str) (b : Bool), cNul ∉ s → ∃ p ps, parts b s = p :: ps ∧ chunks (p :: ps) = cSlash :: s ∧
    (b = false → cSlash ∉ p) ∧ cSlash ∉ p.tail ∧ cNul ∉ p ∧ (b = true → ps ≠ [] → p ≠ []) ∧
    (∀ c ∈ ps, Chunk c) ∧ (∀ c ∈ ps.dropLast, c ≠ []) := by
  intro s
  induction s with
  | nil => intro b _; exact ⟨[], [], rfl, by simp, by simp, by simp, by simp, by simp, by simp, by simp⟩
  | cons c s ih =>
    intro b hn
    have hn' : cNul ∉ s := fun h => hn (by simp [h])
    have hc : c ≠ cNul := fun h => hn (by simp [h])
    unfold parts
    by_cases h : c = cSlash ∧ b = false
    · rw [if_pos h]
      obtain ⟨p, ps, e1, e2, e3, e4, e5, e6, e7, e8⟩ := ih true hn'
      refine ⟨[], p :: ps, by rw [e1], by simp only [chunks_cons]; rw [← chunks_cons, e2, h.1]; rfl, by simp, by simp, by simp, ?_, ?_, ?_⟩
      · intro hb; rw [h.2] at hb; cases hb
      · intro c hc; rcases List.mem_cons.mp hc with rfl | hc
        · exact ⟨e4, e5⟩
        · exact e7 c hc
      · intro c hc
        cases ps with
        | nil => simp at hc
        | cons q qs =>
          rw [List.dropLast_cons_of_ne_nil (by simp)] at hc
          rcases List.mem_cons.mp hc with rfl | hc
          · exact e6 rfl (by simp)
          · exact e8 c hc
    · rw [if_neg h]
      obtain ⟨p, ps, e1, e2, e3, e4, e5, e6, e7, e8⟩ := ih false hn'
      refine ⟨c :: p, ps, by rw [e1]; rfl, ?_, ?_, ?_, ?_, by simp, e7, e8⟩
      · simp only [chunks_cons, List.cons_append, List.cons.injEq, true_and] at e2 ⊢
        exact e2
      · intro hb
        have : c ≠ cSlash := fun hc => h ⟨hc, hb⟩
        simp [e3 rfl, Ne.symm this]
      · simpa using e3 rfl
      · simp [e5, Ne.symm hc]

theorem parts_ok (s : Str) (hn : cNul ∉ s) : chunks (parts true s) = cSlash :: s ∧ (∀ c ∈ parts true s, Chunk c) ∧
    (∀ c ∈ (parts true s).dropLast, c ≠ []) := by
  obtain ⟨p, ps, e1, e2, e3, e4, e5, e6, e7, e8⟩ := parts_shape s true hn
  rw [e1]
  refine ⟨e2, ?_, ?_⟩
  · intro c hc; rcases List.mem_cons.mp hc with rfl | hc
    · exact ⟨e4, e5⟩
    · exact e7 c hc
  · intro c hc
    cases ps with
    | nil => simp at hc
    | cons q qs =>
      rw [List.dropLast_cons_of_ne_nil (by simp)] at hc
      rcases List.mem_cons.mp hc with rfl | hc
      · exact e6 rfl (by simp)
      · exact e8 c hc

theorem collapsePath_parts (cap : Nat) (s : Str) (hn : cNul ∉ s) (hcap : s.length + 1 < cap) :
    collapsePath cap (cSlash :: s) = .ok (if cSlash :: s = b!"/" then b!"/" else render (normalize (parts true s))) := by
  by_cases h : cSlash :: s = b!"/"
  · rw [if_pos h]
    unfold collapsePath
    rw [strcpy_ok (by simpa using hcap)]
    simp only [M.ok_bind]
    rw [if_pos h, h]; rfl
  · rw [if_neg h]
    obtain ⟨h1, h2, h3⟩ := parts_ok s hn
    rw [← h1, collapsePath_chunks cap _ (parts_ne _ _) ?_ h2 h3 (by rw [h1]; simpa using hcap)]
    · rfl
    · intro h4
      rw [h4] at h1
      simp at h1
      exact h (by rw [← h1])

/-- `ush_node_get_absolute_path` for every text. -/
theorem getAbsolutePath_resolve {E : Env} {u : Ush} {w : List Str} (hp : 0 < E.pathMax)
    (hc : currentPath u = .ok (render w)) (hw : ∀ c ∈ w, GoodComp c) (arg : Str) (han : cNul ∉ arg)
    (hcl : (render w).length < E.pathMax) (hl : (fullText (render w) arg).length < E.pathMax) :
    getAbsolutePath E u arg = .ok (resolveText w arg) := by
  rw [getAbsolutePath_eq hp hc arg hcl hl]
  have hcn : cNul ∉ render w := render_nul _ (fun c hc => (hw c hc).2.2)
  have hh : (fullText (render w) arg).head? = some cSlash := by
    unfold fullText
    split
    · assumption
    · have := render_head w
      cases hr : render w with
      | nil => rw [hr] at this; cases this
      | cons c cwd => rw [hr] at this; split <;> simpa using this
  have hn : cNul ∉ fullText (render w) arg := by
    unfold fullText
    split
    · exact han
    · split
      · simp [hcn, han]
      · simp [hcn, han]; decide
  obtain ⟨h1, h2, h3⟩ := stripSlash_props _ hh hn
  unfold resolveText
  simp only
  generalize stripSlash (fullText (render w) arg) = a at *
  cases a with
  | nil => cases h1
  | cons x a =>
    simp at h1; subst h1
    rw [collapsePath_parts _ a (fun h => h2 (by simp [h])) (by simp at h3; omega)]
    rfl

theorem fullText_room (c a : Str) : (fullText c a).length ≤ (fullText c []).length + a.length := by
  unfold fullText
  split
  · omega
  · simp

theorem fullText_length (w arg : Str) : (fullText w arg).length ≤ w.length + 1 + arg.length := by
  unfold fullText
  split
  · omega
  · split
    · simp
    · simp; omega

/-- For proper components `resolveText` is `resolve`. -/
theorem resolveText_arg (w : List Str) (hw : ∀ c ∈ w, GoodComp c) (abs : Bool) (comps : List Str) (slash : Bool)
    (h : ∀ c ∈ comps, GoodComp c) (hne : abs = false → comps ≠ []) :
    resolveText w (argText abs comps slash) = render (resolve w abs comps) := by
  let E : Env := { inSize := 0, outSize := 0, pathMax := (render w).length + 1 + (argText abs comps slash).length + 1, hostname := [], nodeCount := 0 }
  let u : Ush := { current := some 0, nodes := fun _ => { path := some (render w) } }
  have h1 := getAbsolutePath_arg (E := E) (u := u) (w := w) (by show 0 < _; simp [E]) rfl hw abs comps slash h hne
    (by show _ < _; simp [E])
  have h2 := getAbsolutePath_resolve (E := E) (u := u) (w := w) (by show 0 < _; simp [E]) rfl hw (argText abs comps slash)
    (argText_nul _ _ _ h) (by show _ < _; simp [E]; omega)
    (by have := fullText_length (render w) (argText abs comps slash); show _ < _; simp only [E]; omega)
  rw [h1] at h2
  exact (Except.ok.inj h2).symm

end Ush
