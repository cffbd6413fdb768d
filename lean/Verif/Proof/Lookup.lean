import Verif.Proof.Mount
import Verif.Spec.Resolve
/-!
# Path resolution, `cd` and file lookup
-/
namespace Ush
open Spec

/-- Every absolute text is a list of parts. -/
theorem exists_chunks : ∀ (n : Nat) (s : Str), s.length ≤ n → s.head? = some cSlash → cNul ∉ s →
    ∃ cs, s = chunks cs ∧ cs ≠ [] ∧ (∀ c ∈ cs, Chunk c) ∧ (∀ c ∈ cs.dropLast, c ≠ []) := by
  intro n
  induction n with
  | zero => intro s h h1; rw [List.eq_nil_of_length_eq_zero (Nat.le_zero.mp h)] at h1; cases h1
  | succ n ih =>
    intro s hl hh hn
    match s with
    | [] => cases hh
    | [c] =>
      simp only [List.head?_cons, Option.some.injEq] at hh
      subst hh
      exact ⟨[[]], rfl, by simp, by simp [Chunk], by simp⟩
    | c :: x :: r =>
      simp only [List.head?_cons, Option.some.injEq] at hh
      subst hh
      simp only [List.mem_cons, not_or] at hn
      have htw := List.takeWhile_append_dropWhile (p := fun a => decide (a ≠ cSlash)) (l := r)
      generalize ht : r.takeWhile (fun a => decide (a ≠ cSlash)) = t at htw
      generalize hd : r.dropWhile (fun a => decide (a ≠ cSlash)) = d at htw
      have hts : cSlash ∉ t := by
        intro h
        rw [← ht] at h
        have := List.mem_takeWhile_imp h
        simp at this
      have htn : cNul ∉ t := fun h => hn.2.2 (by rw [← htw]; simp [h])
      have hck : Chunk (x :: t) := ⟨by simpa using hts, by simp only [List.mem_cons, not_or]; exact ⟨hn.2.1, htn⟩⟩
      by_cases hd0 : d = []
      · subst hd0
        refine ⟨[x :: t], ?_, by simp, by simpa using hck, by simp⟩
        simp [← htw]
      · have hdh : d.head? = some cSlash := by
          have := List.head?_dropWhile_not (fun a => decide (a ≠ cSlash)) r
          rw [hd] at this
          cases d with
          | nil => exact absurd rfl hd0
          | cons y ys => simpa using this
        obtain ⟨cs, h1, h2, h3, h4⟩ := ih d (by
          have := congrArg List.length htw
          simp only [List.length_cons, List.length_append] at this hl
          omega) hdh (fun h => hn.2.2 (by rw [← htw]; simp [h]))
        refine ⟨(x :: t) :: cs, ?_, by simp, ?_, ?_⟩
        · rw [chunks_cons, ← h1, ← htw]; simp
        · intro c hc
          rcases List.mem_cons.mp hc with rfl | hc
          · exact hck
          · exact h3 c hc
        · intro c hc
          cases cs with
          | nil => exact absurd rfl h2
          | cons y ys =>
            rw [List.dropLast_cons_cons] at hc
            rcases List.mem_cons.mp hc with rfl | hc
            · simp
            · exact h4 c hc

theorem normalize_mem (cs : List Str) : ∀ c ∈ normalize cs, c ∈ cs := by
  have : ∀ (cs st : List Str), ∀ c ∈ cs.foldl pushComp st, c ∈ st ∨ c ∈ cs := by
    intro cs
    induction cs with
    | nil => intro st c h; exact Or.inl h
    | cons d ds ih =>
      intro st c h
      rw [List.foldl_cons] at h
      rcases ih _ c h with h | h
      · unfold pushComp at h
        split at h
        · exact Or.inl h
        · split at h
          · exact Or.inl (List.dropLast_subset _ h)
          · rcases List.mem_append.mp h with h | h
            · exact Or.inl h
            · exact Or.inr (by simp at h; simp [h])
      · exact Or.inr (by simp [h])
  intro c h
  rcases this cs [] c h with h | h
  · cases h
  · exact h

theorem chunks_nul (cs : List Str) (h : ∀ c ∈ cs, cNul ∉ c) : cNul ∉ chunks cs := by
  induction cs with
  | nil => simp
  | cons c cs ih =>
    rw [chunks_cons]
    simp only [List.cons_append, List.mem_cons, List.mem_append, not_or]
    exact ⟨by decide, h c (by simp), ih (fun c hc => h c (by simp [hc]))⟩

theorem render_nul (cs : List Str) (h : ∀ c ∈ cs, cNul ∉ c) : cNul ∉ render cs := by
  by_cases h0 : cs = []
  · subst h0; decide
  · rw [render_ne _ h0]; exact chunks_nul cs h

theorem render_head (cs : List Str) : (render cs).head? = some cSlash := by
  by_cases h0 : cs = []
  · subst h0; rfl
  · rw [render_ne _ h0]
    cases cs with
    | nil => exact absurd rfl h0
    | cons c cs => simp

/-- Normalisation of any absolute text stays inside the buffers and yields an absolute text. -/
theorem collapsePath_any (cap : Nat) (s : Str) (hh : s.head? = some cSlash) (hn : cNul ∉ s) (hl : s.length < cap) :
    ∃ r, collapsePath cap s = .ok r ∧ r.head? = some cSlash ∧ cNul ∉ r ∧ r.length ≤ s.length := by
  obtain ⟨cs, rfl, h2, h3, h4⟩ := exists_chunks _ s (Nat.le_refl _) hh hn
  by_cases h5 : cs = [[]]
  · subst h5
    refine ⟨b!"/", ?_, rfl, by decide, by simp⟩
    have : chunks [[]] = b!"/" := rfl
    rw [this] at hl ⊢
    unfold collapsePath
    rw [strcpy_ok hl, M.ok_bind, if_pos rfl]; rfl
  · refine ⟨_, collapsePath_chunks cap cs h2 h5 h3 h4 hl, ?_, ?_, ?_⟩
    · split
      · rfl
      · rename_i h
        cases hn : normalize cs with
        | nil => exact absurd hn h
        | cons c cs => simp
    · split
      · decide
      · exact chunks_nul _ (fun c hc => (h3 c (normalize_mem cs c hc)).2)
    · split
      · have : 0 < (chunks cs).length := by
          cases cs with
          | nil => exact absurd rfl h2
          | cons c cs => simp
        simp; omega
      · simpa [normalize] using foldl_pushComp_length cs []

theorem getAbsolutePath_eq {E : Env} {u : Ush} {cwd : Str} (hp : 0 < E.pathMax) (hc : currentPath u = .ok cwd) (arg : Str)
    (hcl : cwd.length < E.pathMax) (hl : (fullText cwd arg).length < E.pathMax) :
    getAbsolutePath E u arg = collapsePath E.pathMax (stripSlash (fullText cwd arg)) := by
  unfold getAbsolutePath
  rw [vla_ok hp]
  simp only [M.ok_bind]
  unfold fullText at hl ⊢
  by_cases h : arg.head? = some cSlash
  · rw [if_pos h] at hl
    rw [if_pos h, if_pos h, strcpy_ok hl]
    rfl
  · rw [if_neg h] at hl
    rw [if_neg h, if_neg h, hc]
    simp only [M.ok_bind]
    rw [strcpy_ok hcl]
    simp only [M.ok_bind]
    by_cases h2 : cwd = b!"/"
    · rw [if_pos h2] at hl
      rw [if_neg (by simp [h2]), if_pos h2]
      simp only [M.pure_eq, M.ok_bind]
      rw [strcat_ok (by simpa using hl)]
      rfl
    · rw [if_neg h2] at hl
      rw [if_pos h2, if_neg h2]
      have : cwd.length + (b!"/").length < E.pathMax := by simp at hl ⊢; omega
      rw [strcat_ok this]
      simp only [M.ok_bind]
      rw [strcat_ok (by simp at hl ⊢; omega)]
      rfl

theorem stripSlash_props (a : Str) (hh : a.head? = some cSlash) (hn : cNul ∉ a) :
    (stripSlash a).head? = some cSlash ∧ cNul ∉ stripSlash a ∧ (stripSlash a).length ≤ a.length := by
  unfold stripSlash
  split
  · rename_i h
    refine ⟨?_, fun h' => hn (List.dropLast_subset _ h'), by simp⟩
    match a with
    | [] => simp at h
    | [c] => simp at h
    | c :: d :: r => simpa using hh
  · exact ⟨hh, hn, Nat.le_refl _⟩

/-- Resolution never faults when everything fits, for any text. -/
theorem getAbsolutePath_any {E : Env} {u : Ush} {cwd : Str} (hp : 0 < E.pathMax) (hc : currentPath u = .ok cwd) (arg : Str)
    (hcl : cwd.length < E.pathMax) (hl : (fullText cwd arg).length < E.pathMax)
    (hcn : cNul ∉ cwd) (hch : cwd.head? = some cSlash) (han : cNul ∉ arg) :
    ∃ r, getAbsolutePath E u arg = .ok r ∧ r.head? = some cSlash ∧ cNul ∉ r ∧ r.length < E.pathMax := by
  rw [getAbsolutePath_eq hp hc arg hcl hl]
  have hh : (fullText cwd arg).head? = some cSlash := by
    unfold fullText
    split
    · assumption
    · cases cwd with
      | nil => cases hch
      | cons c cwd => split <;> simpa using hch
  have hn : cNul ∉ fullText cwd arg := by
    unfold fullText
    split
    · exact han
    · split
      · simp [hcn, han]
      · simp [hcn, han]; decide
  obtain ⟨h1, h2, h3⟩ := stripSlash_props _ hh hn
  obtain ⟨r, h4, h5, h6, h7⟩ := collapsePath_any E.pathMax _ h1 h2 (by omega)
  exact ⟨r, h4, h5, h6, by omega⟩

theorem render_last (cs : List Str) (h : ∀ c ∈ cs, GoodComp c) (h0 : cs ≠ []) :
    (render cs)[(render cs).length - 1]? ≠ some cSlash := by
  rcases List.eq_nil_or_concat cs with rfl | ⟨l, c, rfl⟩
  · exact absurd rfl h0
  · rw [List.concat_eq_append] at *
    rw [render_concat]
    generalize (if l = [] then [] else render l) = q
    have hc := h c (by simp)
    rcases List.eq_nil_or_concat c with rfl | ⟨d, x, rfl⟩
    · exact absurd rfl hc.1
    · rw [List.concat_eq_append] at *
      have : (q ++ cSlash :: (d ++ [x])) = (q ++ cSlash :: d) ++ [x] := by simp
      rw [this]
      have hx : x ≠ cSlash := by rintro rfl; exact hc.2.1 (by simp)
      simp [hx]

theorem stripSlash_render (cs : List Str) (h : ∀ c ∈ cs, GoodComp c) (b : Bool) :
    stripSlash (render cs ++ (if b then b!"/" else [])) = render cs := by
  cases b with
  | true =>
    unfold stripSlash
    have := render_length_pos cs
    simp only [if_true]
    rw [if_pos]
    · simp
    · constructor
      · simp; omega
      · simp
  | false =>
    simp only [Bool.false_eq_true, if_false, List.append_nil]
    unfold stripSlash
    by_cases h0 : cs = []
    · subst h0; simp [render]
    · rw [if_neg]
      rintro ⟨-, h2⟩
      exact render_last cs h h0 h2

/-- Text of a relative path. -/
theorem relText_eq (cs : List Str) : render cs = cSlash :: (render cs).drop 1 := by
  have := render_head cs
  cases hr : render cs with
  | nil => rw [hr] at this; cases this
  | cons c r => rw [hr] at this; simp at this; subst this; rfl

theorem fullText_rel (w cs : List Str) (hcs : ∀ c ∈ cs, GoodComp c) (h0 : cs ≠ []) (sl : Str)
    : fullText (render w) ((render cs).drop 1 ++ sl) = render (w ++ cs) ++ sl ∨ ∃ c, c ∈ w ∧ ¬ GoodComp c := by
  by_cases hw : ∀ c ∈ w, GoodComp c
  · left
    have hhead : ((render cs).drop 1 ++ sl).head? ≠ some cSlash := by
      rw [render_ne _ h0]
      cases cs with
      | nil => exact absurd rfl h0
      | cons c cs =>
        have hc := hcs c (by simp)
        cases c with
        | nil => exact absurd rfl hc.1
        | cons x c =>
          simp only [chunks_cons, List.cons_append, List.drop_succ_cons, List.drop_zero, List.head?_cons, ne_eq,
            Option.some.injEq]
          rintro rfl; exact hc.2.1 (by simp)
    unfold fullText
    rw [if_neg hhead]
    by_cases hw0 : w = []
    · subst hw0
      rw [if_pos (by rfl), List.nil_append]
      conv => rhs; rw [relText_eq cs]
      rfl
    · rw [if_neg (render_ne_slash w hw hw0), render_ne (w ++ cs) (by simp [hw0])]
      have : chunks (w ++ cs) = render w ++ render cs := by
        rw [render_ne _ hw0, render_ne _ h0]; simp [chunks]
      rw [this]
      conv => rhs; rw [relText_eq cs]
      simp
  · right
    simpa using hw

/-! ## `cd` -/

/-- The working directory is the directory `m`, which is mounted or has been mounted: then its node object is in no list. -/
structure CwdInv (E : Env) (u : Ush) (t : Tree) (m : Mount) : Prop where
  cur : u.current = some m.id
  linked : m ∈ t ∨ ∀ x ∈ t, x.id ≠ m.id
  good : ∀ c ∈ m.path, GoodComp c
  fits : (render m.path).length < E.pathMax
  pathField : (u.nodes m.id).path = some (render m.path)
  files : (u.nodes m.id).files = m.files
  parent : (u.nodes m.id).parent = none ↔ m.path = []

/-- A mounted directory. -/
theorem CwdInv.of_mem {E : Env} {u : Ush} {t : Tree} {m : Mount} (H : TreeInv E u t) (hm : m ∈ t) (hc : u.current = some m.id) :
    CwdInv E u t m := by
  refine ⟨hc, .inl hm, H.good m hm, H.fits m hm, H.path m hm, H.files m hm, ?_⟩
  rw [H.parent m hm]
  split
  · simp_all
  · rename_i h
    obtain ⟨m', h1, h2⟩ := H.closed m hm h
    rw [(find_eq_some H.nodupPath).mpr ⟨h1, h2⟩]
    simp [h]

theorem CwdInv.path {E : Env} {u : Ush} {t : Tree} {m : Mount} (C : CwdInv E u t m) : currentPath u = .ok (render m.path) := by
  unfold currentPath
  rw [C.cur]
  simp only
  rw [C.pathField]

/-- The list of the sub-directories. -/
theorem CwdInv.kids {E : Env} {u : Ush} {t : Tree} {m : Mount} (H : TreeInv E u t) (C : CwdInv E u t m) :
    IsChain u.nodes (u.nodes m.id).children ((t.under m).map Mount.id) := by
  unfold Tree.under
  split
  · next h => exact H.kids m h
  · next h =>
    rw [H.free m.id (C.linked.resolve_left h)]
    rfl

theorem CwdInv.congr {E : Env} {u v : Ush} {t t' : Tree} {m : Mount} (C : CwdInv E u t m) (hc : v.current = u.current)
    (hn : v.nodes m.id = u.nodes m.id) (hl : m ∈ t' ∨ ∀ x ∈ t', x.id ≠ m.id) : CwdInv E v t' m :=
  ⟨hc.trans C.cur, hl, C.good, C.fits, by rw [hn]; exact C.pathField, by rw [hn]; exact C.files, by rw [hn]; exact C.parent⟩

/-- `ush_node_set_current_dir` in terms of the abstract tree. -/
theorem setCurrentDir_sim {E : Env} {u : Ush} {t : Tree} {m : Mount} (H : TreeInv E u t) (C : CwdInv E u t m) (arg : Str)
    (ha0 : arg ≠ []) (han : cNul ∉ arg) (hl : (fullText (render m.path) arg).length < E.pathMax) :
    ∃ abs, getAbsolutePath E u arg = .ok abs ∧
      setCurrentDir E u arg = .ok (match t.findText abs with
        | some m' => ({ u with current := some m'.id }, .ok)
        | none => (u, .nodeNotFound)) := by
  obtain ⟨abs, h1, h2, -, h4⟩ := getAbsolutePath_any H.pathMax C.path arg C.fits hl
    (render_nul _ (fun c hc => (C.good c hc).2.2)) (render_head _) han
  refine ⟨abs, h1, ?_⟩
  unfold setCurrentDir
  rw [if_neg ha0, h1]
  simp only [M.ok_bind]
  rw [getByPath_eq H abs h4 (by rintro rfl; cases h2)]
  simp only [M.ok_bind]
  cases t.findText abs with
  | none => rfl
  | some m' => rfl

/-! ## File lookup -/

theorem findCommand_chain (nodes : NodeId → Node) (name : Str) : ∀ (g : Groups) (fuel : Nat) (s : Option NodeId),
    IsChain nodes s (g.map Group.id) → (∀ c ∈ g, (nodes c.id).files = c.files) → g.length ≤ fuel →
    findCommand nodes name fuel s = .ok (g.files.find? (fun f => f.name == name)) := by
  intro g
  induction g with
  | nil => intro fuel s h _ _; cases h; cases fuel <;> rfl
  | cons c g ih =>
    intro fuel s h hf hl
    obtain ⟨rfl, h⟩ := h
    simp only [List.length_cons] at hl
    obtain ⟨fuel, rfl⟩ : ∃ k, fuel = k + 1 := ⟨fuel - 1, by omega⟩
    rw [findCommand, hf c (by simp)]
    have e : Groups.files (c :: g) = c.files ++ Groups.files g := rfl
    rw [e, List.find?_append]
    have e2 : c.files.find? (fun f => decide (f.name = name)) = c.files.find? (fun f => f.name == name) := by
      apply find?_congr'
      intro f _
      rw [Bool.eq_iff_iff]; simp
    rw [e2]
    cases c.files.find? (fun f => f.name == name) with
    | some f => rfl
    | none =>
      simp only [Option.none_or]
      exact ih fuel _ h (fun d hd => hf d (by simp [hd])) (by omega)

theorem CmdInv.length {E : Env} {u : Ush} {g : Groups} (H : CmdInv E u g) : g.length ≤ E.nodeCount := by
  have := nodup_lt_length H.nodupId (n := E.nodeCount) (by
    intro i hi
    obtain ⟨c, hc, rfl⟩ := List.mem_map.mp hi
    exact H.idLt c hc)
  simpa using this

/-- Names of files are proper components and their full paths fit. -/
def FilesOk (E : Env) (t : Tree) : Prop :=
  ∀ m ∈ t, ∀ f ∈ m.files, GoodComp f.name ∧ (render (m.path ++ [f.name])).length < E.pathMax

theorem findFileIn_eq {E : Env} (p : List Str) (hp : ∀ c ∈ p, GoodComp c) (abs : Str) : ∀ (fs : List FileDesc),
    (∀ f ∈ fs, (render (p ++ [f.name])).length < E.pathMax) →
    findFileIn E (render p) abs fs = .ok (fs.find? (fun f => render (p ++ [f.name]) == abs)) := by
  intro fs
  induction fs with
  | nil => intro _; rfl
  | cons f fs ih =>
    intro h
    rw [findFileIn, joinPath_render E.pathMax p f.name hp (h f (by simp))]
    simp only [M.ok_bind, List.find?_cons]
    by_cases he : render (p ++ [f.name]) = abs
    · simp [he]
    · have : (render (p ++ [f.name]) == abs) = false := by simpa using he
      rw [if_neg he, this]
      exact ih (fun g hg => h g (by simp [hg]))

/-- The search over a directory and its later siblings, as a list of mounts. -/
theorem findFile_chain {E : Env} {u : Ush} {t : Tree} (H : TreeInv E u t) (F : FilesOk E t) (abs : Str) :
    ∀ (ms : List Mount) (fuel : Nat) (s : Option NodeId), (∀ m ∈ ms, m ∈ t) → IsChain u.nodes s (ms.map Mount.id) →
    ms.length ≤ fuel →
    findFile E u.nodes abs fuel s =
      .ok (ms.findSome? (fun m => m.files.find? (fun f => render (m.path ++ [f.name]) == abs))) := by
  intro ms
  induction ms with
  | nil => intro fuel s _ h _; cases h; cases fuel <;> rfl
  | cons m ms ih =>
    intro fuel s hm h hl
    obtain ⟨rfl, h⟩ := h
    simp only [List.length_cons] at hl
    obtain ⟨fuel, rfl⟩ : ∃ k, fuel = k + 1 := ⟨fuel - 1, by omega⟩
    have hmt := hm m (by simp)
    have e : findFileNode E abs (u.nodes m.id) =
        .ok (m.files.find? (fun f => render (m.path ++ [f.name]) == abs)) := by
      unfold findFileNode
      rw [H.files m hmt, H.path m hmt]
      split
      · rename_i hfs; rw [hfs]; rfl
      · exact findFileIn_eq m.path (H.good m hmt) abs m.files (fun f hf => (F m hmt f hf).2)
    rw [findFile]
    rw [e]
    simp only [M.ok_bind, List.findSome?_cons]
    cases m.files.find? (fun f => render (m.path ++ [f.name]) == abs) with
    | some f => rfl
    | none => exact ih fuel _ (fun x hx => hm x (by simp [hx])) h (by omega)

/-- A tail of a chain is a chain. -/
theorem IsChain.tail {nodes : NodeId → Node} : ∀ (as bs : List NodeId) (s : Option NodeId) (x : NodeId),
    IsChain nodes s (as ++ x :: bs) → IsChain nodes (some x) (x :: bs) := by
  intro as
  induction as with
  | nil => intro bs s x h; exact ⟨rfl, h.2⟩
  | cons a as ih => intro bs s x h; exact ih bs _ x h.2

/-- The nodes that follow a mounted directory in memory are mounted siblings. -/
theorem TreeInv.siblings {E : Env} {u : Ush} {t : Tree} (H : TreeInv E u t) (m : Mount) (hm : m ∈ t) :
    ∃ ms : List Mount, (∀ x ∈ ms, x ∈ t ∧ x ≠ m) ∧ IsChain u.nodes (some m.id) (m.id :: ms.map Mount.id) ∧
      (ms.length + 1 ≤ E.nodeCount) := by
  by_cases h0 : m.path = []
  · refine ⟨[], by simp, ⟨rfl, H.rootNext m hm h0⟩, ?_⟩
    have := H.idLt m hm
    exact Nat.lt_of_le_of_lt (Nat.zero_le _) this
  · obtain ⟨P, hP, hPp⟩ := H.closed m hm h0
    have hmk : m ∈ t.kids P.path := mem_kids.mpr ⟨hm, h0, hPp.symm⟩
    obtain ⟨as, bs, hab⟩ := List.append_of_mem hmk
    have hc := H.kids P hP
    rw [hab] at hc
    simp only [List.map_append, List.map_cons] at hc
    refine ⟨bs, ?_, IsChain.tail _ _ _ _ hc, ?_⟩
    · intro x hx
      have hxk : x ∈ t.kids P.path := by rw [hab]; simp [hx]
      refine ⟨(mem_kids.mp hxk).1, ?_⟩
      rintro rfl
      have := kids_ids_nodup H.nodupId P.path
      rw [hab, List.map_append, List.map_cons, List.nodup_append] at this
      have h2 := (List.nodup_cons.mp this.2.1).1
      exact h2 (List.mem_map_of_mem hx)
    · have := H.kids_length P.path
      rw [hab] at this
      simp at this
      omega

theorem pathUpper_length (q : Str) : (pathUpper q).length ≤ q.length := by
  have hl : ∀ k, (pathUpperLoop q k).length ≤ q.length := by
    intro k
    induction k with
    | zero => simp [pathUpperLoop]
    | succ k ih =>
      rw [pathUpperLoop]
      split
      · exact ih
      · split
        · simp; omega
        · simp; omega
  unfold pathUpper
  split
  · simp
  · exact hl _

/-- Second phase of `ush_file_find_by_name`: for every resolved text the result is the file with that path. -/
theorem findFile_sim {E : Env} {u : Ush} {t : Tree} (H : TreeInv E u t) (F : FilesOk E t) (abs : Str)
    (hl : abs.length < E.pathMax) :
    (getParentByPath E u abs >>= fun par => findFile E u.nodes abs E.nodeCount par) = .ok (t.findFile abs) := by
  have hgood : ∀ m ∈ t, ∀ f ∈ m.files, ∀ c ∈ m.path ++ [f.name], GoodComp c := by
    intro m hm f hf c hc
    rcases List.mem_append.mp hc with h | h
    · exact H.good m hm c h
    · simp at h; subst h; exact (F m hm f hf).1
  -- the abstract result when the directory is not the parent of `abs`
  have hnone : ∀ m ∈ t, render m.path ≠ pathUpper abs → m.files.find? (fun f => render (m.path ++ [f.name]) == abs) = none := by
    intro m hm hne
    rw [List.find?_eq_none]
    intro f hf he
    have he : render (m.path ++ [f.name]) = abs := by simpa using he
    apply hne
    rw [← he, pathUpper_concat m.path f.name (F m hm f hf).1]
  unfold getParentByPath
  simp only
  by_cases hu : pathUpper abs = []
  · rw [if_pos hu]
    simp only [M.ok_bind]
    have : t.findFile abs = none := by
      unfold Tree.findFile
      rw [List.findSome?_eq_none_iff]
      intro m hm
      exact hnone m hm (by rw [hu]; exact render_ne_nil _)
    rw [this]
    cases E.nodeCount <;> rfl
  · rw [if_neg hu, getByPath_eq H _ (Nat.lt_of_le_of_lt (pathUpper_length abs) hl) hu]
    simp only [M.ok_bind]
    cases hft : t.findText (pathUpper abs) with
    | none =>
      have : t.findFile abs = none := by
        unfold Tree.findFile
        rw [List.findSome?_eq_none_iff]
        intro m hm
        apply hnone m hm
        unfold Tree.findText at hft
        rw [List.find?_eq_none] at hft
        simpa using hft m hm
      rw [this]
      cases E.nodeCount <;> rfl
    | some m =>
      obtain ⟨hm, hmp⟩ := findText_some H hft
      obtain ⟨ms, h1, h2, h3⟩ := H.siblings m hm
      simp only [Option.map_some]
      have hothers : ∀ x ∈ t, x ≠ m → x.files.find? (fun f => render (x.path ++ [f.name]) == abs) = none := by
        intro x hx hne
        apply hnone x hx
        intro h
        exact hne (path_inj H.nodupPath hx hm (render_inj _ _ (H.good x hx) (H.good m hm) (by rw [h, hmp])))
      rw [findFile_chain H F abs (m :: ms) _ _ ?_ h2 (by simp; omega)]
      · congr 1
        rw [List.findSome?_cons]
        have hms : ms.findSome? (fun m => m.files.find? (fun f => render (m.path ++ [f.name]) == abs)) = none := by
          rw [List.findSome?_eq_none_iff]
          intro x hx
          exact hothers x (h1 x hx).1 (h1 x hx).2
        -- the abstract search reduces to `m`
        have habs : t.findFile abs = m.files.find? (fun f => render (m.path ++ [f.name]) == abs) := by
          unfold Tree.findFile
          have : ∀ t' : Tree, (∀ x ∈ t', x ∈ t) → m ∈ t' →
              List.findSome? (fun m => m.files.find? (fun f => render (m.path ++ [f.name]) == abs)) t' =
                m.files.find? (fun f => render (m.path ++ [f.name]) == abs) := by
            intro t'
            induction t' with
            | nil => intro _ h; cases h
            | cons x t' ih =>
              intro hx hmt
              rw [List.findSome?_cons]
              by_cases hxm : x = m
              · subst hxm
                cases hxf : x.files.find? (fun f => render (x.path ++ [f.name]) == abs) with
                | some f => rfl
                | none =>
                  simp only
                  rw [List.findSome?_eq_none_iff]
                  intro y hy
                  by_cases hyx : y = x
                  · subst hyx; exact hxf
                  · exact hothers y (hx y (by simp [hy])) hyx
              · rw [hothers x (hx x (by simp)) hxm]
                simp only
                apply ih (fun y hy => hx y (by simp [hy]))
                rcases List.mem_cons.mp hmt with h | h
                · exact absurd h.symm hxm
                · exact h
          exact this t (fun _ h => h) hm
        rw [habs, hms]
        cases m.files.find? (fun f => render (m.path ++ [f.name]) == abs) <;> rfl
      · intro x hx
        rcases List.mem_cons.mp hx with rfl | hx
        · exact hm
        · exact (h1 x hx).1

/-- `ush_file_find_by_name` in terms of the abstract tree and groups. -/
theorem fileFindByName_sim {E : Env} {u : Ush} {t : Tree} {g : Groups} {m : Mount} (H : TreeInv E u t)
    (G : CmdInv E u g) (F : FilesOk E t) (C : CwdInv E u t m) (name : Str) (hn : cNul ∉ name)
    (hl : (fullText (render m.path) name).length < E.pathMax) :
    ∃ abs, getAbsolutePath E u name = .ok abs ∧
      fileFindByName E u name = .ok ((g.files.find? (fun f => f.name == name)).or (t.findFile abs)) := by
  obtain ⟨abs, h1, h2, -, h4⟩ := getAbsolutePath_any H.pathMax C.path name C.fits hl
    (render_nul _ (fun c hc => (C.good c hc).2.2)) (render_head _) hn
  refine ⟨abs, h1, ?_⟩
  unfold fileFindByName
  rw [vla_ok H.pathMax]
  simp only [M.ok_bind]
  rw [findCommand_chain u.nodes name g _ _ G.chain G.files G.length]
  simp only [M.ok_bind]
  cases g.files.find? (fun f => f.name == name) with
  | some f => rfl
  | none =>
    simp only [Option.none_or]
    rw [h1]
    simp only [M.ok_bind]
    exact findFile_sim H F abs h4

end Ush
