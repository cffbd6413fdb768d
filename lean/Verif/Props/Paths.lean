import Verif.Proof.Paths
import Verif.Props.Tree
/-!
# C01, C02, C03 for every text

`Props/Utils.lean` treats paths with proper components.  Here nothing is assumed about the text but that it is a C string.
-/
namespace Ush.Props
open Spec

/-- Normalisation of any text that is not empty: what precedes the first `/` is dropped, the rest is cut at every `/`
that does not directly follow a cut, and the parts are normalised as in `C01_collapse`.  Nothing outside the two buffers
is touched.  (The empty text: `C01_empty`.) -/
theorem C01_every (cap : Nat) (p : Str) (h0 : p ≠ []) (hn : cNul ∉ p) (hcap : p.length < cap) :
    collapsePath cap p = .ok (if p = b!"/" then b!"/" else render (normalize (partsOf p))) :=
  collapsePath_all cap p h0 hn hcap

/-- Without empty components the parts are the components. -/
theorem C01_parts (cs : List Str) (h : cs ≠ []) (hc : ∀ c ∈ cs, GoodComp c) : partsOf (render cs) = cs := by
  have key : ∀ (cs : List Str), (∀ c ∈ cs, GoodComp c) → ∀ c, cSlash ∉ c → c ≠ [] → ∀ b,
      parts b (c ++ chunks cs) = c :: cs := by
    intro cs
    induction cs with
    | nil =>
      intro _ c h1 h2
      induction c with
      | nil => exact absurd rfl h2
      | cons x c ih =>
        intro b
        simp only [List.mem_cons, not_or] at h1
        rw [List.cons_append, parts, if_neg (by rintro ⟨e, -⟩; exact h1.1 e.symm)]
        by_cases h3 : c = []
        · subst h3; simp [parts, push]
        · rw [ih h1.2 h3]; rfl
    | cons d ds ihd =>
      intro hg c h1 h2
      induction c with
      | nil => exact absurd rfl h2
      | cons x c ih =>
        intro b
        simp only [List.mem_cons, not_or] at h1
        rw [List.cons_append, parts, if_neg (by rintro ⟨e, -⟩; exact h1.1 e.symm)]
        by_cases h3 : c = []
        · subst h3
          have hd := hg d (by simp)
          rw [List.nil_append, chunks_cons, List.cons_append, parts, if_pos ⟨rfl, rfl⟩,
            ihd (fun c h => hg c (by simp [h])) d hd.2.1 hd.1]
          rfl
        · rw [ih h1.2 h3]; rfl
  cases cs with
  | nil => exact absurd rfl h
  | cons c cs =>
    have hg := hc c (by simp)
    rw [render_ne _ h, chunks_cons, List.cons_append]
    have := partsOf_split [] (c ++ chunks cs) (by simp)
    rw [List.nil_append] at this
    rw [this]
    exact key cs (fun c h => hc c (by simp [h])) c hg.2.1 hg.1 true

example : collapsePath 64 b!"/a//../b/." = .ok b!"/a//../b" := C01_every 64 _ (by decide) (by decide) (by decide)
example : partsOf b!"/a//../b/." = [b!"a", b!"/..", b!"b", b!"."] := by decide
example : collapsePath 64 b!"abc/def/.." = .ok b!"/" := C01_every 64 _ (by decide) (by decide) (by decide)
example : collapsePath 64 b!"/a/" = .ok b!"/a/" := C01_every 64 _ (by decide) (by decide) (by decide)

/-- Levels, upper part and last part of any text. -/
theorem C02_every (p : Str) :
    pathLevelsCount p = levelCount p ∧ pathLast p = (if p.length = 1 then p else afterSlash p) ∧
    pathUpper p = (if p.length = 1 then [] else beforeSlash p) ∧
    ∀ cap n, p.length < cap → 1 < cap → pathLevel cap n p = .ok (firstLevels n p) :=
  ⟨levelCount_eq p, pathLast_all p, pathUpper_all p, fun cap n h1 h2 => pathLevel_all cap n p h1 h2⟩

/-- The text in front of the last `/` and the text behind it are the whole text; the text behind it has no `/`. -/
theorem C02_spec (p : Str) (h : cSlash ∈ p) :
    cSlash ∉ afterSlash p ∧ ∃ q, p = q ++ cSlash :: afterSlash p ∧ beforeSlash p = if q = [] then b!"/" else q := by
  obtain ⟨q, s, rfl, hs⟩ := split_last p h
  rw [afterSlash_split q s hs]
  refine ⟨hs, q, rfl, ?_⟩
  unfold beforeSlash
  rw [if_neg (by simp), afterSlash_split q s hs]
  by_cases hq : q = []
  · subst hq; simp
  · have : 0 < q.length := List.length_pos_iff.mpr hq
    rw [if_neg hq, if_neg (by simp; omega)]
    rw [show (q ++ cSlash :: s).length - s.length - 1 = q.length by simp; omega]
    exact List.take_left

example : pathLast b!"/usr//" = [] ∧ pathUpper b!"/usr//" = b!"/usr/" ∧ pathUpper b!"abc" = b!"abc" ∧ pathUpper b!"x" = [] := by
  refine ⟨(C02_every _).2.1.trans (by decide), (C02_every _).2.2.1.trans (by decide), (C02_every _).2.2.1.trans (by decide),
    (C02_every _).2.2.1.trans (by decide)⟩
example : pathLevel 32 2 b!"//usr/bin" = .ok b!"//usr" := ((C02_every b!"//usr/bin").2.2.2 32 2 (by decide) (by decide)).trans (by decide)

/-- The text to which any argument resolves, in every reached state with a working directory, mounted or not. -/
theorem C03_every (E : Env) (hc : CfgOk E) (os : List FsOp) (u : Ush) (hr : Reached E os u)
    (w : Mount) (hw : (after E os).cwd = some w) (arg : Str) (hn : cNul ∉ arg)
    (hfit : (fullText (render w.path) arg).length < E.pathMax) :
    getAbsolutePath E u arg = .ok (resolveText w.path arg) := by
  obtain ⟨H, -⟩ := hr.inv hc
  have C := H.cwd w hw
  exact getAbsolutePath_resolve hc.pathMax C.path C.good arg hn C.fits hfit

/-- The working directory of the sample history is `/a`.  An empty component hides the `..` behind it; one `/` at the end is
dropped, a second one is kept. -/
example : ∃ u, Reached wE wHist u ∧ getAbsolutePath wE u b!"b//../c" = .ok b!"/a/b//../c" ∧
    getAbsolutePath wE u b!"b//" = .ok b!"/a/b/" ∧ getAbsolutePath wE u b!"" = .ok b!"/a" := by
  obtain ⟨u, h⟩ := wReached
  have k := fun a h1 h2 => C03_every wE wE_ok wHist u h ⟨[b!"a"], 2, []⟩ (by decide) a h1 h2
  exact ⟨u, h, (k _ (by decide) (by decide)).trans (by decide), (k _ (by decide) (by decide)).trans (by decide),
    (k _ (by decide) (by decide)).trans (by decide)⟩

end Ush.Props
