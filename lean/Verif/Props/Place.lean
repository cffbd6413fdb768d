import Verif.Proof.Place
import Verif.Props.Samples
/-!
# Properties of the working directory, mounted or not (C62)

The histories allow everything an application can do between two `ush_service` calls, including unmounting the directory the
shell is in.
-/
namespace Ush.Props
open Spec

/-! ## C62 Which node is the working directory, and when it is mounted -/

/-- After every history the working directory is the node object, with the path text, that `Place` says; a relative path
resolves against that text whether or not the directory is mounted. -/
theorem C62_where (E : Env) (hc : CfgOk E) (os : List FsOp) (hv : (initPlace E).ValidRun E os) (inBuf outBuf : List UInt8) :
    ∃ u, run E (blank inBuf outBuf) (steps os) = .ok u ∧ u.log = ((initPlace E).run os).2.map .ret ∧
      u.current = ((initPlace E).run os).1.here.map (·.1) ∧
      (∀ w, ((initPlace E).run os).1.path = some w → currentPath u = .ok (render w)) ∧
      (((initPlace E).run os).1.path = none → currentPath u = .error .null) ∧
      (AtHome E u ↔ ((initPlace E).run os).1.Mounted) := by
  obtain ⟨u0, e0, H0, l0⟩ := site_init hc inBuf outBuf
  obtain ⟨u, e, H, l⟩ := siteRun_sim os u0 _ H0 hv
  refine ⟨u, ?_, by rw [l, l0]; rfl, H.cur, fun w hw => H.currentPath hw, H.noPath, atHome_iff H⟩
  unfold steps
  rw [run, step, e0]
  exact e

/-- Exactly when the working directory is mounted: it was, and this operation did not unmount it; or this operation is a
successful `cd`, mount of the root, or mount of the node object the shell is in. -/
theorem C62_exact (E : Env) (hc : CfgOk E) (os : List FsOp) (hv : (initPlace E).ValidRun E os) (inBuf outBuf : List UInt8)
    (u : Ush) (hu : run E (blank inBuf outBuf) (steps os) = .ok u) (o : FsOp) (ho : ((initPlace E).run os).1.Valid E o) :
    ∃ u' s, runApi E u o.api = .ok u' ∧ u'.log = u.log ++ [.ret s] ∧
      (AtHome E u' ↔
        (AtHome E u ∧ ¬ (s = .ok ∧ ∃ q, o = .unmount q ∧ currentPath u = .ok q)) ∨ (s = .ok ∧ o.LeadsHome u)) := by
  obtain ⟨u0, e0, H0, l0⟩ := site_init hc inBuf outBuf
  obtain ⟨u1, e1, H, -⟩ := siteRun_sim os u0 _ H0 hv
  have e : run E (blank inBuf outBuf) (steps os) = .ok u1 := by
    unfold steps
    rw [run, step, e0]
    exact e1
  rw [hu] at e
  cases e
  obtain ⟨u', e', H', l'⟩ := siteStep_sim H o ho
  refine ⟨u', _, e', l', ?_⟩
  rw [atHome_iff H, atHome_iff H']
  generalize ((initPlace E).run os).1 = S at H H' ho
  exact mounted_step H o ho

/-- When the node object the shell is in has no path, because it was made a command group, or there is no working directory
yet, a relative path dereferences a null pointer. -/
theorem C62_null (E : Env) (hc : CfgOk E) (os : List FsOp) (hv : (initPlace E).ValidRun E os) (inBuf outBuf : List UInt8)
    (u : Ush) (hu : run E (blank inBuf outBuf) (steps os) = .ok u) (hp : ((initPlace E).run os).1.path = none)
    (arg : Str) (ha : arg ≠ []) (hr : arg.head? ≠ some cSlash) :
    runApi E u (.setCurrentDir arg) = .error .null := by
  obtain ⟨u', e, -, -, -, h, -⟩ := C62_where E hc os hv inBuf outBuf
  rw [hu] at e
  cases e
  simp only [runApi, setCurrentDir]
  rw [if_neg ha]
  unfold getAbsolutePath
  rw [vla_ok hc.pathMax, if_neg hr, h hp]
  rfl

instance (E : Env) (S : Place) : (o : FsOp) → Decidable (S.Valid E o)
  | .mount p id files => inferInstanceAs (Decidable (S.world.Valid E (.mount p id files)))
  | .unmount q => inferInstanceAs (Decidable (S.world.Valid E (.unmount q)))
  | .cd abs comps slash => by
    unfold Place.Valid
    have : Decidable (∃ w, S.path = some w ∧ (render w).length + 1 + (argText false comps slash).length < E.pathMax) :=
      match h : S.path with
      | none => isFalse (by simp)
      | some w => if h2 : (render w).length + 1 + (argText false comps slash).length < E.pathMax
          then isTrue ⟨w, rfl, h2⟩ else isFalse (by rintro ⟨w', h', h3⟩; cases h'; exact h2 h3)
    infer_instance
  | .addGroup id files => inferInstanceAs (Decidable (S.world.Valid E (.addGroup id files)))
  | .removeGroup id => inferInstanceAs (Decidable (S.world.Valid E (.removeGroup id)))

instance decPlaceRun (E : Env) : (S : Place) → (os : List FsOp) → Decidable (S.ValidRun E os)
  | _, [] => isTrue trivial
  | S, o :: os => by unfold Place.ValidRun; have := decPlaceRun E (S.step o).1 os; infer_instance

instance (S : Place) : Decidable S.Mounted := by unfold Place.Mounted; infer_instance

/-- A history that unmounts the working directory and goes on: the refused mount gives the object another path, and `..` from
there leads to a mounted directory. -/
def wLost : List FsOp := [.mount [] 1 [], .mount [b!"a"] 2 [], .cd true [b!"a"] false, .unmount b!"/a",
  .mount [b!"x", b!"y"] 2 []]

theorem wLost_valid : (initPlace wE).ValidRun wE wLost := by decide

example : ∃ u, run wE (blank [] []) (steps wLost) = .ok u ∧ u.current = some 2 ∧ currentPath u = .ok b!"/x/y" ∧ ¬ AtHome wE u := by
  obtain ⟨u, h1, -, h2, h3, -, h4⟩ := C62_where wE wE_ok wLost wLost_valid [] []
  refine ⟨u, h1, h2.trans (by decide), h3 [b!"x", b!"y"] (by decide), ?_⟩
  rw [h4]
  decide

example : ∃ u u', run wE (blank [] []) (steps wLost) = .ok u ∧ runApi wE u (.setCurrentDir b!"../..") = .ok u' ∧ AtHome wE u' := by
  obtain ⟨u, h1, -⟩ := C62_where wE wE_ok wLost wLost_valid [] []
  obtain ⟨u', s, h2, h3, h4⟩ := C62_exact wE wE_ok wLost wLost_valid [] [] u h1 (.cd false [b!"..", b!".."] false) (by decide)
  refine ⟨u, u', h1, h2, h4.mpr (Or.inr ⟨?_, trivial⟩)⟩
  have : (do let u ← run wE (blank [] []) (steps wLost); let u' ← runApi wE u (.setCurrentDir b!"../.."); pure (u'.log.getLast?)) =
      .ok (some (.ret .ok)) := by decide
  rw [h1] at this
  have h2' : runApi wE u (.setCurrentDir b!"../..") = .ok u' := h2
  simp only [M.ok_bind, h2', h3] at this
  simpa using this

example : ∃ u, run wE (blank [] []) (steps (wLost ++ [.addGroup 2 [wFile b!"g"]])) = .ok u ∧
    runApi wE u (.setCurrentDir b!"a") = .error .null := by
  have hv : (initPlace wE).ValidRun wE (wLost ++ [.addGroup 2 [wFile b!"g"]]) := by decide
  obtain ⟨u, h1, -⟩ := C62_where wE wE_ok _ hv [] []
  exact ⟨u, h1, C62_null wE wE_ok _ hv [] [] u h1 (by decide) b!"a" (by decide) (by decide)⟩

end Ush.Props
