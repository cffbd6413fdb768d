import Verif.Proof.Life
import Verif.Props.Safe
import Verif.Props.Start
/-!
# C72 Calls before `ush_init` and after `ush_deinit`

`Bound`: the shell object together with its pointer to the descriptor (Model/Life.lean).
-/
namespace Ush.Props
open Spec

/-- A history from a zeroed shell object is without error exactly if it is so when the descriptor is always there, and every call that reads the
descriptor stands between `ush_init` and `ush_deinit`. -/
theorem C72_order (E : Env) (inBuf outBuf : List UInt8) (os : List Op) (o : Bound) :
    Bound.run E ⟨false, blank inBuf outBuf⟩ os = .ok o ↔
      run E (blank inBuf outBuf) os = .ok o.ush ∧ (o.bound = true ↔ Initialised os) ∧ Ordered os := by
  rw [bound_run, orderedFrom_iff]
  have h : (∀ pre x post, os = pre ++ x :: post → x.readsDesc = true → flag false pre = true) ↔ Ordered os := by
    simp only [flag_iff, Ordered, readsDesc_iff]
  rw [h, ← flag_iff]
  refine ⟨fun ⟨h1, h2, h3⟩ => ⟨h1, by rw [h2], h3⟩, fun ⟨h1, h2, h3⟩ => ⟨h1, ?_, h3⟩⟩
  exact Bool.eq_iff_iff.mpr h2

/-- A history that starts with `ush_init` and has no `ush_deinit` (the histories of the other properties): the pointer plays no part. -/
theorem C72_same (E : Env) (u : Ush) (b : Bool) (os : List Op) (h : Op.deinit ∉ os) (v : Ush) :
    Bound.run E ⟨b, u⟩ (.init :: os) = .ok ⟨true, v⟩ ↔ run E u (.init :: os) = .ok v := by
  rw [bound_run]
  refine ⟨fun h => h.1, fun e => ⟨e, ((flag_from _ b).mpr (.inl ⟨[], os, rfl, h⟩)).symm, ?_⟩⟩
  rw [orderedFrom_iff]
  intro pre x post e hx
  rw [flag_from]
  cases pre with
  | nil => obtain ⟨rfl, -⟩ := List.cons.inj e; cases hx
  | cons y pre =>
    obtain ⟨rfl, e2⟩ := List.cons.inj e
    refine .inl ⟨[], pre, rfl, fun hm => h (by rw [e2]; exact List.mem_append_left _ hm)⟩

/-- Outside of `ush_init` … `ush_deinit` there are no directories and `ush_service` stops at its assertion. -/
theorem C72_outside (E : Env) (inBuf outBuf : List UInt8) (os : List Op) (o : Bound) (h : Bound.run E ⟨false, blank inBuf outBuf⟩ os = .ok o)
    (hn : ¬ Initialised os) : o.ush.root = none ∧ o.ush.current = none ∧ ∀ io, o.step E (.service io) = .error .assert := by
  have hb : o.bound = false := by
    have := ((C72_order E inBuf outBuf os o).mp h).2.1
    cases hb : o.bound with
    | false => rfl
    | true => exact absurd (this.mp hb) hn
  obtain ⟨h1, h2⟩ := bound_none E os _ o (fun _ => ⟨rfl, rfl⟩) h hb
  refine ⟨h1, h2, fun io => ?_⟩
  rw [Bound.step]
  show ((service E io o.ush >>= fun r => pure r.1) >>= _) = _
  unfold service
  rw [h2]
  rfl

/-- There the shell does nothing but answer the calls: no read, no write, no callback. -/
theorem C72_quiet (E : Env) (inBuf outBuf : List UInt8) (os xs : List Op) (o p : Bound) (h : Bound.run E ⟨false, blank inBuf outBuf⟩ os = .ok o)
    (hn : ¬ Initialised os) (hx : Op.init ∉ xs) (h2 : Bound.run E o xs = .ok p) : ∃ l : List Status, p.ush.log = o.ush.log ++ l.map .ret := by
  obtain ⟨r, c, -⟩ := C72_outside E inBuf outBuf os o h hn
  have hb : o.bound = false := by
    have := ((C72_order E inBuf outBuf os o).mp h).2.1
    cases hb : o.bound with
    | false => rfl
    | true => exact absurd (this.mp hb) hn
  exact (bound_quiet E xs o p hb ⟨r, c⟩ hx h2).2

/-- Groups of commands may be added and removed before `ush_init`: they are kept, the built-in commands come in front of them, and the shell starts as
it does without them. -/
theorem C72_early (E : Env) (hc : CfgOk E) (cfg : Config E) (inBuf outBuf : List UInt8) (h1 : inBuf.length = E.inSize) (h2 : outBuf.length = E.outSize)
    (gs os : List FsOp) (hg : OnlyGroups gs) (hgv : World.ValidRun E ⟨[], [], none⟩ gs) (hv : (lateWorld E (groupsOf gs)).ValidRun E os)
    (ok : ((lateWorld E (groupsOf gs)).run os).1.Ok E) (inp : List UInt8) :
    ∃ u v, Bound.run E ⟨false, blank inBuf outBuf⟩ (gs.map (fun o => Op.api o.api) ++ steps os) = .ok ⟨true, u⟩ ∧ Steps E u inp v inp ∧
      Waiting E ((lateWorld E (groupsOf gs)).run os).1 v {} ∧
      v.log = (World.run ⟨[], [], none⟩ gs).2.map .ret ++ ((lateWorld E (groupsOf gs)).run os).2.map .ret ++
        outs (banner ++ ((lateWorld E (groupsOf gs)).run os).1.prompt E) := by
  obtain ⟨u, e, B, l⟩ := lateBoot hc inBuf outBuf h1 h2 gs os hg hgv hv
  obtain ⟨v, r, H⟩ := B.done cfg ok hc.inSize inp
  refine ⟨u, v, ?_, r.steps, H, by rw [r.log, l]⟩
  have hd : Op.deinit ∉ os.map (fun o => Op.api o.api) := by simp
  have hi : Initialised (gs.map (fun o => Op.api o.api) ++ steps os) := ⟨_, _, rfl, hd⟩
  refine (C72_order E inBuf outBuf _ ⟨true, u⟩).mpr ⟨e, ⟨fun _ => hi, fun _ => rfl⟩, ?_⟩
  intro pre x post ex hx
  rw [← readsDesc_iff] at hx
  have hgr : ∀ x ∈ gs.map (fun o => Op.api o.api), x.readsDesc = false := by
    intro x hx
    obtain ⟨o, ho, rfl⟩ := List.mem_map.mp hx
    obtain ⟨id, -, ⟨files, rfl⟩ | rfl⟩ := hg o ho <;> rfl
  rcases List.append_eq_append_iff.mp ex with ⟨a, ea, eb⟩ | ⟨a, ea, eb⟩
  · cases a with
    | nil => obtain ⟨rfl, -⟩ := List.cons.inj eb; cases hx
    | cons y a =>
      have ey : Op.init = y ∧ os.map (fun o => Op.api o.api) = a ++ x :: post := List.cons.inj eb
      obtain ⟨rfl, ey⟩ := ey
      refine ⟨_, a, ea, fun hm => hd ?_⟩
      rw [ey]; exact List.mem_append_left _ hm
  · cases a with
    | nil => obtain ⟨rfl, -⟩ := List.cons.inj eb; cases hx
    | cons y a =>
      obtain ⟨rfl, -⟩ := List.cons.inj eb
      rw [hgr x (by rw [ea]; exact List.mem_append_right _ (List.mem_cons_self ..))] at hx
      cases hx

/-- A built-in command is found by its name, unless a group in front of the built-in commands has a command of that name; groups behind them (those added
before `ush_init`) do not matter. -/
theorem C72_builtins (E : Env) (W : World) (u : Ush) (e : Editor) (H : Waiting E W u e) (gs late : Groups)
    (hg : W.groups = gs ++ ⟨0, builtinTable E⟩ :: late) (f : FileDesc) (hf : f ∈ builtinCommands) (hon : E.has f = true)
    (hn : ∀ g ∈ gs, ∀ f' ∈ g.files, f'.name ≠ f.name) : fileFindByName E u f.name = .ok (some f) := by
  have hnul : cNul ∉ f.name := (H.ok.cmdTexts ⟨0, builtinTable E⟩ (by simp [hg]) f (List.mem_filter.mpr ⟨hf, hon⟩)).name
  rw [H.find hnul (.inl (by
    rw [hg]
    simp only [Groups.files, List.flatMap_append, List.map_append, List.flatMap_cons, List.mem_append]
    exact .inr (.inl (List.mem_map_of_mem (f := (·.name)) (List.mem_filter.mpr ⟨hf, hon⟩)))))]
  have h1 : W.groups.files.find? (fun f' => f'.name == f.name) = some f := by
    unfold Groups.files
    rw [hg, List.flatMap_append, List.find?_append]
    have : (List.flatMap Group.files gs).find? (fun f' => f'.name == f.name) = none := by
      rw [List.find?_eq_none]
      intro x hx
      obtain ⟨g, hg, hx⟩ := List.mem_flatMap.mp hx
      simpa using hn g hg x hx
    rw [this]
    simp only [List.flatMap_cons, Option.none_or, List.find?_append]
    rw [show List.find? (fun f' => f'.name == f.name) (builtinTable E) = some f from builtin_found E f hf hon]
    rfl
  rw [World.file?, h1]
  rfl

/-! ## Examples -/

/-- An application's own `ls`. -/
def ownLs : FsOp := .addGroup 4 [{ name := b!"ls", exec := some (.user 1) }]
def oneDir : FsOp := .mount [] 1 []

/-- Added before `ush_init`, it stands behind the built-in commands … -/
example : ∃ u v, Bound.run sE2 ⟨false, blank (List.replicate 32 0) (List.replicate 64 0)⟩ ([ownLs].map (fun o => Op.api o.api) ++ steps [oneDir]) = .ok ⟨true, u⟩ ∧
    Steps sE2 u [] v [] ∧ ∀ f ∈ builtinCommands, sE2.has f = true → fileFindByName sE2 v f.name = .ok (some f) := by
  obtain ⟨u, v, e, s, H, -⟩ := C72_early sE2 sE2_ok.1 ⟨by decide, ⟨by decide, by decide, by decide, by decide, by decide, statusString_nul _ (by decide)⟩⟩ (List.replicate 32 0) (List.replicate 64 0) rfl rfl [ownLs] [oneDir]
    (by intro o ho; rw [List.mem_singleton.mp ho]; exact ⟨4, by decide, .inl ⟨_, rfl⟩⟩) (by decide) (by decide) (by decide) []
  exact ⟨u, v, e, s, fun f hf hon => C72_builtins sE2 _ v {} H [] [⟨4, [{ name := b!"ls", exec := some (.user 1) }]⟩] (by decide) f hf hon (by simp)⟩

/-- … added after `ush_init`, in front of them. -/
example : ∃ u v, run sE2 (blank (List.replicate 32 0) (List.replicate 64 0)) (steps [oneDir, ownLs]) = .ok u ∧ Steps sE2 u [] v [] ∧
    fileFindByName sE2 v b!"ls" = .ok (some { name := b!"ls", exec := some (.user 1) }) := by
  obtain ⟨u, v, e, s, H, -⟩ := C38_startup sE2 sE2_ok.1 ⟨by decide, ⟨by decide, by decide, by decide, by decide, by decide, statusString_nul _ (by decide)⟩⟩ (List.replicate 32 0) (List.replicate 64 0) rfl rfl [oneDir, ownLs]
    (by decide) (by decide) []
  refine ⟨u, v, e, s, ?_⟩
  rw [H.find (by decide) (.inl (by decide))]
  decide

/-- The fault of a history. -/
def boundFault (m : M Bound) : Option Fault :=
  match m with
  | .error f => some f
  | .ok _ => none

/-- Before `ush_init` a text may be given and groups be added; mounting and flushing reads the descriptor; `ush_service` stops at its assertion. -/
example : boundFault (Bound.run sE2 ⟨false, blank (List.replicate 32 0) (List.replicate 64 0)⟩ [.api ownLs.api, .api (.print (.str b!"x")), .init, .api oneDir.api]) = none := by
  decide +kernel
example : boundFault (Bound.run sE2 ⟨false, blank (List.replicate 32 0) (List.replicate 64 0)⟩ [.api oneDir.api, .init]) = some .null := by decide +kernel
example : boundFault (Bound.run sE2 ⟨false, blank (List.replicate 32 0) (List.replicate 64 0)⟩ [.init, .api oneDir.api, .deinit, .api .flush]) = some .null := by
  decide +kernel
example : boundFault (Bound.run sE2 ⟨false, blank (List.replicate 32 0) (List.replicate 64 0)⟩ [.init, .api oneDir.api, .deinit, .service ⟨none, true⟩]) = some .assert := by
  decide +kernel
/-- With `ush_init` again everything works. -/
example : boundFault (Bound.run sE2 ⟨false, blank (List.replicate 32 0) (List.replicate 64 0)⟩
    [.init, .api oneDir.api, .deinit, .init, .api oneDir.api, .service ⟨none, true⟩]) = none := by decide +kernel

/-- Outside: after `ush_deinit`, with an answered call. -/
example : ∃ o p, Bound.run sE2 ⟨false, blank (List.replicate 32 0) (List.replicate 64 0)⟩ [.init, .api oneDir.api, .deinit] = .ok o ∧
    Bound.run sE2 o [.api ownLs.api] = .ok p ∧ ¬ Initialised [.init, .api oneDir.api, .deinit] ∧ p.ush.log = o.ush.log ++ [.ret .ok] :=
  ⟨_, _, rfl, rfl, fun h => absurd ((flag_iff _).mpr h) (by decide), rfl⟩

end Ush.Props
