import Verif.Spec.Life
import Verif.Proof.Log
import Verif.Proof.Start
import Verif.Proof.SafeRun
/-!
# Library calls before `ush_init` and after `ush_deinit`
-/
namespace Ush
open Spec

/-- The pointer after a history. -/
def flag (b : Bool) (os : List Op) : Bool := os.foldl (fun b o => o.binds b) b

theorem initialised_cons (x : Op) (os : List Op) : Initialised (x :: os) ↔ Initialised os ∨ (x = .init ∧ Op.deinit ∉ os) := by
  constructor
  · rintro ⟨pre, post, e, h⟩
    cases pre with
    | nil => obtain ⟨rfl, rfl⟩ := List.cons.inj e; exact .inr ⟨rfl, h⟩
    | cons y pre => obtain ⟨-, e⟩ := List.cons.inj e; exact .inl ⟨pre, post, e, h⟩
  · rintro (⟨pre, post, rfl, h⟩ | ⟨rfl, h⟩)
    · exact ⟨x :: pre, post, rfl, h⟩
    · exact ⟨[], os, rfl, h⟩

theorem flag_from (os : List Op) : ∀ b, flag b os = true ↔ Initialised os ∨ (b = true ∧ Op.deinit ∉ os) := by
  induction os with
  | nil => intro b; simp [flag, Initialised]
  | cons x os ih =>
    intro b
    rw [show flag b (x :: os) = flag (x.binds b) os from rfl, ih, initialised_cons]
    cases x <;> simp [Op.binds]
    exact fun _ h => .inr h

theorem flag_iff (os : List Op) : flag false os = true ↔ Initialised os := by simp [flag_from]

theorem readsDesc_iff (x : Op) : x.readsDesc = true ↔ NeedsDesc x := by
  unfold NeedsDesc
  cases x with
  | api a => cases a <;> simp [Op.readsDesc]
  | _ => simp [Op.readsDesc]

/-- `Ordered`, when the pointer is `b` in the beginning. -/
def OrderedFrom : Bool → List Op → Prop
  | _, [] => True
  | b, x :: xs => (x.readsDesc = true → b = true) ∧ OrderedFrom (x.binds b) xs

theorem orderedFrom_iff (os : List Op) : ∀ b, OrderedFrom b os ↔ ∀ pre x post, os = pre ++ x :: post → x.readsDesc = true → flag b pre = true := by
  induction os with
  | nil => intro b; simp [OrderedFrom]
  | cons x xs ih =>
    intro b
    rw [OrderedFrom, ih]
    constructor
    · rintro ⟨h1, h2⟩ pre y post e hy
      cases pre with
      | nil => obtain ⟨rfl, -⟩ := List.cons.inj e; exact h1 hy
      | cons z pre =>
        obtain ⟨rfl, e2⟩ := List.cons.inj e
        exact h2 pre y post e2 hy
    · intro h
      exact ⟨fun hx => h [] x xs rfl hx, fun pre y post e hy => h (x :: pre) y post (by rw [e]; rfl) hy⟩

theorem bound_run (E : Env) (os : List Op) : ∀ (b : Bool) (u : Ush) (o : Bound),
    Bound.run E ⟨b, u⟩ os = .ok o ↔ run E u os = .ok o.ush ∧ o.bound = flag b os ∧ OrderedFrom b os := by
  induction os with
  | nil =>
    intro b u o
    constructor
    · intro h; cases h; exact ⟨rfl, rfl, trivial⟩
    · rintro ⟨h1, h2, -⟩
      obtain ⟨c, w⟩ := o
      simp only [run, Except.ok.injEq, flag, List.foldl_nil] at h1 h2
      subst h1 h2
      rfl
  | cons x xs ih =>
    intro b u o
    rw [Bound.run, Bound.step, run]
    by_cases hx : (x.readsDesc && !b) = true
    · simp only [hx, if_true]
      refine ⟨fun h => (by cases h), fun ⟨_, _, h, _⟩ => ?_⟩
      simp only [Bool.and_eq_true, Bool.not_eq_true'] at hx
      rw [h hx.1] at hx
      cases hx.2
    · simp only [hx]
      cases hs : step E u x with
      | error _ => exact ⟨fun h => (by cases h), fun ⟨h, _⟩ => (by cases h)⟩
      | ok v =>
        have := ih (x.binds b) v o
        rw [OrderedFrom]
        refine Iff.trans this ⟨fun ⟨h1, h2, h3⟩ => ⟨h1, h2, fun hr => ?_, h3⟩, fun ⟨h1, h2, _, h3⟩ => ⟨h1, h2, h3⟩⟩
        cases b with
        | true => rfl
        | false => simp [hr] at hx

theorem writePointer_dirs {u v : Ush} {p : Ptr} {st : St} (h : writePointer u p st = .ok v) (h1 : u.root = none) (h2 : u.current = none) :
    v.root = none ∧ v.current = none := by
  unfold writePointer at h
  mgo h
  cases h; exact ⟨h1, h2⟩

/-- A shell object without descriptor has no directories. -/
theorem bound_none (E : Env) (os : List Op) : ∀ (o p : Bound), (o.bound = false → o.ush.root = none ∧ o.ush.current = none) → Bound.run E o os = .ok p →
    p.bound = false → p.ush.root = none ∧ p.ush.current = none := by
  induction os with
  | nil => intro o p h e hb; cases e; exact h hb
  | cons x xs ih =>
    intro o p h e hb
    rw [Bound.run, Bound.step] at e
    obtain ⟨q, e1, e2⟩ := M.bind_eq_ok.mp e
    refine ih q p ?_ e2 hb
    intro hq
    by_cases hx : (x.readsDesc && !o.bound) = true
    · simp only [hx, if_true] at e1; cases e1
    · simp only [hx] at e1
      obtain ⟨v, e3, e4⟩ := M.bind_eq_ok.mp e1
      cases e4
      cases x with
      | init => cases hq
      | deinit =>
        change ushDeinit E o.ush = .ok v at e3
        unfold ushDeinit at e3
        obtain ⟨n, -, e5⟩ := M.bind_eq_ok.mp e3
        cases e5
        exact ⟨rfl, rfl⟩
      | service io =>
        have := (h hq).2
        change (service E io o.ush >>= fun r => pure r.1) = .ok v at e3
        unfold service at e3
        rw [this] at e3
        cases e3
      | api a =>
        have hb : o.bound = false := hq
        obtain ⟨h1, h2⟩ := h hb
        rw [hb] at hx
        change runApi E o.ush a = .ok v at e3
        cases a with
        | print p => exact writePointer_dirs e3 h1 h2
        | printNoNewline p => exact writePointer_dirs e3 h1 h2
        | printStatus s => exact writePointer_dirs e3 h1 h2
        | reset =>
          change ushReset o.ush = .ok v at e3
          exact writePointer_dirs e3 h1 h1
        | commandsAdd i fs =>
          obtain ⟨r, e5, e6⟩ := M.bind_eq_ok.mp e3
          cases e6
          unfold commandsAdd at e5
          mgo e5
          cases e5; exact ⟨h1, h2⟩
        | commandsRemove i =>
          obtain ⟨r, e5, e6⟩ := M.bind_eq_ok.mp e3
          cases e6
          unfold commandsRemove at e5
          mgo e5 <;> (cases e5; exact ⟨h1, h2⟩)
        | processStart f => cases e3; exact ⟨h1, h2⟩
        | setState s => cases e3; exact ⟨h1, h2⟩
        | fillOut s =>
          obtain ⟨r, -, e6⟩ := M.bind_eq_ok.mp e3
          cases e6; exact ⟨h1, h2⟩
        | setCurrentDir path =>
          have : path = [] := by simpa [Op.readsDesc] using hx
          subst this
          obtain ⟨r, e5, e6⟩ := M.bind_eq_ok.mp e3
          cases e6
          unfold setCurrentDir at e5
          simp only [if_true] at e5
          cases e5; exact ⟨h1, h2⟩
        | _ => exact absurd rfl hx

theorem runApi_rets {E : Env} {u v : Ush} {a : Api} (h : runApi E u a = .ok v) : ∃ l : List Status, v.log = u.log ++ l.map .ret := by
  cases a with
  | print p => exact ⟨[], by simpa using writePointer_log h⟩
  | printNoNewline p => exact ⟨[], by simpa using writePointer_log h⟩
  | printStatus s => exact ⟨[], by simpa using writePointer_log h⟩
  | printf f => exact ⟨[], by simpa using ushPrintf_log h⟩
  | flush => exact ⟨[], by simpa using writePointer_log h⟩
  | reset => exact ⟨[], by simpa using writePointer_log h⟩
  | mount p i fs =>
    obtain ⟨r, h1, h⟩ := M.bind_eq_ok.mp h
    cases h
    exact ⟨[r.2], by rw [Ush.emit, nodeMount_log h1]; rfl⟩
  | unmount p =>
    obtain ⟨r, h1, h⟩ := M.bind_eq_ok.mp h
    cases h
    exact ⟨[r.2], by rw [Ush.emit, nodeUnmount_log h1]; rfl⟩
  | setCurrentDir p =>
    obtain ⟨r, h1, h⟩ := M.bind_eq_ok.mp h
    cases h
    exact ⟨[r.2], by rw [Ush.emit, setCurrentDir_log h1]; rfl⟩
  | commandsAdd i fs =>
    obtain ⟨r, h1, h⟩ := M.bind_eq_ok.mp h
    cases h
    exact ⟨[r.2], by rw [Ush.emit, commandsAdd_log h1]; rfl⟩
  | commandsRemove i =>
    obtain ⟨r, h1, h⟩ := M.bind_eq_ok.mp h
    cases h
    exact ⟨[r.2], by rw [Ush.emit, commandsRemove_log h1]; rfl⟩
  | processStart f => cases h; exact ⟨[], by simp [processStart]⟩
  | setState s => cases h; exact ⟨[], by simp⟩
  | fillOut s =>
    obtain ⟨r, h1, h⟩ := M.bind_eq_ok.mp h
    cases h; exact ⟨[], by simp⟩

/-- Without descriptor a call can only report a status. -/
theorem bound_quiet (E : Env) (os : List Op) : ∀ (o p : Bound), o.bound = false → o.ush.root = none ∧ o.ush.current = none → Op.init ∉ os →
    Bound.run E o os = .ok p → p.bound = false ∧ ∃ l : List Status, p.ush.log = o.ush.log ++ l.map .ret := by
  induction os with
  | nil => intro o p hb _ _ e; cases e; exact ⟨hb, [], by simp⟩
  | cons x xs ih =>
    intro o p hb hn hi e
    have hx : x ≠ .init := fun h => hi (h ▸ List.mem_cons_self ..)
    have e0 := e
    rw [Bound.run] at e
    obtain ⟨q, e1, e2⟩ := M.bind_eq_ok.mp e
    have hq : q.bound = false ∧ ∃ l : List Status, q.ush.log = o.ush.log ++ l.map .ret := by
      rw [Bound.step] at e1
      split at e1
      · cases e1
      · obtain ⟨v, e3, e4⟩ := M.bind_eq_ok.mp e1
        cases e4
        cases x with
        | init => exact absurd rfl hx
        | deinit =>
          refine ⟨rfl, [], ?_⟩
          change ushDeinit E o.ush = .ok v at e3
          unfold ushDeinit at e3
          obtain ⟨n, -, e5⟩ := M.bind_eq_ok.mp e3
          cases e5
          simp
        | service io =>
          change (service E io o.ush >>= fun r => pure r.1) = .ok v at e3
          unfold service at e3
          rw [hn.2] at e3
          cases e3
        | api a => exact ⟨hb, runApi_rets e3⟩
    have hn' := bound_none E [x] o q (fun _ => hn) (by rw [Bound.run, e1]; rfl) hq.1
    obtain ⟨h1, l, h2⟩ := ih q p hq.1 hn' (fun h => hi (List.mem_cons_of_mem _ h)) e2
    obtain ⟨-, l', h3⟩ := hq
    exact ⟨h1, l' ++ l, by rw [h2, h3]; simp⟩

/-! ## Groups of commands that are added before `ush_init` -/

theorem blank_winv {E : Env} (h : CfgOk E) (inBuf outBuf : List UInt8) : WInv E (blank inBuf outBuf) ⟨[], [], none⟩ := by
  refine ⟨?_, ?_, by simp, by simp, by simp⟩
  · constructor
    case pathMax => exact h.pathMax
    case root => rfl
    case free => exact fun i _ => rfl
    all_goals simp
  · constructor
    · simp
    · simp
    · rfl
    · simp
    · simp

theorem ushInit_late {E : Env} (h : CfgOk E) {v : Ush} {g : Groups} (H : WInv E v ⟨[], g, none⟩) (h0 : ∀ c ∈ g, c.id ≠ 0) :
    ∃ u, ushInit E v = .ok u ∧ WInv E u (lateWorld E g) ∧ u.log = v.log ∧
      u.inBuf = v.inBuf ∧ u.outBuf = v.outBuf ∧ u.state = .writeChar ∧ u.writeNext = .resetPrompt ∧
      u.writeBuf = .str banner ∧ u.writeSize = banner.length ∧ u.writePos = 0 := by
  unfold ushInit
  have a1 : decide (E.inSize > 0) = true := by simpa using h.inSize
  have a2 : decide (E.outSize ≥ 4) = true := by simpa using h.outSize
  rw [a1, a2]
  cases hon : E.commandsOn with
  | false =>
    have hw : lateWorld E g = ⟨[], g, none⟩ := by simp [lateWorld, hon]
    rw [hw]
    refine ⟨_, rfl, ?_, rfl, rfl, rfl, rfl, rfl, rfl, rfl, rfl⟩
    refine ⟨?_, H.cmds.congr rfl (fun _ _ => rfl), by simp, by simp, by simp⟩
    constructor
    case pathMax => exact h.pathMax
    case root => rfl
    case free => exact fun i hi => H.tree.free i hi
    all_goals simp
  | true =>
    have hw : lateWorld E g = ⟨[], ⟨0, builtinTable E⟩ :: g, none⟩ := by simp [lateWorld, hon]
    have H' : CmdInv E { v with root := none } g := H.cmds.congr rfl (fun _ _ => rfl)
    obtain ⟨nodes, e, C, F, F2⟩ := commandsAdd_sim H' 0 (builtinTable E) (h.commands hon) h.nodes h0
    rw [hw]
    simp only [if_true]
    have e' : commandsAdd { v with root := none } 0 (builtinTable E) = .ok ({ ({ v with root := none } : Ush) with nodes := nodes, commands := some 0 }, .ok) := e
    show ∃ u, (do
      let u ← (do let (u, _) ← commandsAdd { v with root := none } 0 (builtinTable E); pure u : M Ush)
      ushReset u) = .ok u ∧ _
    rw [e']
    refine ⟨_, rfl, ?_, rfl, rfl, rfl, rfl, rfl, rfl, rfl, rfl⟩
    refine ⟨?_, C.congr rfl (fun _ _ => rfl), by simp, by simp, by simp⟩
    constructor
    case pathMax => exact h.pathMax
    case root => rfl
    case free =>
      intro i hi
      by_cases hz : i = 0
      · subst hz; exact F2.trans (H.tree.free 0 hi)
      · show (nodes i).children = none
        rw [F i hz]; exact H.tree.free i hi
    all_goals simp

theorem onlyGroups_run (gs : List FsOp) : ∀ (W : World), OnlyGroups gs → W.tree = [] → W.cwd = none → (∀ c ∈ W.groups, c.id ≠ 0) →
    (W.run gs).1.tree = [] ∧ (W.run gs).1.cwd = none ∧ ∀ c ∈ (W.run gs).1.groups, c.id ≠ 0 := by
  induction gs with
  | nil => intro W _ h1 h2 h3; exact ⟨h1, h2, h3⟩
  | cons o gs ih =>
    intro W h h1 h2 h3
    rw [World.run]
    obtain ⟨id, hid, ho⟩ := h o (List.mem_cons_self ..)
    refine ih _ (fun o ho => h o (List.mem_cons_of_mem _ ho)) ?_ ?_ ?_
    all_goals rcases ho with ⟨files, rfl⟩ | rfl
    · exact h1
    · exact h1
    · simp [World.step, h2]
    · exact h2
    · intro c hc
      rcases List.mem_cons.mp hc with rfl | hc
      · exact hid
      · exact h3 c hc
    · intro c hc
      exact h3 c (groups_remove_mem hc)

theorem lateBoot {E : Env} (hc : CfgOk E) (inBuf outBuf : List UInt8) (h1 : inBuf.length = E.inSize) (h2 : outBuf.length = E.outSize)
    (gs os : List FsOp) (hg : OnlyGroups gs) (hgv : World.ValidRun E ⟨[], [], none⟩ gs) (hv : (lateWorld E (groupsOf gs)).ValidRun E os) :
    ∃ u, run E (blank inBuf outBuf) (gs.map (fun o => Op.api o.api) ++ steps os) = .ok u ∧ Booted E ((lateWorld E (groupsOf gs)).run os).1 u ∧
      u.log = (World.run ⟨[], [], none⟩ gs).2.map .ret ++ ((lateWorld E (groupsOf gs)).run os).2.map .ret := by
  obtain ⟨w, e1, H1, l1⟩ := fsRun_sim gs _ _ (blank_winv hc inBuf outBuf) hgv
  have Fw := fsApis_frame gs e1
  obtain ⟨g1, g2, g3⟩ := onlyGroups_run gs ⟨[], [], none⟩ hg rfl rfl (by simp)
  have H1' : WInv E w ⟨[], groupsOf gs, none⟩ := by
    have : (World.run ⟨[], [], none⟩ gs).1 = ⟨[], groupsOf gs, none⟩ := by
      unfold groupsOf
      generalize (World.run ⟨[], [], none⟩ gs).1 = W at g1 g2
      obtain ⟨t, g, c⟩ := W
      simp only at g1 g2
      subst g1 g2
      rfl
    rw [← this]; exact H1
  obtain ⟨u0, e0, H0, l0, b1, b2, p1, p2, p3, p4, p5⟩ := ushInit_late hc H1' g3
  obtain ⟨u, e, H, l⟩ := fsRun_sim os u0 _ H0 hv
  have F := fsApis_frame os e
  refine ⟨u, ?_, ⟨H, ⟨?_, ?_⟩, ?_⟩, by rw [l, l0, l1]; rfl⟩
  · have e2 : steps os = .init :: (os.map FsOp.api).map Op.api := by simp [steps]
    have e3 : gs.map (fun o => Op.api o.api) = (gs.map FsOp.api).map Op.api := by simp
    rw [run_append, e3, run_apis, e1, M.ok_bind, e2, run, step, e0]
    simp only [M.ok_bind]
    rw [run_apis]; exact e
  · rw [F]; show u0.inBuf.length = _; rw [b1, Fw]; exact h1
  · rw [F]; show u0.outBuf.length = _; rw [b2, Fw]; exact h2
  · rw [F]; exact ⟨p1, p2, p3, p4, p5⟩

end Ush
