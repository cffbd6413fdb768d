import Verif.Props.Own
import Verif.Props.Terminal
import Verif.Proof.Both
/-!
# Two shells in one program, each with its terminal (C55)

`t : Two` are two shell objects with the node objects of the program (Spec/Own.lean); `SA` and `SB` are the nodes of the two applications.
-/
namespace Ush.Props
open Spec

/-- At every moment, in every order of service calls and whatever the two terminals do: no fault, and each terminal has seen a beginning of what it sees when its shell
is alone. -/
theorem C55_moment (SA SB : NodeId → Bool) (EA EB : Env) (cfgA : Config EA) (cfgB : Config EB) (inA : 0 < EA.inSize) (inB : 0 < EB.inSize) (A B : App)
    (hA : A.Describes EA) (hB : B.Describes EB) (PA : Private SA EA) (PB : Private SB EB) (t : Two) (ap : Apart SA SB t) (ta tb : Term)
    (Ha : Shell EA ta (view t.a t.heap)) (Hb : Shell EB tb (view t.b t.heap)) (ca cb : List UInt8) (oka : ta.OkAll EA A ca) (okb : tb.OkAll EB B cb)
    (ss : List (Bool × Slot)) :
    ∃ t' p q, driveTwo EA EB t ca cb ss = .ok (t', p, q) ∧ t'.a.log <+: (ta.keys EA A ca).log ∧ t'.b.log <+: (tb.keys EB B cb).log := by
  obtain ⟨va, p, e1, l1⟩ := C47_prefix EA cfgA inA A hA ca ta _ Ha oka (slots false ss)
  obtain ⟨vb, q, e2, l2⟩ := C47_prefix EB cfgB inB B hB cb tb _ Hb okb (slots true ss)
  obtain ⟨t', e, h1, h2⟩ := two_drive ap.own0.1 ap.own0.2 ap.disjoint PA PB ss t ca cb (view t.a t.heap) (view t.b t.heap) ⟨rfl, fun _ _ => rfl⟩ ap.a ⟨rfl, fun _ _ => rfl⟩ ap.b va vb p q e1 e2
  refine ⟨t', p, q, e, ?_, ?_⟩
  · have : t'.a.log = va.log := by have := congrArg Ush.log h1.1; exact this.symm
    rw [this]; exact l1
  · have : t'.b.log = vb.log := by have := congrArg Ush.log h2.1; exact this.symm
    rw [this]; exact l2

/-- The runs of two shells alone give the run of both. -/
theorem both_reach {SA SB : NodeId → Bool} {EA EB : Env} (PA : Private SA EA) (PB : Private SB EB) {t : Two} {ua ub : Ush} (h0 : SA 0 = true ∧ SB 0 = true)
    (hd : ∀ i, i ≠ 0 → SA i = true → SB i = false) (Ka : Alike SA ua (view t.a t.heap)) (Oa : Own SA ua) (Kb : Alike SB ub (view t.b t.heap)) (Ob : Own SB ub)
    {ca cb : List UInt8} {va vb : Ush} {f : Nat → Bool × Slot} (hf : FairTwo f) {Na Nb : Nat} (ea : ∀ n ≥ Na, driveN EA (nthSlot f false) ua ca n = .ok (va, []))
    (eb : ∀ n ≥ Nb, driveN EB (nthSlot f true) ub cb n = .ok (vb, [])) :
    ∃ N, ∀ n ≥ N, ∃ t', driveTwo EA EB t ca cb ((List.range n).map f) = .ok (t', [], []) ∧ Alike SA va (view t'.a t'.heap) ∧ Alike SB vb (view t'.b t'.heap) := by
  obtain ⟨na, ha⟩ := fairTwo_count (w := false) hf Na
  obtain ⟨nb, hb⟩ := fairTwo_count (w := true) hf Nb
  refine ⟨max na nb, fun n hn => ?_⟩
  refine two_drive h0.1 h0.2 hd PA PB _ t ca cb ua ub Ka Oa Kb Ob va vb [] [] ?_ ?_
  · rw [slots_range]
    exact ea _ (ha n (Nat.le_trans (Nat.le_max_left ..) hn))
  · rw [slots_range]
    exact eb _ (hb n (Nat.le_trans (Nat.le_max_right ..) hn))

/-- If both are serviced again and again, each terminal sees what it sees when its shell is alone. -/
theorem C55_timing (SA SB : NodeId → Bool) (EA EB : Env) (cfgA : Config EA) (cfgB : Config EB) (inA : 0 < EA.inSize) (inB : 0 < EB.inSize) (A B : App)
    (hA : A.Describes EA) (hB : B.Describes EB) (PA : Private SA EA) (PB : Private SB EB) (t : Two) (ap : Apart SA SB t) (ta tb : Term)
    (Ha : Shell EA ta (view t.a t.heap)) (Hb : Shell EB tb (view t.b t.heap)) (ca cb : List UInt8) (oka : ta.OkAll EA A ca) (okb : tb.OkAll EB B cb)
    (f : Nat → Bool × Slot) (hf : FairTwo f) :
    ∃ N, ∀ n ≥ N, ∃ t', driveTwo EA EB t ca cb ((List.range n).map f) = .ok (t', [], []) ∧ t'.a.log = (ta.keys EA A ca).log ∧ t'.b.log = (tb.keys EB B cb).log := by
  obtain ⟨va, Na, Va, ea⟩ := C47_timing EA cfgA inA A hA ca ta _ Ha oka _ (fairTwo_fair (w := false) hf)
  obtain ⟨vb, Nb, Vb, eb⟩ := C47_timing EB cfgB inB B hB cb tb _ Hb okb _ (fairTwo_fair (w := true) hf)
  obtain ⟨N, h⟩ := both_reach (t := t) (ua := view t.a t.heap) (ub := view t.b t.heap) PA PB ap.own0 ap.disjoint ⟨rfl, fun _ _ => rfl⟩ ap.a ⟨rfl, fun _ _ => rfl⟩ ap.b hf ea eb
  refine ⟨N, fun n hn => ?_⟩
  obtain ⟨t', e, h1, h2⟩ := h n hn
  exact ⟨t', e, (congrArg Ush.log h1.1).symm.trans Va.log, (congrArg Ush.log h2.1).symm.trans Vb.log⟩

/-- Two new shell objects. -/
def bothBlank (ia oa ib ob : List UInt8) : Two := ⟨blank ia oa, blank ib ob, fun _ => {}⟩

theorem blank_own (S : NodeId → Bool) (i o : List UInt8) : Own S (blank i o) :=
  ⟨fun _ _ => ⟨.none, .none, .none⟩, .none, .none, .none, .none, .none⟩

theorem view_blank (i o : List UInt8) : view (blank i o) (fun _ => {}) = blank i o := by
  have : (fun i => if i = 0 then ({} : Node) else {}) = fun _ => {} := by funext i; split <;> rfl
  unfold view blank
  simp only [this]

/-- From `ush_init` on, the initialisations in any order. -/
theorem C55_life (SA SB : NodeId → Bool) (h0 : SA 0 = true ∧ SB 0 = true) (hd : ∀ i, i ≠ 0 → SA i = true → SB i = false) (EA EB : Env) (hcA : CfgOk EA) (hcB : CfgOk EB)
    (cfgA : Config EA) (cfgB : Config EB) (A B : App) (hA : A.Describes EA) (hB : B.Describes EB) (PA : Private SA EA) (PB : Private SB EB) (ia oa ib ob : List UInt8)
    (hia : ia.length = EA.inSize) (hoa : oa.length = EA.outSize) (hib : ib.length = EB.inSize) (hob : ob.length = EB.outSize) (fa fb : List FsOp)
    (va : (initWorld EA).ValidRun EA fa) (vb : (initWorld EB).ValidRun EB fb) (wa : (after EA fa).Ok EA) (wb : (after EB fb).Ok EB) (os : List (Bool × Op))
    (ho : ∀ x ∈ os, OpIn (if x.1 then SB else SA) x.2) (osa : only false os = steps fa) (osb : only true os = steps fb) (ca cb : List UInt8)
    (oka : (Term.start EA fa).OkAll EA A ca) (okb : (Term.start EB fb).OkAll EB B cb) (f : Nat → Bool × Slot) (hf : FairTwo f) :
    ∃ t N, (bothBlank ia oa ib ob).run EA EB os = .ok t ∧ ∀ n ≥ N, ∃ t', driveTwo EA EB t ca cb ((List.range n).map f) = .ok (t', [], []) ∧
      t'.a.log = ((Term.start EA fa).keys EA A ca).log ∧ t'.b.log = ((Term.start EB fb).keys EB B cb).log := by
  obtain ⟨ua, xa, Na, ra, Va, ea⟩ := C47_life EA hcA cfgA A hA ia oa hia hoa fa va wa ca oka _ (fairTwo_fair (w := false) hf)
  obtain ⟨ub, xb, Nb, rb, Vb, eb⟩ := C47_life EB hcB cfgB B hB ib ob hib hob fb vb wb cb okb _ (fairTwo_fair (w := true) hf)
  have owa : Own SA ua := run_own h0.1 PA _ _ _ (blank_own SA ia oa) (by
    rw [← osa]
    intro o h
    obtain ⟨⟨w, o'⟩, h1, h2⟩ := List.mem_filterMap.mp h
    cases w <;> simp at h2
    subst h2
    exact ho _ h1) ra
  have owb : Own SB ub := run_own h0.2 PB _ _ _ (blank_own SB ib ob) (by
    rw [← osb]
    intro o h
    obtain ⟨⟨w, o'⟩, h1, h2⟩ := List.mem_filterMap.mp h
    cases w <;> simp at h2
    subst h2
    exact ho _ h1) rb
  have ap : Apart SA SB (bothBlank ia oa ib ob) := ⟨h0, hd, by
    show Own SA (view (blank ia oa) fun _ => {})
    rw [view_blank]
    exact blank_own ..,  by
    show Own SB (view (blank ib ob) fun _ => {})
    rw [view_blank]
    exact blank_own ..⟩
  obtain ⟨t, e, k1, k2⟩ := C43_interleaved SA SB EA EB _ ap PA PB os ho ua ub (by
      show run EA (view (blank ia oa) fun _ => {}) _ = _
      rw [view_blank, osa]
      exact ra) (by
      show run EB (view (blank ib ob) fun _ => {}) _ = _
      rw [view_blank, osb]
      exact rb)
  obtain ⟨N, h⟩ := both_reach PA PB h0 hd k1 owa k2 owb hf ea eb
  refine ⟨t, N, e, fun n hn => ?_⟩
  obtain ⟨t', e, h1, h2⟩ := h n hn
  exact ⟨t', e, (congrArg Ush.log h1.1).symm.trans Va.log, (congrArg Ush.log h2.1).symm.trans Vb.log⟩

/-! ### A program with two terminals -/

/-- The second shell has larger buffers. -/
def qE : Env := { pE with inSize := 40, nodeCount := 9 }

theorem qE_describes : pA.Describes qE := ⟨pDescribes.hook, pDescribes.exec, pDescribes.get, pDescribes.set⟩

theorem qE_cfg : CfgOk qE ∧ Config qE :=
  ⟨⟨by decide, by decide, by decide, by decide, by decide⟩, by decide, ⟨by decide, by decide, by decide, by decide, by decide, statusString_nul _ (by decide)⟩⟩

theorem pE_private (S : NodeId → Bool) : Private S pE where
  hook := fun h e argv u => by cases e; exact ⟨fun _ => rfl, by simp⟩
  exec := fun id argv u => ⟨fun _ => rfl, fun a h => by cases List.mem_singleton.mp h; trivial⟩
  proc := fun id u => ⟨fun _ => rfl, fun a h => by cases h⟩
  set := fun id d u => ⟨fun _ => rfl, fun a h => by
    have h : a ∈ (if id = 8 then [Api.print (.str b!"set")] else []) := h
    split at h
    · cases List.mem_singleton.mp h; trivial
    · cases h⟩
  get := fun _ _ _ => rfl

theorem qE_private (S : NodeId → Bool) : Private S qE := ⟨(pE_private S).hook, (pE_private S).exec, (pE_private S).proc, (pE_private S).set, (pE_private S).get⟩

/-- Nodes of the second application. -/
def qHist : List FsOp := [.mount [] 5 [{ name := b!"data", getData := some 7 }], .mount [b!"new"] 6 []]

def qKeys : List UInt8 := b!"cat data\rls\rcd new\rcd ..\rcat data\r"

def pNodes (i : NodeId) : Bool := i < 5
def qNodes (i : NodeId) : Bool := i == 0 || 5 ≤ i

/-- Initialised alternately. -/
def bothOps : List (Bool × Op) := ((steps sHist).zip (steps qHist)).flatMap (fun (x, y) => [(false, x), (true, y)]) ++ ((steps sHist).drop (steps qHist).length).map (false, ·)

/-- In four calls each terminal gets one for input and one for output. -/
def bothSlots (n : Nat) : Bool × Slot := (n % 4 < 2, ⟨n % 2 = 0, n % 2 = 1⟩)

theorem bothFair : FairTwo bothSlots := by
  intro w n
  cases w
  · exact ⟨⟨4 * n + 2, by omega, by simp [bothSlots, show (4 * n + 2) % 4 = 2 by omega], by simp [bothSlots, show (4 * n + 2) % 2 = 0 by omega]⟩,
      ⟨4 * n + 3, by omega, by simp [bothSlots, show (4 * n + 3) % 4 = 3 by omega], by simp [bothSlots, show (4 * n + 3) % 2 = 1 by omega]⟩⟩
  · exact ⟨⟨4 * n, by omega, by simp [bothSlots], by simp [bothSlots, show (4 * n) % 2 = 0 by omega]⟩,
      ⟨4 * n + 1, by omega, by simp [bothSlots, show (4 * n + 1) % 4 = 1 by omega], by simp [bothSlots, show (4 * n + 1) % 2 = 1 by omega]⟩⟩

theorem qOk : (initWorld qE).ValidRun qE qHist ∧ (after qE qHist).Ok qE ∧ (Term.start qE qHist).OkAll qE pA qKeys :=
  ⟨by decide, by decide, by decide +kernel⟩

example : ∃ t N, (bothBlank (List.replicate 32 1) (List.replicate 64 2) (List.replicate 40 3) (List.replicate 64 4)).run pE qE bothOps = .ok t ∧
    ∀ n ≥ N, ∃ t', driveTwo pE qE t pKeys qKeys ((List.range n).map bothSlots) = .ok (t', [], []) ∧
      t'.a.log = ((Term.start pE sHist).keys pE pA pKeys).log ∧ t'.b.log = ((Term.start qE qHist).keys qE pA qKeys).log :=
  C55_life pNodes qNodes (by decide) (fun i hi h => by
      simp only [pNodes, qNodes, decide_eq_true_eq, Bool.or_eq_false_iff, beq_eq_false_iff_ne, decide_eq_false_iff_not] at h ⊢
      exact ⟨hi, Nat.not_le.mpr h⟩) pE qE pCfg qE_cfg.1 pConfig qE_cfg.2 pA pA pDescribes qE_describes (pE_private _) (qE_private _) _ _ _ _ rfl rfl rfl rfl sHist qHist pOk.1 qOk.1
    pOk.2.1 qOk.2.1 bothOps (by decide +kernel) rfl rfl pKeys qKeys pOk.2.2 qOk.2.2 _ bothFair

theorem qShown : shown ((Term.start qE qHist).keys qE pA qKeys).log = welcome ++
    b!"[h /]$ cat data\r\n0\n[h /]$ ls\r\nd---- .\r\nd---- new/\r\n-r--- data\r\n[h /]$ cd new\r\n[h new]$ cd ..\r\n[h /]$ cat data\r\n1\n[h /]$ " := by
  decide +kernel

end Ush.Props
