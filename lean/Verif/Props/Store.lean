import Verif.Proof.Store
/-!
# Files as memory (C51)
-/
namespace Ush.Props
open Spec

/-- Files whose callbacks keep what is written are a memory: whatever bytes are written to whatever files and read with `xxd` and `cat`, in any order and number, with
paths written in any way, the screen shows what the specified memory contains. -/
theorem C51_memory (E : Env) (cfg : Config E) (hin : 0 < E.inSize) (A : App) (hA : A.Describes E) (I : Nat → Prop) (hS : A.Stores I)
    (room : 0 < E.xxdColumns ∧ 10 < E.outSize ∧ 3 * E.xxdColumns + 1 < E.outSize) (t : Term) (u : Ush) (H : Shell E t u) (he : t.ed = {}) (tools : t.world.Tools E)
    (hlen : ∀ id, I id → (stored id t.log).length ≤ 16 ^ 8) (as : List Access) (hok : ∀ a ∈ as, a.Ok E t.world I) (inp : List UInt8) :
    ∃ v t', Steps E u (entered (as.map (·.line)) ++ inp) v inp ∧ Shell E t' v ∧ t'.world = t.world ∧ t'.ed = {} ∧
      shown v.log = shown u.log ++ screen E t.world (fun id => stored id u.log) as ∧
      ∀ id, I id → stored id v.log = memory t.world (fun id => stored id u.log) as id := by
  obtain ⟨k1, k2, k3, k4, k5⟩ := access_run hS room t.world tools H.waiting.ok as t (fun id => stored id t.log) rfl he (fun _ _ => rfl) hlen hok
  obtain ⟨v, s, H'⟩ := C47_keys E cfg hin A hA _ t u H k1 inp
  exact ⟨v, _, s, H', k2, k3, by rw [H'.log, H.log, k4], by rw [H'.log, H.log]; exact k5⟩

/-- From `ush_init` on, whatever the timing of the terminal; the files are empty at the beginning. -/
theorem C51_life (E : Env) (hc : CfgOk E) (cfg : Config E) (A : App) (hA : A.Describes E) (I : Nat → Prop) (hS : A.Stores I)
    (room : 0 < E.xxdColumns ∧ 10 < E.outSize ∧ 3 * E.xxdColumns + 1 < E.outSize) (inBuf outBuf : List UInt8)
    (h1 : inBuf.length = E.inSize) (h2 : outBuf.length = E.outSize) (os : List FsOp) (hv : (initWorld E).ValidRun E os) (ok : (after E os).Ok E)
    (tools : (after E os).Tools E) (as : List Access) (hok : ∀ a ∈ as, a.Ok E (after E os) I) (f : Nat → Slot) (hf : Fair f) :
    ∃ u v N, run E (blank inBuf outBuf) (steps os) = .ok u ∧ (∀ n ≥ N, driveN E f u (entered (as.map (·.line))) n = .ok (v, [])) ∧
      shown v.log = welcome ++ (after E os).prompt E ++ screen E (after E os) (fun _ => []) as ∧
      ∀ id, I id → stored id v.log = memory (after E os) (fun _ => []) as id := by
  have hr : ∀ (rs : List Status) (s : Str), shown (rs.map .ret ++ outs s) = s ∧ ∀ id, stored id (rs.map .ret ++ outs s) = [] := by
    intro rs s
    constructor
    · rw [shown_append, shown_outs]
      have : shown (rs.map .ret) = [] := by simp [shown]
      rw [this]; rfl
    · intro id
      rw [← List.nil_append (rs.map Event.ret ++ outs s), stored_append]
      · rfl
      · intro d hd
        simp [outs] at hd
  obtain ⟨k1, -, -, k4, k5⟩ := access_run hS room (after E os) tools ok as (Term.start E os) (fun _ => []) rfl rfl (fun id _ => (hr _ _).2 id) (by simp) hok
  obtain ⟨u, v, N, e, H, h⟩ := C47_life E hc cfg A hA inBuf outBuf h1 h2 os hv ok _ k1 f hf
  refine ⟨u, v, N, e, h, ?_, by rw [H.log]; exact k5⟩
  rw [H.log, k4]
  show shown (_ ++ outs _) ++ _ = _
  rw [(hr _ _).1]

/-- In particular: any bytes, written to a file and dumped later, after any accesses to other files, are on the screen, where they can be read off. -/
theorem C51_roundtrip (E : Env) (W : World) (m : Nat → Str) (hc : 0 < E.xxdColumns) (p q d : Str) (as : List Access) (hq : W.cell q = W.cell p)
    (h : ∀ a ∈ as, ∀ r x, a = .write r x → W.cell r ≠ W.cell p) :
    ∃ s, screen E W m (.write p d :: as ++ [.dump q]) = s ++ xxdText E.xxdColumns d ++ W.prompt E ∧ readDump E.xxdColumns (d.length + 1) (xxdText E.xxdColumns d) = d := by
  have key : ∀ (as : List Access) (m : Nat → Str), m (W.cell p) = d → (∀ a ∈ as, ∀ r x, a = .write r x → W.cell r ≠ W.cell p) →
      ∃ s, screen E W m (as ++ [.dump q]) = s ++ xxdText E.xxdColumns d ++ W.prompt E := by
    intro as
    induction as with
    | nil =>
      intro m hm _
      refine ⟨Access.line (.dump q) ++ crlf, ?_⟩
      simp [screen, Access.answer, hq, hm]
    | cons a as ih =>
      intro m hm h
      obtain ⟨s, hs⟩ := ih (a.memory W m) (by
        cases a with
        | write r x =>
          show (if W.cell p = W.cell r then x else m _) = d
          rw [if_neg (fun e => h _ (by simp) r x rfl e.symm)]; exact hm
        | dump r => exact hm
        | print r => exact hm) (fun b hb => h b (by simp [hb]))
      refine ⟨a.line ++ crlf ++ a.answer E W m ++ W.prompt E ++ s, ?_⟩
      rw [List.cons_append, screen, hs]; simp
  obtain ⟨s, hs⟩ := key as (Access.memory W m (.write p d)) (if_pos rfl) h
  refine ⟨Access.line (.write p d) ++ crlf ++ Access.answer E W m (.write p d) ++ W.prompt E ++ s, ?_, C31_complete _ hc d⟩
  rw [List.cons_append, screen, hs]; simp

/-! ### A device with a memory -/

/-- The sample shell with a larger input buffer; all files keep what is written. -/
def mE : Env := { pE with
  inSize := 48
  userGet := fun id u => some (stored id u.log)
  userSet := fun _ _ _ => [] }

def mA : App where
  exec := fun _ _ _ => [.print b!"hello"]
  get := fun id l => stored id l

theorem mDescribes : mA.Describes mE where
  hook := fun _ _ _ _ => rfl
  exec := fun _ _ _ _ _ => rfl
  get := fun id l u h => by simp [mE, mA, h]
  set := fun id l d u _ => rfl

theorem mStores : mA.Stores (fun _ => True) := ⟨fun _ _ => rfl, fun _ _ _ _ => rfl, fun _ _ _ => rfl⟩

theorem mConfig : Config mE :=
  ⟨by decide, ⟨by decide, by decide, by decide, by decide, by decide, statusString_nul _ (by decide)⟩⟩

theorem mWorld : (initWorld mE).ValidRun mE sHist ∧ (after mE sHist).Ok mE ∧ CfgOk mE := ⟨by decide, by decide, ⟨by decide, by decide, by decide, by decide, by decide⟩⟩

theorem mTools : (after mE sHist).Tools mE where
  near := by decide
  echo := ⟨_, rfl, rfl⟩
  xxd := ⟨_, rfl, rfl, rfl⟩
  cat := ⟨_, rfl, rfl, rfl⟩

/-- Two files; one of them under two names; bytes that cannot be typed, among them NUL. -/
def mAccesses : List Access :=
  [.write b!"/dev/led" [0, 13], .write b!"data" b!"abc", .dump b!"dev/../dev/led", .print b!"/data", .write b!"data" [], .dump b!"data"]

theorem mAccess : ∀ a ∈ mAccesses, a.Ok mE (after mE sHist) (fun _ => True) := by
  have h : ∀ a ∈ mAccesses, (after mE sHist).Near mE a.path ∧ a.line.length + 1 < mE.inSize ∧ (∀ c ∈ a.path, isText c = true ∧ isErase c = false ∧ c ≠ cNul) ∧
      ((after mE sHist).file? a.path).any (fun f => f.getData.isSome && f.getData == f.setData) = true := by decide +kernel
  intro a ha
  obtain ⟨h1, h2, h3, h4⟩ := h a ha
  refine ⟨⟨h1, ?_, h3⟩, h2, ?_⟩
  · cases hf : (after mE sHist).file? a.path with
    | none => rw [hf] at h4; cases h4
    | some f =>
      rw [hf] at h4
      simp only [Option.any_some, Bool.and_eq_true, beq_iff_eq] at h4
      obtain ⟨id, hid⟩ := Option.isSome_iff_exists.1 h4.1
      exact ⟨f, id, rfl, hid, h4.2 ▸ hid, trivial⟩
  · intro p d e
    subst e
    simp only [mAccesses, List.mem_cons, Access.write.injEq, List.not_mem_nil, or_false, reduceCtorEq, false_or] at ha
    rcases ha with ⟨-, rfl⟩ | ⟨-, rfl⟩ | ⟨-, rfl⟩ <;> decide

example : ∃ u v N, run mE (blank (List.replicate 48 1) (List.replicate 64 2)) (steps sHist) = .ok u ∧
    (∀ n ≥ N, driveN mE (fun n => if n % 2 = 0 then ⟨true, false⟩ else ⟨false, true⟩) u (entered (mAccesses.map (·.line))) n = .ok (v, [])) ∧
    shown v.log = welcome ++ b!"[h /]$ echo \"\\x00\\x0d\" > \"/dev/led\"\r\n[h /]$ echo \"\\x61\\x62\\x63\" > \"data\"\r\n[h /]$ xxd \"dev/../dev/led\"\r\n" ++
      b!"00000000: 00 0D                    ..      \r\n[h /]$ cat \"/data\"\r\nabc[h /]$ echo \"\" > \"data\"\r\n[h /]$ xxd \"data\"\r\n" ++
      b!"00000000:                                  \r\n[h /]$ " := by
  obtain ⟨u, v, N, e, h, hs, -⟩ := C51_life mE mWorld.2.2 mConfig mA mDescribes (fun _ => True) mStores (by decide) (List.replicate 48 1) (List.replicate 64 2) rfl rfl sHist
    mWorld.1 mWorld.2.1 mTools mAccesses mAccess (fun n => if n % 2 = 0 then ⟨true, false⟩ else ⟨false, true⟩)
    ⟨fun n => ⟨2 * n, by omega, by simp⟩, fun n => ⟨2 * n + 1, by omega, by simp [show (2 * n + 1) % 2 = 1 by omega]⟩⟩
  exact ⟨u, v, N, e, h, hs.trans (by decide +kernel)⟩

/-- What is written is read again, whatever happens to other files in between, and under another name of the same file. -/
example : ∃ s, screen mE (after mE sHist) (fun _ => []) (.write b!"/dev/led" [0, 13] :: [.write b!"data" b!"abc"] ++ [.dump b!"dev/../dev/led"]) =
    s ++ xxdText mE.xxdColumns [0, 13] ++ (after mE sHist).prompt mE := by
  obtain ⟨s, h, -⟩ := C51_roundtrip mE (after mE sHist) (fun _ => []) (by decide) b!"/dev/led" b!"dev/../dev/led" [0, 13] [.write b!"data" b!"abc"] (by decide)
    (fun a ha r x e => by rw [List.mem_singleton.1 ha] at e; cases e; decide)
  exact ⟨s, h⟩

example : ∃ u v, Shell mE (Term.start mE sHist) u ∧ Steps mE u (entered (mAccesses.map (·.line)) ++ []) v [] ∧
    shown v.log = shown u.log ++ screen mE (after mE sHist) (fun id => stored id u.log) mAccesses := by
  obtain ⟨-, u, -, -, H, l⟩ := C38_startup mE mWorld.2.2 mConfig (List.replicate 48 1) (List.replicate 64 2) rfl rfl sHist mWorld.1 mWorld.2.1 []
  have e : (Term.start mE sHist).ed = {} := rfl
  obtain ⟨v, t', h1, -, -, -, h2, -⟩ := C51_memory mE mConfig (by decide) mA mDescribes (fun _ => True) mStores (by decide) (Term.start mE sHist) u ⟨H, l⟩ e mTools
    (fun id _ => by have : stored id (Term.start mE sHist).log = [] := rfl
                    rw [this]; exact Nat.zero_le _) mAccesses mAccess []
  exact ⟨u, v, ⟨H, l⟩, h1, h2⟩

end Ush.Props
