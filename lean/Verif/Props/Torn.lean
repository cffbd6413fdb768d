import Verif.Proof.Torn
import Verif.Props.Apps
import Verif.Props.Safe
/-!
# C77: texts and data that change while they are being printed

`ush_write_pointer`, `ush_write_pointer_bin` and `xxd` keep pointers into memory of the application for many calls of `ush_service`.  If the application writes to that memory in the
meantime, the bytes printed are those of the moment.  Nothing else is different: not the number of bytes, not what the shell does, not the calls of callbacks, not what is wrong.
-/
namespace Ush.Props
open Spec

/-- Either both go wrong in the same way, or both end well and with the same shells but for bytes. -/
def Together (m m' : M Ush) : Prop := (∃ u v, m = .ok u ∧ m' = .ok v ∧ Like u v) ∨ ∃ f, m = .error f ∧ m' = .error f

theorem together_of {m m' : M Ush} (h : Sim Like m m') : Together m m' := by
  cases m <;> cases m' <;> simp_all [Sim, Together]

section
variable (E : Env) (P : Unseeing E)
include P

/-- One service call, API call, `ush_init` or `ush_deinit`. -/
theorem C77_step (u v : Ush) (h : Like u v) (o : Op) : Together (step E u o) (step E v o) := together_of (step_like P h o)

/-- A whole history, with the memory written before every step in any way. -/
theorem C77_run (p : Nat → Ush → Ush) (hp : Rewriter p) (u : Ush) (os : List Op) : Together (run E u os) (runR E p 0 u os) :=
  together_of (runR_like P hp os 0 (.refl u))

/-- The histories that are safe by C23 (buffers, callbacks and calls as there) are safe with such an application. -/
theorem C77_safe (L : Nat) (hc : CfgOk E) (room : Roomy E) (beh : Behaves E L) (inBuf outBuf : List UInt8)
    (h1 : inBuf.length = E.inSize) (h2 : outBuf.length = E.outSize) (os : List FsOp) (hv : (initWorld E).ValidRun E os)
    (ok : (after E os).Ok E) (fits : (after E os).Fits E L) :
    ∃ u, run E (blank inBuf outBuf) (steps os) = .ok u ∧
      ∀ ms, Legal E L u ms → ∀ p, Rewriter p → ∃ v, runR E p 0 u (ms.flatMap Move.ops) = .ok v := by
  obtain ⟨u, e, h⟩ := C23_memory_safe_partial E L hc room beh inBuf outBuf h1 h2 os hv ok fits
  refine ⟨u, e, fun ms hl p hp => ?_⟩
  obtain ⟨v, hv⟩ := h ms hl
  rcases C77_run E P p hp u (ms.flatMap Move.ops) with ⟨_, w, -, k, -⟩ | ⟨f, k, -⟩
  · exact ⟨w, k⟩
  · rw [hv] at k; cases k

theorem driveNR_like (p : Nat → Ush → Ush) (hp : Rewriter p) (f : Nat → Slot) (u : Ush) (cs : List UInt8) (n : Nat) :
    Sim LikeR (driveN E f u cs n) (driveNR E p f u cs n) := driveR_like P hp _ 0 cs (.refl u)

/-- C73 with such an application: all keys are read and the shell waits for the next with the line, directories and events foreseen (but for the values of the bytes printed), or it never reads again. -/
theorem C77_life (cfg : Config E) (A : App) (hA : A.Describes E) (hg : ∀ id l, (A.get id l).length ≤ 16 ^ 8) (hc : CfgOk E) (inBuf outBuf : List UInt8) (h1 : inBuf.length = E.inSize) (h2 : outBuf.length = E.outSize) (os : List FsOp)
    (hv : (initWorld E).ValidRun E os) (hW : (after E os).Sound E) (cs : List UInt8) (ha : (Term.start E os).AppAll E A cs) (f : Nat → Slot) (hf : Fair f)
    (p : Nat → Ush → Ush) (hp : Rewriter p) :
    ∃ u, run E (blank inBuf outBuf) (steps os) = .ok u ∧
      ((Term.start E os).NearAppAll E A cs → ∃ v K, Shell E ((Term.start E os).keys E A cs) v ∧ ∀ n ≥ K, ∃ w, driveNR E p f u cs n = .ok (w, []) ∧ Like v w) ∧
      (¬ (Term.start E os).NearAppAll E A cs → ∃ K, ∀ n ≥ K, ∀ v r, driveNR E p f u cs n = .ok (v, r) → v.state ≠ .readChar) := by
  obtain ⟨u, e, k1, k2⟩ := C73_life E cfg A hA hg hc inBuf outBuf h1 h2 os hv hW cs ha f hf
  refine ⟨u, e, fun h => ?_, fun h => ?_⟩
  · obtain ⟨v, K, H, hK⟩ := k1 h
    refine ⟨v, K, H, fun n hn => ?_⟩
    have S := driveNR_like E P p hp f u cs n
    rw [hK n hn] at S
    cases hd : driveNR E p f u cs n with
    | error _ => rw [hd] at S; exact S.elim
    | ok r =>
      rw [hd] at S
      obtain ⟨w, rest⟩ := r
      obtain ⟨S1, S2⟩ := S
      obtain rfl : rest = [] := S2
      exact ⟨w, rfl, S1⟩
  · obtain ⟨K, hK⟩ := k2 h
    refine ⟨K, fun n hn w r hd => ?_⟩
    have S := driveNR_like E P p hp f u cs n
    rw [hd] at S
    cases hm : driveN E f u cs n with
    | error _ => rw [hm] at S; exact S.elim
    | ok q =>
      rw [hm] at S
      rw [S.1.state]
      exact hK n hn q.1 q.2 hm

/-- An application that always keeps the rules, all keys: the shell survives exactly if there is room for them. -/
theorem C77_keeps (cfg : Config E) (A : App) (hA : A.Describes E) (hg : ∀ id l, (A.get id l).length ≤ 16 ^ 8) (Q : World → Prop) (K : A.Keeps E Q) (hc : CfgOk E) (inBuf outBuf : List UInt8) (h1 : inBuf.length = E.inSize) (h2 : outBuf.length = E.outSize) (os : List FsOp)
    (hv : (initWorld E).ValidRun E os) (hQ : Q (after E os)) (cs : List UInt8) (f : Nat → Slot) (hf : Fair f) (p : Nat → Ush → Ush) (hp : Rewriter p) :
    ∃ u, run E (blank inBuf outBuf) (steps os) = .ok u ∧
      ((∀ K, ∃ n ≥ K, ∃ v r, driveNR E p f u cs n = .ok (v, r) ∧ v.state = .readChar) ↔ (Term.start E os).NearAppAll E A cs) := by
  obtain ⟨u, e, k1, k2⟩ := C77_life E P cfg A hA hg hc inBuf outBuf h1 h2 os hv (K.sound _ hQ) cs (keeps_all K cs _ hQ) f hf p hp
  refine ⟨u, e, fun h => ?_, fun h K => ?_⟩
  · refine Classical.byContradiction fun hn => ?_
    obtain ⟨K, hK⟩ := k2 hn
    obtain ⟨n, hn, v, r, e, hs⟩ := h K
    exact hK n hn v r e hs
  · obtain ⟨v, N, H, hN⟩ := k1 h
    obtain ⟨w, e, L⟩ := hN _ (Nat.le_max_right K N)
    exact ⟨max K N, Nat.le_max_left _ _, w, [], e, L.state.trans H.waiting.shows.state⟩

end

/-! ## What is printed -/

/-- The bytes of the memory a pointer points to. -/
def bytesAt : Ptr → List UInt8
  | .str s => s
  | .data d => d
  | _ => []

/-- The text `s` written to the memory, if it has the right size. -/
def refill (p : Ptr) (s : List UInt8) : Ptr :=
  match p with
  | .str t => if t.length = s.length then .str s else p
  | .data d => if d.length = s.length then .data s else p
  | p => p

/-- The application writes the text `c n` to the memory before step `n`. -/
def tear (c : Nat → List UInt8) (n : Nat) (u : Ush) : Ush := { u with writeBuf := refill u.writeBuf (c n) }

theorem refill_place (p : Ptr) (s : List UInt8) : samePlace p (refill p s) := by
  cases p <;> simp only [refill]
  case str t => split
                · assumption
                · rfl
  case data t => split
                 · assumption
                 · rfl
  all_goals rfl

theorem tear_rewriter (c : Nat → List UInt8) : Rewriter (tear c) :=
  fun _ u => ⟨_, u.procData, rfl, refill_place _ _, sameSize.refl _⟩

theorem bytesAt_refill {p : Ptr} {s : List UInt8} (h : (bytesAt p).length = s.length) (h0 : 0 < s.length) : bytesAt (refill p s) = s := by
  cases p <;> simp_all [bytesAt, refill]

theorem ptrRead_bytes {u : Ush} {p : Ptr} {i : Nat} (h : i < (bytesAt p).length) : ptrRead u p i = .ok ((bytesAt p).getD i 0) := by
  cases p with
  | str s =>
    show rd (s ++ [cNul]) i = _
    have h : i < s.length := h
    unfold rd
    rw [List.getElem?_append_left h, List.getElem?_eq_getElem h]
    simp [bytesAt, h]
  | data d =>
    show rd d i = _
    have h : i < d.length := h
    unfold rd
    rw [List.getElem?_eq_getElem h]
    simp [bytesAt, h]
  | _ => exact absurd h (Nat.not_lt_zero _)

/-- A byte is printed: that of the moment. -/
theorem C77_byte (E : Env) (u : Ush) (r : Option UInt8) (hs : u.state = .writeChar) (hc : u.current.isSome = true) (h : u.writePos < u.writeSize) (hb : u.writePos < (bytesAt u.writeBuf).length) :
    step E u (.service ⟨r, true⟩) = .ok { u with log := u.log ++ [.out ((bytesAt u.writeBuf).getD u.writePos 0)], writePos := u.writePos + 1 } := by
  show (do let (v, _) ← service E ⟨r, true⟩ u; return v) = _
  rw [service_eq E _ u hc, hs]
  simp only
  unfold writeChar
  rw [if_neg (by omega), ptrRead_bytes hb, ← hs]
  rfl

theorem tear_loop (E : Env) (r : Option UInt8) (c : Nat → List UInt8) (n : Nat) (hl : ∀ k, (c k).length = n) : ∀ (m i : Nat) (u : Ush), m + i = n → u.state = .writeChar → u.current.isSome = true →
    u.writePos = i → u.writeSize = n → (bytesAt u.writeBuf).length = n → 0 < n →
    ∃ v, runR E (tear c) i u (List.replicate (m + 1) (.service ⟨r, true⟩)) = .ok v ∧ v.state = u.writeNext ∧
      v.log = u.log ++ (List.range' i m).map fun k => .out ((c k).getD k 0) := by
  intro m
  induction m with
  | zero =>
    intro i u hm hs hc hp hz hb h0
    refine ⟨{ tear c i u with state := u.writeNext }, ?_, rfl, by simp [tear]⟩
    have : step E (tear c i u) (.service ⟨r, true⟩) = .ok { tear c i u with state := u.writeNext } := by
      show (do let (v, _) ← service E ⟨r, true⟩ (tear c i u); return v) = _
      rw [service_eq E _ _ (by exact hc), show (tear c i u).state = .writeChar from hs]
      simp only
      unfold writeChar
      rw [if_pos (by show u.writePos ≥ u.writeSize; omega)]
      rfl
    show (do let v ← step E (tear c i u) (.service ⟨r, true⟩); runR E (tear c) (i + 1) v []) = _
    rw [this]
    rfl
  | succ m ih =>
    intro i u hm hs hc hp hz hb h0
    have e : bytesAt (tear c i u).writeBuf = c i := bytesAt_refill (by rw [hb, hl]) (by rw [hl]; exact h0)
    have hi : i < (c i).length := by rw [hl]; omega
    have k := C77_byte E (tear c i u) r hs hc (by show u.writePos < u.writeSize; omega) (by rw [e]; show u.writePos < _; omega)
    obtain ⟨v, e1, e2, e3⟩ := ih (i + 1) { tear c i u with log := u.log ++ [.out ((c i).getD i 0)], writePos := i + 1 } (by omega) hs hc rfl hz (by rw [e, hl]) h0
    refine ⟨v, ?_, e2, ?_⟩
    · rw [List.replicate_succ]
      show (do let v ← step E (tear c i u) (.service ⟨r, true⟩); runR E (tear c) (i + 1) v _) = _
      rw [k]
      have : ({ tear c i u with log := u.log ++ [.out ((bytesAt (tear c i u).writeBuf).getD (tear c i u).writePos 0)], writePos := (tear c i u).writePos + 1 } : Ush) =
          { tear c i u with log := u.log ++ [.out ((c i).getD i 0)], writePos := i + 1 } := by
        have hw : (tear c i u).writePos = i := hp
        simp only [e, hw]
      exact (congrArg (fun w => runR E (tear c) (i + 1) w _) this).trans e1
    · rw [e3, List.range'_succ, List.map_cons, List.append_assoc]
      rfl

/-- The text is written anew before every call: byte `k` of the `k`-th text is printed. -/
theorem C77_torn (E : Env) (u : Ush) (r : Option UInt8) (c : Nat → List UInt8) (n : Nat) (hl : ∀ k, (c k).length = n) (h0 : 0 < n) (hs : u.state = .writeChar) (hc : u.current.isSome = true)
    (hp : u.writePos = 0) (hz : u.writeSize = n) (hb : (bytesAt u.writeBuf).length = n) :
    ∃ v, runR E (tear c) 0 u (List.replicate (n + 1) (.service ⟨r, true⟩)) = .ok v ∧ v.state = u.writeNext ∧
      v.log = u.log ++ (List.range n).map fun k => .out ((c k).getD k 0) := by
  rw [List.range_eq_range']
  exact tear_loop E r c n hl n 0 u rfl hs hc hp hz hb h0

/-! ## An example: the device of C73, with a value that is measured all the time -/

theorem plugUnseeing : Unseeing plugE where
  hook := fun h e argv u v _ => by cases e; rfl
  exec := fun _ _ _ _ _ => rfl
  proc := fun _ _ _ _ => rfl
  get := fun _ _ _ _ => rfl
  set := fun _ _ _ _ _ => rfl

theorem C77_plug (inBuf outBuf : List UInt8) (h1 : inBuf.length = 32) (h2 : outBuf.length = 64) (cs : List UInt8) (f : Nat → Slot) (hf : Fair f) (p : Nat → Ush → Ush) (hp : Rewriter p) :
    ∃ u, run plugE (blank inBuf outBuf) (steps plugHist) = .ok u ∧
      ((∀ K, ∃ n ≥ K, ∃ v r, driveNR plugE p f u cs n = .ok (v, r) ∧ v.state = .readChar) ↔ (Term.start plugE plugHist).NearAppAll plugE plugApp cs) :=
  C77_keeps plugE plugUnseeing plugConfig plugApp plugDescribes (fun _ _ => Nat.le_of_ble_eq_true rfl) _ plugKeeps ⟨by decide, by decide, by decide, by decide, by decide⟩ inBuf outBuf h1 h2 plugHist
    (by decide) (by decide) cs f hf p hp

/-- The temperature rises from 19 to 20 after the first digit has been printed: `cat temp` shows 10. -/
def riseP : Nat → Ush → Ush := fun _ u =>
  if u.writeBuf = .data b!"19" ∧ u.writePos = 1 then { u with writeBuf := .data b!"20" } else u

theorem riseP_rewriter : Rewriter riseP := by
  intro n u
  unfold riseP
  split
  · rename_i h
    exact ⟨.data b!"20", u.procData, rfl, by rw [h.1]; rfl, sameSize.refl _⟩
  · exact ⟨u.writeBuf, u.procData, rfl, samePlace.refl _, sameSize.refl _⟩

def riseE : Env := { plugE with userGet := fun _ _ => some b!"19" }

/-- What is printed while `cs` is typed, from the first prompt on. -/
def riseShows (p : Nat → Ush → Ush) (cs : List UInt8) : M (Bool × Str) := do
  let u ← run riseE (blank (List.replicate 32 0) (List.replicate 64 0)) (steps plugHist)
  let (v, r) ← driveNR riseE p (fun _ => ⟨true, true⟩) u cs 1000
  return (decide (v.state = .readChar ∧ r = []), (shown v.log).drop ((shown v.log).length - 20))

theorem C77_rise : riseShows (fun _ u => u) b!"plug\ncd x\ncat temp\n" = .ok (true, b!"p\n19\x1b[35m[h x]$ \x1b[0m") ∧
    riseShows riseP b!"plug\ncd x\ncat temp\n" = .ok (true, b!"p\n10\x1b[35m[h x]$ \x1b[0m") := by
  constructor <;> decide +kernel

/-- `C77_torn` has a case: a text of three bytes, in the middle of which a NUL is written. -/
example : ∃ v, runR riseE (tear fun k => if k = 0 then b!"abc" else [120, cNul, 122]) 0
    { (blank [] []) with state := .writeChar, writeNext := .readPrepare, current := some 0, writeBuf := .str b!"abc", writeSize := 3 } (List.replicate 4 (.service ⟨none, true⟩)) = .ok v ∧
      v.state = .readPrepare ∧ v.log = [.out 97, .out cNul, .out 122] := by
  obtain ⟨v, h1, h2, h3⟩ := C77_torn riseE { (blank [] []) with state := .writeChar, writeNext := .readPrepare, current := some 0, writeBuf := .str b!"abc", writeSize := 3 } none
    (fun k => if k = 0 then b!"abc" else [120, cNul, 122]) 3 (fun k => by split <;> rfl) (by decide) rfl rfl rfl rfl rfl
  exact ⟨v, h1, h2, h3⟩

theorem sE2_unseeing : Unseeing sE2 where
  hook := fun h e argv u v _ => by cases e; rfl
  exec := fun _ _ _ _ _ => rfl
  proc := fun _ _ _ _ => rfl
  get := fun _ _ _ _ => rfl
  set := fun _ _ _ _ _ => rfl

/-- `C77_safe` has a case. -/
example : ∃ u, run sE2 (blank (List.replicate 32 0) (List.replicate 64 0)) (steps sHist) = .ok u ∧
    ∀ ms, Legal sE2 32 u ms → ∀ p, Rewriter p → ∃ v, runR sE2 p 0 u (ms.flatMap Move.ops) = .ok v :=
  C77_safe sE2 sE2_unseeing 32 sE2_ok.1 sE2_ok.2.1 (sE2_behaves 32) _ _ rfl rfl sHist sE2_ok.2.2.1 sE2_ok.2.2.2.1 sE2_ok.2.2.2.2

/-! ## Applications that look -/

/-- This one forgets to unplug the device unless a `9` has been printed. -/
def peekE : Env := { riseE with userExec := fun id argv u => if id = 2 ∧ .out 57 ∉ u.log then [] else riseE.userExec id argv u }

def peekEnds (p : Nat → Ush → Ush) : M (List Event) := do
  let u ← run peekE (blank (List.replicate 32 0) (List.replicate 64 0)) (steps plugHist)
  let (v, _) ← driveNR peekE p (fun _ => ⟨true, true⟩) u b!"plug\ncd x\ncat temp\ncd ..\nunplug\n" 1000
  return v.log.filter (fun e => match e with | .ret _ => true | _ => false)

/-- `Unseeing` is needed: what such an application does depends on the moment at which the memory is written. -/
theorem C77_false_peek : peekEnds (fun _ u => u) = .ok [.ret .ok, .ret .nodeNotFound, .ret .ok, .ret .ok] ∧ peekEnds riseP = .ok [.ret .ok, .ret .nodeNotFound, .ret .ok] := by
  constructor <;> decide +kernel

/-- The memory must keep its size: with a shorter buffer the shell reads behind its end. -/
theorem C77_false_size : ∃ u v : Ush, u.writeBuf = .data b!"19" ∧ v = { u with writeBuf := .data b!"1" } ∧ (step riseE u (.service ⟨none, true⟩)).toOption.isSome = true ∧
    step riseE v (.service ⟨none, true⟩) = .error .oob :=
  ⟨{ (blank [] []) with state := .writeChar, current := some 0, writeBuf := .data b!"19", writeSize := 2, writePos := 1 }, _, rfl, rfl, by decide, rfl⟩

end Ush.Props
