import Verif.Proof.Width
import Verif.Props.Effort
/-!
# C63 No counter wraps around

The model has natural numbers where `struct ush_object` (ush_types.h:254-303) has fields of type `size_t` and `int`.  The theorems say that
between any two calls all these fields are bounded by the sizes of the buffers and of the objects the application hands over.  Without this
a session of many calls could differ from the model, for example if the position of a directory walk or the number of candidates grew from one
command to the next.
-/
namespace Ush.Props
open Spec

/-- For the histories of C23, if no array of descriptors has more than `B` entries and no file more than `B` bytes. -/
theorem C63_counters (E : Env) (L B : Nat) (hc : CfgOk E) (room : Roomy E) (beh : Behaves E L) (small : Env.Small E B) (inBuf outBuf : List UInt8)
    (h1 : inBuf.length = E.inSize) (h2 : outBuf.length = E.outSize) (os : List FsOp) (hv : (initWorld E).ValidRun E os)
    (hos : ∀ o ∈ os, Api.Small B o.api) (ok : (after E os).Ok E) (fits : (after E os).Fits E L) :
    ∃ u, run E (blank inBuf outBuf) (steps os) = .ok u ∧
      ∀ ms, Legal E L u ms → (∀ m ∈ ms, m.Small B) → ∃ v, run E u (ms.flatMap Move.ops) = .ok v ∧ Counters E B v := by
  obtain ⟨u, e, b, -⟩ := boot hc inBuf outBuf h1 h2 os hv
  refine ⟨u, e, fun ms hl hB => ?_⟩
  obtain ⟨v, W, k, h, i, s⟩ := legal_slim room beh small ms (b.inv ok fits) (Slim.boot small hos e) hl hB
  exact ⟨v, h, s.counters i.wok⟩

/-- All fields of the shell object that are numbers, and the texts they measure. -/
def counters (u : Ush) : List Nat :=
  [u.inPos, u.outPos, u.argsCount, u.ansiEsc, u.writePos, u.writeSize, u.procIndex, u.procStage, u.procItem, u.procDataSize, u.acInput, u.acSuffixLen,
   u.acCount, u.acPrevCount]

/-- On a machine with words of `w` bits: if the buffers fit into the memory, and so does the text that is being printed, and there are less than `2 ^ w`
steps of a search for candidates, then every counter is less than `2 ^ w`. -/
theorem C63_width (E : Env) (B w : Nat) (u : Ush) (C : Counters E B u) (hw : 2 ≤ w) (h1 : E.inSize < 2 ^ w) (h2 : B + E.xxdColumns < 2 ^ w)
    (h3 : extent E u.writeBuf < 2 ^ w) (h4 : 4 * (E.nodeCount + 1) * (B + 1) < 2 ^ w) : ∀ n ∈ counters u, n < 2 ^ w := by
  have hw : 2 ^ 2 ≤ 2 ^ w := Nat.pow_le_pow_right (by decide) hw
  obtain ⟨c1, c2, c3, c4, c5, c6, c7, c8, c9, c10, c11, c12, c13, c14⟩ := C
  have h5 : max (B + E.xxdColumns) E.inSize < 2 ^ w := Nat.max_lt.mpr ⟨h2, h1⟩
  intro n hn
  simp only [counters, List.mem_cons, List.not_mem_nil, or_false] at hn
  rcases hn with h | h | h | h | h | h | h | h | h | h | h | h | h | h <;> subst h <;> omega

/-! ### A concrete shell -/

theorem sE2_small : Env.Small sE2 16 := by
  have he : ∀ as : List Api, (∀ a ∈ as, (match a with | .print _ => True | .printf _ => True | _ => False)) → ∀ a ∈ as, Api.Small 16 a := by
    intro as h a ha
    have := h a ha
    cases a <;> trivial
  refine ⟨by decide, ?_, ?_, ?_, ?_, fun id u d h => Nat.le_trans (sE2_files id u d h) (by decide)⟩
  · intro h hh argv u
    cases hh
    exact he _ (by simp)
  · intro id argv u
    apply he
    show ∀ a ∈ (if id = 1 then [Api.printf (.text b!"o"), .printf (.text b!"k")] else [.print (.str b!"hello")]), _
    split <;> simp
  · intro id u
    exact he [.print (.str b!"p")] (by simp)
  · intro id d u
    apply he
    show ∀ a ∈ (if id = 8 then [Api.print (.str b!"set")] else []), _
    split <;> simp

/-- In this shell, with 16-bit words, no number of candidates and no position gets near the limit. -/
example : ∃ u, run sE2 (blank (List.replicate 32 0) (List.replicate 64 0)) (steps sHist) = .ok u ∧
    ∀ ms, Legal sE2 32 u ms → (∀ m ∈ ms, m.Small 16) → ∃ v, run sE2 u (ms.flatMap Move.ops) = .ok v ∧
      (extent sE2 v.writeBuf < 2 ^ 16 → ∀ n ∈ counters v, n < 2 ^ 16) := by
  obtain ⟨u, e, h⟩ := C63_counters sE2 32 16 sE2_ok.1 sE2_ok.2.1 (sE2_behaves 32) sE2_small (List.replicate 32 0) (List.replicate 64 0) rfl rfl sHist sE2_ok.2.2.1
    (by
      intro o ho
      have : ∀ o ∈ sHist, (match o with | .mount _ _ fs => decide (fs.length ≤ 16) | .addGroup _ fs => decide (fs.length ≤ 16) | _ => true) = true := by decide
      have := this o ho
      cases o <;> first | exact trivial | simpa [Api.Small, FsOp.api] using this) sE2_ok.2.2.2.1 sE2_ok.2.2.2.2
  refine ⟨u, e, fun ms hl hB => ?_⟩
  obtain ⟨v, hv, C⟩ := h ms hl hB
  exact ⟨v, hv, fun hx => C63_width sE2 16 16 v C (by decide) (by decide) (by decide) hx (by decide)⟩

/-- The largest values of the counters while the keys `cs` are typed and answered. -/
def peaks (cs : Str) : Option (List Nat) :=
  let rec go (fuel : Nat) (u : Ush) (cs : Str) (p : List Nat) : Option (List Nat) :=
    match fuel with
    | 0 => none
    | fuel + 1 =>
      let p := List.zipWith max p (counters u)
      if u.state = .readChar then
        match cs with
        | [] => some p
        | c :: cs => match step sE2 u (.service ⟨some c, true⟩) with
          | .ok v => go fuel v cs p
          | .error _ => none
      else match step sE2 u (.service ⟨none, true⟩) with
        | .ok v => go fuel v cs p
        | .error _ => none
  match run sE2 (blank (List.replicate 32 0) (List.replicate 64 0)) (steps sHist) with
  | .ok u => go 3000 u cs (List.replicate 14 0)
  | .error _ => none

/-- In the order of `counters`: at most 9 bytes in the line, two arguments, a text of 37 bytes, item 8 of the table of commands, a file of three bytes,
12 candidates. -/
example : peaks (b!"xxd data" ++ [cLf] ++ b!"help" ++ [cLf] ++ b!"ls /dev" ++ [cLf, cTab]) = some [9, 9, 2, 0, 37, 37, 3, 2, 8, 3, 0, 1, 12, 12] := by
  decide +kernel

end Ush.Props
