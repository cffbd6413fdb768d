import Verif.Spec.Loop
import Verif.Proof.Loop
import Verif.Props.Lives
/-!
# C67 Calling `ush_service` until it returns `false`
-/
namespace Ush.Props
open Spec

section
variable {E : Env} {A : App} {t : Term} {u v w : Ush}

theorem orderly_on (hA : A.Describes E) (hp : Orderly E) : EnvOn isLine E where
  hook := fun k hk argv u a ha => by
    have := hA.hook u.log argv
    unfold HookSays at this
    rw [hk] at this
    rw [this u rfl] at ha
    exact calls_on _ a ha
  exec := fun id argv u a ha => by
    rw [hA.exec id u.log argv u rfl] at ha
    exact calls_on _ a ha
  set := fun id d u a ha => by
    rw [hA.set id u.log d u rfl] at ha
    exact calls_on _ a ha
  proc := fun id u a ha s hs => hp id u s (hs ▸ ha)

theorem Shell.esc_le (H : Shell E t u) : u.ansiEsc ≤ 2 := by
  rw [H.waiting.shows.esc]; cases t.ed.esc <;> decide

theorem Shell.ends (H : Shell E t u) {c : UInt8} : (c = cEtx ∨ isEnter c = true ∧ u.ansiEsc = 0) ↔ t.ends c = true := by
  unfold Term.ends
  rw [H.waiting.shows.esc]
  cases t.ed.esc <;> simp [EscSt.toNat]

/-- One loop, with an output that is always ready. -/
theorem round_ready (cfg : Config E) (hin : 0 < E.inSize) (hA : A.Describes E) (hp : Orderly E) (inp : List UInt8) : ∀ {t : Term} {u : Ush},
    Shell E t u → t.OkAll E A inp → ∃ k v, Loop E u inp (List.replicate k true) v (t.round E A inp).2 ∧ Shell E (t.round E A inp).1 v := by
  induction inp with
  | nil =>
    intro t u H _
    have := Loop.stop (E := E) (inp := []) (a := true) (by
      show service E ⟨none, true⟩ u = .ok (u, false)
      rw [service_eq _ _ _ H.waiting.current, H.waiting.shows.state]; rfl)
    exact ⟨1, u, by simpa [Term.round] using this, H⟩
  | cons c cs ih =>
    intro t u H ok
    obtain ⟨v, st, Hv⟩ := key_sim cfg hin hA H ok.1 cs
    have K := loop_key (orderly_on hA hp) H.waiting.shows.state H.esc_le st Hv.waiting.shows.state
    unfold Term.round
    by_cases hc : t.ends c = true
    · rw [if_pos (H.ends.mpr hc)] at K
      rw [if_pos hc]
      obtain ⟨k, l⟩ := K
      exact ⟨k, v, l, Hv⟩
    · rw [if_neg (fun h => hc (H.ends.mp h))] at K
      rw [if_neg hc]
      obtain ⟨k, w, l, Hw⟩ := ih Hv ok.2
      obtain ⟨k, l⟩ := K l
      exact ⟨k, w, l, Hw⟩

end

/-- At the prompt, with any keys pending: the loop ends, however slowly the terminal takes the output, and it has handled exactly one line:
the keys up to the first that ends the line, or all keys if none does, with everything that is printed in answer to them. -/
theorem C67_round (E : Env) (cfg : Config E) (hin : 0 < E.inSize) (A : App) (hA : A.Describes E) (hp : Orderly E) (t : Term) (u : Ush) (H : Shell E t u)
    (inp : List UInt8) (ok : t.OkAll E A inp) (f : Nat → Bool) (hf : ∀ n, ∃ m ≥ n, f m = true) :
    ∃ n v, Loop E u inp ((List.range n).map f) v (t.round E A inp).2 ∧ Shell E (t.round E A inp).1 v := by
  obtain ⟨k, v, l, Hv⟩ := round_ready cfg hin hA hp inp H ok
  obtain ⟨n, l⟩ := loop_any l (fun a ha => (List.mem_replicate.mp ha).2) f hf
  exact ⟨n, v, l, Hv⟩

/-- The result of a loop does not depend on the terminal. -/
theorem C67_unique (E : Env) (u v w : Ush) (inp q r : List UInt8) (as bs : List Bool) (h1 : Loop E u inp as v q) (h2 : Loop E u inp bs w r) :
    v = w ∧ q = r := by
  obtain ⟨k, h1⟩ := loop_ready h1
  obtain ⟨k', h2⟩ := loop_ready h2
  exact loop_ready_unique h1 h2

/-- The first loop after initialisation prints the greeting and the prompt, and reads nothing. -/
theorem C67_start (E : Env) (hc : CfgOk E) (cfg : Config E) (A : App) (hA : A.Describes E) (hp : Orderly E) (inBuf outBuf : List UInt8)
    (h1 : inBuf.length = E.inSize) (h2 : outBuf.length = E.outSize) (os : List FsOp) (hv : (initWorld E).ValidRun E os) (ok : (after E os).Ok E)
    (inp : List UInt8) (f : Nat → Bool) (hf : ∀ n, ∃ m ≥ n, f m = true) :
    ∃ u n v, run E (blank inBuf outBuf) (steps os) = .ok u ∧ Loop E u inp ((List.range n).map f) v inp ∧ Shell E (Term.start E os) v := by
  obtain ⟨u, e, B, l⟩ := boot hc inBuf outBuf h1 h2 os hv
  obtain ⟨v, r, H⟩ := B.done cfg ok hc.inSize inp
  obtain ⟨n, hn⟩ := r.steps
  obtain ⟨k, lp⟩ := loop_line (orderly_on hA hp) n (.inl (by show isLine (next u) = true; unfold next; rw [if_pos B.pend.1, B.pend.2.1]; rfl)) hn
    H.shows.state
  obtain ⟨n, lp⟩ := loop_any lp (fun a ha => (List.mem_replicate.mp ha).2) f hf
  exact ⟨u, n, v, e, lp, H, by rw [r.log, l]; rfl⟩

/-- A loop after another: all keys are handled by as many loops as there are lines, and one more. -/
theorem C67_all (E : Env) (cfg : Config E) (hin : 0 < E.inSize) (A : App) (hA : A.Describes E) (hp : Orderly E) (t : Term) (u : Ush) (H : Shell E t u)
    (inp : List UInt8) (ok : t.OkAll E A inp) : ∃ v, Loops E (t.ended E A inp + 1) u inp v [] ∧ Shell E (t.keys E A inp) v := by
  have step : ∀ (inp : List UInt8) {t : Term}, t.OkAll E A inp → ∃ t' r, t.round E A inp = (t', r) ∧ t'.OkAll E A r ∧ t'.keys E A r = t.keys E A inp ∧
      (r = [] ∧ t.ended E A inp = 0 ∨ t.ended E A inp = t'.ended E A r + 1) := by
    intro inp
    induction inp with
    | nil => intro t _; exact ⟨t, [], rfl, trivial, rfl, .inl ⟨rfl, rfl⟩⟩
    | cons c cs ih =>
      intro t ok
      have e1 : t.ended E A (c :: cs) = (t.key E A c).ended E A cs + if t.ends c then 1 else 0 := rfl
      have e2 : t.round E A (c :: cs) = if t.ends c then (t.key E A c, cs) else (t.key E A c).round E A cs := rfl
      rw [e1, e2]
      by_cases hc : t.ends c = true
      · rw [if_pos hc, if_pos hc]
        exact ⟨_, _, rfl, ok.2, rfl, .inr rfl⟩
      · rw [if_neg hc, if_neg hc]
        exact ih ok.2
  generalize hm : t.ended E A inp = m
  induction m generalizing t u inp with
  | zero =>
    obtain ⟨k, v, l, Hv⟩ := round_ready cfg hin hA hp inp H ok
    obtain ⟨t', r, e, -, hk, h | h⟩ := step inp ok
    · rw [e] at l Hv
      obtain ⟨rfl, -⟩ := h
      refine ⟨v, .succ l .zero, ?_⟩
      rw [← hk]; exact Hv
    · omega
  | succ m ih =>
    obtain ⟨k, v, l, Hv⟩ := round_ready cfg hin hA hp inp H ok
    obtain ⟨t', r, e, ok', hk, h | h⟩ := step inp ok
    · omega
    · rw [e] at l Hv
      obtain ⟨w, ls, Hw⟩ := ih t' v Hv r ok' (by omega)
      refine ⟨w, .succ l ls, ?_⟩
      rw [← hk]; exact Hw

/-- ... and nothing else can come out of these loops. -/
theorem C67_all_unique (E : Env) (n : Nat) (u v w : Ush) (inp q r : List UInt8) (h1 : Loops E n u inp v q) (h2 : Loops E n u inp w r) : v = w ∧ q = r := by
  induction n generalizing u inp with
  | zero => cases h1; cases h2; exact ⟨rfl, rfl⟩
  | succ n ih =>
    cases h1 with
    | succ l1 h1 =>
      cases h2 with
      | succ l2 h2 =>
        obtain ⟨rfl, rfl⟩ := C67_unique E _ _ _ _ _ _ _ _ l1 l2
        exact ih _ _ h1 h2

/-- A line whose command may answer later (as in C64): the loop goes on until it has answered, and reads no key meanwhile. -/
theorem C67_late (E : Env) (cfg : Config E) (hin : 0 < E.inSize) (A : App) (S : Nat → Prop) (hA : A.DescribesBut E S) (hp : Orderly E)
    (hx : ∀ id argv u s, Api.setState s ∈ E.userExec id argv u → isLine s = true ∧ s ≠ .writeChar) (t t' : Term) (u : Ush) (H : Shell E t u)
    (cs : List UInt8) (c : UInt8) (hcs : ∀ x ∈ cs, isEnter x = false ∧ x ≠ cEtx) (hc : (t.keys E A cs).ends c = true) (h : Lives S E A t (cs ++ [c]) t')
    (inp : List UInt8) (f : Nat → Bool) (hf : ∀ n, ∃ m ≥ n, f m = true) :
    ∃ n v, Loop E u (cs ++ c :: inp) ((List.range n).map f) v inp ∧ Shell E t' v := by
  have hE : EnvOn isLine E := {
    hook := fun k hk argv u a ha => by
      have := hA.hook u.log argv
      unfold HookSays at this
      rw [hk] at this
      rw [this u rfl] at ha
      exact calls_on _ a ha
    exec := fun id argv u a ha s hs => hx id argv u s (hs ▸ ha)
    set := fun id d u a ha => by
      rw [hA.set id u.log d u rfl] at ha
      exact calls_on _ a ha
    proc := fun id u a ha s hs => hp id u s (hs ▸ ha) }
  have main : ∃ k v, Loop E u (cs ++ c :: inp) (List.replicate k true) v inp ∧ Shell E t' v := by
    clear hf f
    induction cs generalizing t u with
    | nil =>
      obtain ⟨v, st, Hv⟩ := C64_keys E cfg hin A S hA [c] t t' u H h inp
      have K := loop_key hE H.waiting.shows.state H.esc_le st Hv.waiting.shows.state
      rw [if_pos (H.ends.mpr hc)] at K
      obtain ⟨k, l⟩ := K
      exact ⟨k, v, l, Hv⟩
    | cons x cs ih =>
      obtain ⟨hx1, hx2⟩ := hcs x (by simp)
      have hn : ¬ (x = cEtx ∨ isEnter x = true ∧ u.ansiEsc = 0) := by rw [hx1]; simp [hx2]
      cases h with
      | key ok sp rest =>
        obtain ⟨v, st, Hv⟩ := key_sim_but cfg hin hA H ok sp (cs ++ c :: inp)
        have K := loop_key hE H.waiting.shows.state H.esc_le st Hv.waiting.shows.state
        rw [if_neg hn] at K
        obtain ⟨k, w, l, Hw⟩ := ih _ v Hv (fun y hy => hcs y (by simp [hy])) hc rest
        obtain ⟨k, l⟩ := K l
        exact ⟨k, w, l, Hw⟩
      | late enter => rw [hx1] at enter; cases enter
  obtain ⟨k, v, l, Hv⟩ := main
  obtain ⟨n, l⟩ := loop_any l (fun a ha => (List.mem_replicate.mp ha).2) f hf
  exact ⟨n, v, l, Hv⟩

/-- Two lines and a half: three loops, the first of which handles the first line only. -/
def yKeys : List UInt8 := b!"cat data\rcd dev\rls"

theorem yOk : (Term.start pE sHist).OkAll pE pA yKeys := by decide +kernel

theorem yOrderly : Orderly pE := fun _ _ _ h => nomatch h

example : ((Term.start pE sHist).round pE pA yKeys).2 = b!"cd dev\rls" ∧
    shown ((Term.start pE sHist).round pE pA yKeys).1.log = welcome ++ b!"[h /]$ cat data\r\n0\n[h /]$ " ∧ (Term.start pE sHist).ended pE pA yKeys = 2 := by
  refine ⟨?_, ?_, ?_⟩ <;> decide +kernel

/-- A CR that is the last key of an escape sequence does not end the line. -/
example : ((Term.start pE sHist).round pE pA b!"\x1b[\rx\rls").2 = b!"ls" := by decide +kernel

example : ∃ u n v, run pE (blank (List.replicate 32 1) (List.replicate 64 2)) (steps sHist) = .ok u ∧
    Loop pE u yKeys ((List.range n).map (fun k => k % 3 == 0)) v yKeys ∧ Shell pE (Term.start pE sHist) v ∧
    ∃ n w, Loop pE v yKeys ((List.range n).map (fun k => k % 2 == 0)) w b!"cd dev\rls" ∧
      ∃ z, Loops pE 3 v yKeys z [] ∧ Shell pE ((Term.start pE sHist).keys pE pA yKeys) z := by
  obtain ⟨u, n, v, e, l, H⟩ := C67_start pE pCfg pConfig pA pDescribes yOrderly (List.replicate 32 1) (List.replicate 64 2) rfl rfl sHist pOk.1 pOk.2.1 yKeys (fun k => k % 3 == 0)
    (fun n => ⟨3 * n, by omega, by simp⟩)
  refine ⟨u, n, v, e, l, H, ?_⟩
  obtain ⟨n, w, l, -⟩ := C67_round pE pConfig pCfg.inSize pA pDescribes yOrderly _ v H yKeys yOk (fun k => k % 2 == 0) (fun n => ⟨2 * n, by omega, by simp⟩)
  obtain ⟨z, ls, Hz⟩ := C67_all pE pConfig pCfg.inSize pA pDescribes yOrderly _ v H yKeys yOk
  exact ⟨n, w, l, z, ls, Hz⟩

theorem lateOrderly : Orderly lateE := by
  intro id u s h
  change Api.setState s ∈ (if id = 4 then [] else lateAct u.log.getLast?) at h
  unfold lateAct at h
  split at h
  · cases h
  · split at h <;> simp at h

/-- `run` answers later; one loop handles this line completely and leaves `pwd` unread. -/
example (f : Nat → Bool) (hf : ∀ n, ∃ m ≥ n, f m = true) (u : Ush) (H : Shell lateE (Term.start lateE sHist) u) :
    ∃ n v, Loop lateE u b!"run\npwd\n" ((List.range n).map f) v b!"pwd\n" ∧ Shell lateE lateT2 v := by
  obtain ⟨l, W, hl, e⟩ := lateLine
  refine C67_late lateE lateConfig (by decide) lateA _ lateDescribes lateOrderly ?_ _ _ u H b!"run" cLf (by decide) (by decide +kernel) ?_ _ f hf
  · intro id argv u s h
    change Api.setState s ∈ (if id = 1 then _ else _) at h
    split at h <;> simp at h
  · refine Lives_text b!"run" b!"\n" _ _ (by decide) (by decide +kernel) ?_
    refine .late (by decide) (by decide +kernel) (by decide) (by decide +kernel) hl ?_
    change Lives _ _ _ ⟨W, {}, lateT1.log ++ l⟩ _ _
    rw [← e]
    exact .done

end Ush.Props
