import Verif.Proof.Scribble
import Verif.Props.Nested
import Verif.Props.Terminal
/-!
# C81: callbacks that write to their arguments

The words given to a command, and the bytes given to a setter, are in the input buffer.  The application may write to them, and anywhere in that buffer (`strtok`, sorting, decoding in
place): nothing else notices.  Not so for the general hook: it can replace the command that is executed.
-/
namespace Ush.Props
open Spec

section
variable (E : Env) (cfg : Config E) (hin : 0 < E.inSize) (A : App) (hA : A.Describes E) (g : Writer) (hg : g.Within)

omit g in
theorem describes_dead (hA : A.Describes E) : Kept E Parked := by
  refine kept_dead (fun h hh argv u a ha => ?_) (fun id argv u a ha => ?_) (fun id d u a ha => ?_)
  · have := hA.hook u.log argv
    unfold HookSays at this
    rw [hh] at this
    rw [this u rfl] at ha
    exact call_mild _ a ha
  · rw [hA.exec id u.log argv u rfl] at ha
    exact call_mild _ a ha
  · rw [hA.set id u.log d u rfl] at ha
    exact call_mild _ a ha

omit cfg hin hA hg in
theorem shell_unread {t : Term} {v q : Ush} (H : Shell E t v) (h : Unread v q) : Shell E t q := by
  rcases h with rfl | ⟨b, rfl, hb, hd | hf⟩
  · exact H
  · unfold Parked at hd
    rw [H.waiting.shows.state] at hd
    exact hd.elim
  · obtain ⟨⟨⟨z, r, o⟩, s, c⟩, l⟩ := H
    have hl : t.ed.line = [] := List.length_eq_zero_iff.mp (by rw [← s.pos, hf.2.1])
    refine ⟨⟨⟨⟨hb.trans z.inLen, z.outLen⟩, r.same ⟨rfl, rfl, rfl, rfl⟩, o⟩, ⟨s.state, s.esc, s.pos, ?_⟩, c⟩, l⟩
    have h0 := hf.2.2.2
    rw [hl]
    cases b with
    | nil => cases h0
    | cons x rest =>
      have : x = cNul := by simpa using h0
      exact ⟨rest, by rw [this]; rfl⟩

include cfg hin hA hg

/-- All keys: what the terminal shows, which callbacks are called and with what, and what is mounted, are the same as if the callbacks had not written (C47). -/
theorem C81_keys (cs : List UInt8) : ∀ (t : Term) (u : Ush), Shell E t u → t.OkAll E A cs → ∀ inp, ∃ v, StepsK E (scribble g) u (cs ++ inp) v inp ∧ Shell E (t.keys E A cs) v := by
  induction cs with
  | nil => intro t u H _ inp; exact ⟨u, ⟨0, rfl⟩, H⟩
  | cons c cs ih =>
    intro t u H ok inp
    obtain ⟨v, s1, H1⟩ := key_sim cfg hin hA H ok.1 (cs ++ inp)
    obtain ⟨q, s2, Al⟩ := unread_key hg (describes_dead E A hA) H.waiting.shows.state s1
    obtain ⟨w, s3, H3⟩ := ih _ q (shell_unread E H1 Al) ok.2 inp
    exact ⟨w, s2.trans s3, H3⟩

/-- ... whatever the timing of the terminal: in the end the log (keys, output, callbacks with their arguments) is that of the shell whose callbacks do not write. -/
theorem C81_timing (cs : List UInt8) (t : Term) (u : Ush) (H : Shell E t u) (ok : t.OkAll E A cs) (f f' : Nat → Slot) (hf : Fair f) (hf' : Fair f') :
    ∃ v w N, v.log = w.log ∧ Shell E (t.keys E A cs) v ∧ ∀ n ≥ N, driveNK E (scribble g) f u cs n = .ok (v, []) ∧ driveN E f' u cs n = .ok (w, []) := by
  obtain ⟨v, s, H1⟩ := C81_keys E cfg hin A hA g hg cs t u H ok []
  obtain ⟨w, s', H2⟩ := C47_keys E cfg hin A hA cs t u H ok []
  obtain ⟨N, hN⟩ := fairK_reaches f hf u cs v (by simpa using s) ⟨H1.waiting.shows.state, rfl⟩ H1.waiting.current
  obtain ⟨N', hN'⟩ := C20_fair E u w cs (by simpa using s') ⟨H2.waiting.shows.state, rfl⟩ H2.waiting.current f' hf'
  exact ⟨v, w, max N N', by rw [H1.log, H2.log], H1, fun n hn => ⟨hN n (by omega), hN' n (by omega)⟩⟩

end

/-- Memory safety: the rules of C23, if the callbacks for commands and data and the hook do not continue a process that has been started before (they may start one). -/
theorem C81_safe (E : Env) (L : Nat) (hc : CfgOk E) (room : Roomy E) (beh : Behaves E L) (hh : ∀ h, E.hook = some h → ∀ argv u, ∀ a ∈ h argv u, Harmless a)
    (he : ∀ id argv u, ∀ a ∈ E.userExec id argv u, Harmless a) (hs : ∀ id d u, ∀ a ∈ E.userSet id d u, Harmless a) (g : Writer) (hg : g.Within)
    (inBuf outBuf : List UInt8) (h1 : inBuf.length = E.inSize) (h2 : outBuf.length = E.outSize)
    (os : List FsOp) (hv : (initWorld E).ValidRun E os) (ok : (after E os).Ok E) (fits : (after E os).Fits E L) :
    ∃ u, run E (blank inBuf outBuf) (steps os) = .ok u ∧ ∀ ms, LegalK E L (scribble g) u ms → ∃ v, runK E (scribble g) u ms = .ok v := by
  obtain ⟨u, e, B, -⟩ := boot hc inBuf outBuf h1 h2 os hv
  refine ⟨u, e, fun ms hl => ?_⟩
  obtain ⟨v, -, -, h, -⟩ := legalK_inv room beh hg (kept_rest hh he hs) ms (B.inv ok fits) hl
  exact ⟨v, h⟩

/-! ## Examples -/

/-- Everything in the input buffer is overwritten. -/
def xxx : Writer := fun _ u => List.replicate u.inBuf.length 120

theorem xxx_within : xxx.Within := fun _ _ => by simp [xxx]

/-- The shell of the examples of C47, with callbacks that overwrite all of the input buffer. -/
example : ∃ u v, Shell pE (Term.start pE sHist) u ∧ StepsK pE (scribble xxx) u (pKeys ++ []) v [] ∧ Shell pE ((Term.start pE sHist).keys pE pA pKeys) v := by
  obtain ⟨u, H⟩ := pShell
  obtain ⟨v, h1, h2⟩ := C81_keys pE pConfig (by decide) pA pDescribes xxx xxx_within pKeys _ u H pOk.2.2 []
  exact ⟨u, v, H, h1, h2⟩

theorem typedKeys_legalK (K : Rest) (ms : List Move) (h : ∀ m ∈ ms, ∃ io, m = .service io ∧ io.rd ≠ some cTab) : ∀ u, LegalK sE2 32 K u ms := by
  induction ms with
  | nil => intro u; trivial
  | cons m ms ih =>
    intro u
    obtain ⟨io, rfl, ht⟩ := h m (by simp)
    exact ⟨fun _ => ⟨fun e => absurd e ht, fun _ h => absurd h (by decide)⟩, fun v _ => ih (fun m hm => h m (by simp [hm])) v⟩

/-- Whatever is typed (without TAB), a shell with a hook and commands that print, whose commands overwrite all of the input buffer, is safe. -/
example (cs : Str) (hcs : cTab ∉ cs) (k : Nat) : ∃ u, run sE2 (blank (List.replicate 32 0) (List.replicate 64 0)) (steps sHist) = .ok u ∧ ∃ v, runK sE2 (scribble xxx) u (typedKeys cs k) = .ok v := by
  have he : ∀ id argv u, ∀ a ∈ sE2.userExec id argv u, Harmless a := by
    intro id argv u a ha
    by_cases hi : id = 1
    · subst hi
      have ha : a ∈ [Api.printf (.text b!"o"), .printf (.text b!"k")] := ha
      rcases List.mem_cons.mp ha with rfl | ha
      · trivial
      · rw [List.mem_singleton.mp ha]; trivial
    · have : sE2.userExec id argv u = [.print (.str b!"hello")] := if_neg hi
      rw [this] at ha
      rw [List.mem_singleton.mp ha]; trivial
  have hs : ∀ id d u, ∀ a ∈ sE2.userSet id d u, Harmless a := by
    intro id d u a ha
    by_cases hi : id = 8
    · subst hi
      have : ∃ t, sE2.userSet 8 d u = [.print (.str t)] := ⟨_, rfl⟩
      obtain ⟨t, this⟩ := this
      rw [this] at ha
      rw [List.mem_singleton.mp ha]; trivial
    · have : sE2.userSet id d u = [] := if_neg hi
      rw [this] at ha; cases ha
  obtain ⟨u, e, h⟩ := C81_safe sE2 32 sE2_ok.1 sE2_ok.2.1 (sE2_behaves 32) (fun h hh argv u a ha => by cases hh; rw [List.mem_singleton.mp ha]; trivial) he hs xxx xxx_within
    (List.replicate 32 0) (List.replicate 64 0) rfl rfl sHist sE2_ok.2.2.1 sE2_ok.2.2.2.1 sE2_ok.2.2.2.2
  refine ⟨u, e, h _ (typedKeys_legalK _ _ (fun m hm => ?_) u)⟩
  unfold typedKeys at hm
  rcases List.mem_append.mp hm with h | h
  · exact ⟨_, List.eq_of_mem_replicate h, by simp⟩
  · obtain ⟨c, hc, h⟩ := List.mem_flatMap.mp h
    rcases List.mem_cons.mp h with h | h
    · exact ⟨_, h, fun e => hcs (by cases e; exact hc)⟩
    · exact ⟨_, List.eq_of_mem_replicate h, by simp⟩

/-- The commands executed, and the output. -/
def scribbled (E : Env) (K : Rest) (cs : Str) (n : Nat) : Option (List (List Str) × Str) :=
  match run E (blank (List.replicate 32 0) (List.replicate 64 0)) (steps sHist) >>= fun u => driveK E K u cs (List.replicate n Slot.full) with
  | .ok (v, _) => some (v.log.filterMap (fun e => match e with | .exec _ argv => some argv | _ => none), v.log.filterMap (fun e => match e with | .out c => some c | _ => none))
  | .error _ => none

example : scribbled sE3 (scribble xxx) b!"say\nrun 1 2\necho a > data\n" 300 = scribbled sE3 (fun _ => .ok) b!"say\nrun 1 2\necho a > data\n" 300 ∧
    (scribbled sE3 (scribble xxx) b!"say\nrun 1 2\necho a > data\n" 300).map Prod.fst = some [[b!"say"], [b!"run", b!"1", b!"2"], [b!"echo", b!"a", b!">", b!"data"]] := by
  refine ⟨?_, ?_⟩ <;> decide +kernel

/-- A hook that writes `run` over the first word. -/
def runFirst : Rest
  | .hook _ => fun u => .ok { u with inBuf := b!"run" ++ u.inBuf.drop 3 }
  | _ => .ok

/-- The hook is different: what it writes to the words is what is executed. -/
theorem C81_hook : (scribbled { sE3 with hook := some fun _ _ => [] } runFirst b!"say 1\nfoo\n" 300).map Prod.fst = some [[b!"run", b!"1"], [b!"run"]] ∧
    (scribbled { sE3 with hook := some fun _ _ => [] } (fun _ => .ok) b!"say 1\nfoo\n" 300).map Prod.fst = some [[b!"say", b!"1"]] := by
  refine ⟨?_, ?_⟩ <;> decide +kernel

end Ush.Props
