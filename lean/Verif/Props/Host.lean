import Verif.Proof.HostTerm
/-!
# The prompt shows the current hostname (C52)

`desc->hostname` points to memory of the application.  `host` says what is there after a history (Spec/Host.lean); every service call finds
the text of that moment.  The shell then does exactly what the terminal does whose prompts show the hostname as it is when the command has
been executed: a command or a file that changes the hostname changes the prompt that follows, whatever the timing of the terminal.
-/
namespace Ush.Props
open Spec

/-- The prompt a key leads to shows the hostname as it is when the key has been dealt with. -/
theorem C52_current (E : Env) (host : Host) (hh : host.Ok) (A : App) (t : Term) (c : UInt8) :
    t.keyH E host A c = t.key (E.named (host (t.keyH E host A c).log)) A c := by
  have : host (t.keyH E host A c).log = host.after E A t c := (key_alike t c).host hh
  rw [this]
  rfl

/-- One key. -/
theorem C52_key (E : Env) (cfg : Config E) (hin : 0 < E.inSize) (A : App) (hA : A.Describes E) (hp : NoPrompt E) (host : Host) (hh : host.Ok) (t : Term) (u : Ush)
    (H : Shell E t u) (c : UInt8) (ok : t.Ok E A c) (inp : List UInt8) :
    ∃ v, StepsH E host u (c :: inp) v inp ∧ Shell E (t.keyH E host A c) v := by
  have hc := C52_current E host hh A t c
  generalize t.keyH E host A c = t' at hc ⊢
  obtain ⟨v, ⟨n, s⟩, H'⟩ := key_sim (Config.named cfg (hh.text t'.log)) hin (Describes.named hA _) (Shell.named H (host t'.log)) (by rw [Ok_named]; exact ok) inp
  rw [← hc] at H'
  rw [← H'.log] at s
  exact ⟨v, ⟨n, chain_dynamic_key (hA.off hp) hh H.waiting.shows.state H'.waiting.shows.state s⟩, Shell.unnamed H'⟩

/-- Any keys, typed one after the other. -/
theorem C52_keys (E : Env) (cfg : Config E) (hin : 0 < E.inSize) (A : App) (hA : A.Describes E) (hp : NoPrompt E) (host : Host) (hh : host.Ok) (cs : List UInt8) :
    ∀ (t : Term) (u : Ush), Shell E t u → t.OkAllH E host A cs → ∀ inp, ∃ v, StepsH E host u (cs ++ inp) v inp ∧ Shell E (t.keysH E host A cs) v := by
  induction cs with
  | nil => intro t u H _ inp; exact ⟨u, ⟨0, rfl⟩, H⟩
  | cons c cs ih =>
    intro t u H ok inp
    obtain ⟨v, s1, H1⟩ := C52_key E cfg hin A hA hp host hh t u H c ok.1 (cs ++ inp)
    obtain ⟨w, s2, H2⟩ := ih _ v H1 ok.2 inp
    exact ⟨w, s1.trans s2, H2⟩

/-- `ush_init` and directory operations, up to the first prompt. -/
theorem C52_started (E : Env) (hc : CfgOk E) (cfg : Config E) (A : App) (hA : A.Describes E) (hp : NoPrompt E) (host : Host) (hh : host.Ok) (inBuf outBuf : List UInt8)
    (h1 : inBuf.length = E.inSize) (h2 : outBuf.length = E.outSize) (os : List FsOp) (hv : (initWorld E).ValidRun E os) (ok : (after E os).Ok E) (inp : List UInt8) :
    ∃ u v, run E (blank inBuf outBuf) (steps os) = .ok u ∧ StepsH E host u inp v inp ∧ Shell E (Term.startH E host os) v := by
  generalize hn : host (((initWorld E).run os).2.map .ret) = h0
  have hc' : CfgOk (E.named h0) := ⟨hc.inSize, hc.outSize, hc.pathMax, hc.nodes, hc.commands⟩
  obtain ⟨u, e, B, l⟩ := boot hc' inBuf outBuf h1 h2 os (by rw [validRun_named]; exact hv)
  rw [steps_named] at e
  obtain ⟨v, r, Hv⟩ := B.done (Config.named cfg (hn ▸ hh.text _)) (World.Ok.named ok h0) hc.inSize inp
  have hl : v.log = (Term.startH E host os).log := by
    rw [r.log, l]
    unfold Term.startH
    rw [hn]
    rfl
  have hs : Shell E (Term.startH E host os) v := by
    refine Shell.unnamed (h := h0) ⟨?_, hl⟩
    unfold Term.startH
    rw [hn]
    exact Hv
  have hq : host v.log = h0 := by
    rw [hl, ← hn]
    exact Alike.host ⟨_, _, [], rfl, (List.append_nil _).symm⟩ hh
  obtain ⟨n, s⟩ := r.steps
  rw [← hq] at s
  have s1 : StepsH E host u inp v inp := ⟨n, chain_dynamic (hA.off hp) hh n (Off.aims (by
    show outside (next u) = true; unfold next; rw [if_pos B.pend.1, B.pend.2.1]; rfl)) Hv.shows.state s⟩
  exact ⟨u, v, e, s1, hs⟩

/-- The life of a shell: `ush_init`, directory operations, keys with any timing; every service call finds the hostname of that moment. -/
theorem C52_life (E : Env) (hc : CfgOk E) (cfg : Config E) (A : App) (hA : A.Describes E) (hp : NoPrompt E) (host : Host) (hh : host.Ok) (inBuf outBuf : List UInt8)
    (h1 : inBuf.length = E.inSize) (h2 : outBuf.length = E.outSize) (os : List FsOp) (hv : (initWorld E).ValidRun E os) (ok : (after E os).Ok E) (cs : List UInt8)
    (hk : (Term.startH E host os).OkAllH E host A cs) (f : Nat → Slot) (hf : Fair f) :
    ∃ u v N, run E (blank inBuf outBuf) (steps os) = .ok u ∧ Shell E ((Term.startH E host os).keysH E host A cs) v ∧
      ∀ n ≥ N, driveNH E host f u cs n = .ok (v, []) := by
  obtain ⟨u, v, e, s1, hs⟩ := C52_started E hc cfg A hA hp host hh inBuf outBuf h1 h2 os hv ok (cs ++ [])
  obtain ⟨w, s2, H'⟩ := C52_keys E cfg hc.inSize A hA hp host hh cs _ v hs hk []
  obtain ⟨N, h⟩ := fairH_reaches E host f hf u cs w (by simpa using s1.trans s2) ⟨H'.waiting.shows.state, rfl⟩ H'.waiting.current
  exact ⟨u, w, N, e, H', h⟩

/-! ### A device whose name can be changed -/

/-- The file `led` (its setter has the number 8) is the hostname, at first `h`. -/
def nameHost : Host := fun l => ((l.reverse.findSome? (fun e => match e with | .setData 8 d => some d | _ => none)).getD b!"h").takeWhile (· ≠ cNul)

theorem nameHost_ok : nameHost.Ok where
  text := fun l h => by
    have := List.mem_takeWhile_imp h
    simp at this
  quiet := fun l c => by simp [nameHost]

def nameKeys : List UInt8 := b!"cd dev\recho box > led\rpwd\recho \"a \\x41\\x00z\" > led\r" ++ [cEtx]

instance decOkAllH (E : Env) (host : Host) (A : App) : (cs : List UInt8) → (t : Term) → Decidable (t.OkAllH E host A cs)
  | [], _ => isTrue trivial
  | c :: cs, t => by unfold Term.OkAllH; have := decOkAllH E host A cs (t.keyH E host A c); infer_instance

theorem nameOk : (Term.startH pE nameHost sHist).OkAllH pE nameHost pA nameKeys := by
  decide +kernel

/-- The prompt after the command that changes the name shows the new name. -/
theorem nameShown : shown ((Term.startH pE nameHost sHist).keysH pE nameHost pA nameKeys).log = welcome ++ b!"[h /]$ cd dev\r\n" ++
    b!"[h dev]$ echo box > led\r\nset\r\n[box dev]$ pwd\r\n/dev\r\n[box dev]$ echo \"a \\x41\\x00z\" > led\r\nset\r\n[a A dev]$ ^C\r\n[a A dev]$ " := by
  decide +kernel

example : ∃ u v N, run pE (blank (List.replicate 32 1) (List.replicate 64 2)) (steps sHist) = .ok u ∧
    Shell pE ((Term.startH pE nameHost sHist).keysH pE nameHost pA nameKeys) v ∧
    ∀ n ≥ N, driveNH pE nameHost (fun n => if n % 2 = 0 then ⟨true, false⟩ else ⟨false, true⟩) u nameKeys n = .ok (v, []) :=
  C52_life pE pCfg pConfig pA pDescribes (fun _ _ _ h => nomatch h) nameHost nameHost_ok _ _ rfl rfl sHist pOk.1 pOk.2.1 nameKeys nameOk _
    ⟨fun n => ⟨2 * n, by omega, by simp⟩, fun n => ⟨2 * n + 1, by omega, by simp [show (2 * n + 1) % 2 = 1 by omega]⟩⟩

example : ∃ u v, Shell pE (Term.start pE sHist) u ∧ StepsH pE nameHost u [cLf] v [] ∧ Shell pE ((Term.start pE sHist).keyH pE nameHost pA cLf) v ∧
    (Term.start pE sHist).keyH pE nameHost pA cLf = (Term.start pE sHist).key (pE.named (nameHost ((Term.start pE sHist).keyH pE nameHost pA cLf).log)) pA cLf := by
  obtain ⟨u, H⟩ := pShell
  obtain ⟨v, h1, h2⟩ := C52_key pE pConfig (by decide) pA pDescribes (fun _ _ _ h => nomatch h) nameHost nameHost_ok _ u H cLf (by decide +kernel) []
  exact ⟨u, v, H, h1, h2, C52_current pE nameHost nameHost_ok pA _ cLf⟩

example : ∃ u v w, StepsH pE nameHost u nameKeys v nameKeys ∧ StepsH pE nameHost v (nameKeys ++ []) w [] ∧
    Shell pE ((Term.startH pE nameHost sHist).keysH pE nameHost pA nameKeys) w := by
  obtain ⟨u, v, -, h1, h2⟩ := C52_started pE pCfg pConfig pA pDescribes (fun _ _ _ h => nomatch h) nameHost nameHost_ok (List.replicate 32 1) (List.replicate 64 2) rfl rfl
    sHist pOk.1 pOk.2.1 nameKeys
  obtain ⟨w, h3⟩ := C52_keys pE pConfig (by decide) pA pDescribes (fun _ _ _ h => nomatch h) nameHost nameHost_ok nameKeys _ v h2 nameOk []
  exact ⟨u, v, w, h1, h3⟩

end Ush.Props
