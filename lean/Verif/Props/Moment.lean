import Verif.Proof.Moment
import Verif.Props.Press
import Verif.Props.LinuxFiles
/-!
# C71 Every key, with the hostname of the moment
-/
namespace Ush.Props
open Ush Spec

section
variable {E : Env} {A : App} {W : World} {host : Host}

theorem near_named (t : Term) (c : UInt8) (h : Str) : t.Near (E.named h) c ↔ t.Near E c := by
  unfold Term.Near
  split
  · exact Iff.rfl
  · split
    · show World.LineNear (E.named h) t.world (words (sent E.inSize t.ed.line)) ↔ _
      cases words (sent E.inSize t.ed.line) with
      | nil => exact Iff.rfl
      | cons a as =>
        show (t.world.Near (E.named h) a ∧ _) ↔ (t.world.Near E a ∧ _)
        refine and_congr Iff.rfl ?_
        split
        · rename_i b _
          show t.world.ArgsNear (E.named h) b as ↔ t.world.ArgsNear E b as
          unfold World.ArgsNear
          simp only [catNear_named]
          rfl
        · exact Iff.rfl
    · exact Iff.rfl

theorem moment_key (cfg : Config E) (room : Roomy E) (hA : A.Describes E) (hp : NoPrompt E) (hh : host.Ok) (ok : W.Ok E) (fits : W.Fits E 0) (tame : A.Tame E W)
    (hf : ∀ f ∈ W.files, cLf ∉ f.name ∧ cCr ∉ f.name) (hd : ∀ m ∈ W.tree, cLf ∉ dirName m.path ∧ cCr ∉ dirName m.path) (flat : ∀ V, W.Moved V → V.Flat)
    {t : Term} {u : Ush} (H : Shell E t u) (hW : W.Moved t.world) (c : UInt8) (inp : List UInt8) :
    (t.Near E c → (∃ v, StepsH E host u (c :: inp) v inp ∧ Shell E (t.keyH E host A c) v) ∧ W.Moved (t.keyH E host A c).world) ∧
    (¬ t.Near E c → ∃ v, StepsH E host u (c :: inp) v inp ∧ NeverH E host v inp) := by
  have hin := room.inSize
  refine ⟨fun near => ⟨?_, ?_⟩, fun far => ?_⟩
  · exact C52_key E cfg (by omega) A hA hp host hh t u H c (clean_near room ok fits tame hf hd hW near).1 inp
  · exact (clean_near (E := E.named (host.after E A t c)) (Roomy.named room _) (World.Ok.named ok _) (Fits.named fits _) (Tame.named tame _) hf hd hW ((near_named _ _ _).mpr near)).2
  · refine never_dynamic (hA.off hp) hh H.waiting.shows.state fun h hn => ?_
    have tc := tabsClean_of (E := E.named h) (Roomy.named room _) (World.Ok.named ok h) (Fits.named fits h) (Tame.named tame h) hf hd [c] t hW
    exact (full_key (Config.named cfg hn) (Roomy.named room h) (Describes.named hA h) (World.Ok.named ok h) (Fits.named fits h) (Tame.named tame h) flat (Shell.named H h) hW tc inp).2
      (fun near => far ((near_named _ _ _).mp near))

theorem moment_keys (cfg : Config E) (room : Roomy E) (hA : A.Describes E) (hp : NoPrompt E) (hh : host.Ok) (ok : W.Ok E) (fits : W.Fits E 0) (tame : A.Tame E W)
    (hf : ∀ f ∈ W.files, cLf ∉ f.name ∧ cCr ∉ f.name) (hd : ∀ m ∈ W.tree, cLf ∉ dirName m.path ∧ cCr ∉ dirName m.path) (flat : ∀ V, W.Moved V → V.Flat)
    (cs : List UInt8) : ∀ (t : Term) (u : Ush), Shell E t u → W.Moved t.world →
    (t.NearAllH E host A cs → ∃ v, StepsH E host u cs v [] ∧ Shell E (t.keysH E host A cs) v) ∧
    (¬ t.NearAllH E host A cs → ∃ v r, StepsH E host u cs v r ∧ NeverH E host v r) := by
  induction cs with
  | nil => intro t u H hW; exact ⟨fun _ => ⟨u, ⟨0, rfl⟩, H⟩, fun h => absurd trivial h⟩
  | cons c cs ih =>
    intro t u H hW
    obtain ⟨k1, k2⟩ := moment_key cfg room hA hp hh ok fits tame hf hd flat H hW c cs
    by_cases near : t.Near E c
    · obtain ⟨⟨v, s, H'⟩, hW'⟩ := k1 near
      obtain ⟨i1, i2⟩ := ih _ v H' hW'
      refine ⟨fun h => ?_, fun h => ?_⟩
      · obtain ⟨w, s', r⟩ := i1 h.2
        exact ⟨w, s.trans s', r⟩
      · obtain ⟨w, r, s', h'⟩ := i2 (fun h' => h ⟨near, h'⟩)
        exact ⟨w, r, s.trans s', h'⟩
    · refine ⟨fun h => absurd h.1 near, fun _ => ?_⟩
      obtain ⟨v, s, h⟩ := k2 near
      exact ⟨v, cs, s, h⟩

end

/-- The life of a shell whose hostname changes, with any keys and any fair timing of the terminal: if everything fits, then it does what the specified terminal does, every prompt
showing the hostname of the moment.  Otherwise there is a time after which it never waits for a key. -/
theorem C71_life (E : Env) (hc : CfgOk E) (cfg : Config E) (room : Roomy E) (A : App) (hA : A.Describes E) (hp : NoPrompt E) (host : Host) (hh : host.Ok)
    (inBuf outBuf : List UInt8) (h1 : inBuf.length = E.inSize) (h2 : outBuf.length = E.outSize) (os : List FsOp) (hv : (initWorld E).ValidRun E os) (ok : (after E os).Ok E)
    (fits : (after E os).Fits E 0) (tame : A.Tame E (after E os)) (hf : ∀ f ∈ (after E os).files, cLf ∉ f.name ∧ cCr ∉ f.name)
    (hd : ∀ m ∈ (after E os).tree, cLf ∉ dirName m.path ∧ cCr ∉ dirName m.path) (flat : ∀ V, (after E os).Moved V → V.Flat) (cs : List UInt8) (f : Nat → Slot) (hfair : Fair f) :
    ∃ u, run E (blank inBuf outBuf) (steps os) = .ok u ∧
      ((Term.startH E host os).NearAllH E host A cs → ∃ v K, Shell E ((Term.startH E host os).keysH E host A cs) v ∧ ∀ n ≥ K, driveNH E host f u cs n = .ok (v, [])) ∧
      (¬ (Term.startH E host os).NearAllH E host A cs → ∃ K, ∀ n ≥ K, ∀ v r, driveNH E host f u cs n = .ok (v, r) → v.state ≠ .readChar) := by
  obtain ⟨u, v, e, s, H⟩ := C52_started E hc cfg A hA hp host hh inBuf outBuf h1 h2 os hv ok cs
  obtain ⟨k1, k2⟩ := moment_keys cfg room hA hp hh ok fits tame hf hd flat cs (Term.startH E host os) v H (after_moved E os ok.cwd)
  refine ⟨u, e, fun h => ?_, fun h => ?_⟩
  · obtain ⟨w, s', H'⟩ := k1 h
    obtain ⟨N, hN⟩ := fairH_reaches E host f hfair u cs w (s.trans s') ⟨H'.waiting.shows.state, rfl⟩ H'.waiting.current
    exact ⟨w, N, H', hN⟩
  · obtain ⟨w, r, s', h'⟩ := k2 h
    obtain ⟨N, hN⟩ := fairH_never f hfair (s.trans s') h'
    exact ⟨N, fun n hn v r e => (hN n hn v r e).1⟩

/-! ## demo_linux, every key -/

theorem linux_fits0 (m : Machinery) : linuxWorld.Fits (linux m) 0 := by
  obtain ⟨-, -, -, -, -, fits, -⟩ := linux_fits m
  exact ⟨fits.files, fun n hn => by have := fits.paths n hn; omega, Nat.zero_le _⟩

theorem linux_flat (V : World) (h : linuxWorld.Moved V) : V.Flat := by
  obtain ⟨h1, h2, m, hm, h3⟩ := h
  have key : ∀ m ∈ linuxWorld.dirs, ({ linuxWorld with cwd := some m } : World).Usual [] := by unfold World.Usual; decide +kernel
  have e : V = { linuxWorld with cwd := some m } := by
    obtain ⟨t, g, c⟩ := V
    simp only at h1 h2 h3
    subst h1 h2 h3
    rfl
  rw [e]
  exact C69_flat _ (key m hm)

/-- The machine after some keys, as long as everything fits, is what the entered lines make of it. -/
theorem C71_machine (m : Machinery) (cs : List UInt8) : ∀ (t : Term) (x : Option Machine), linuxWorld.Moved t.world → t.NearAllH (linux m) linuxHost (linuxApp m) cs →
    Follows t.world (linuxVars t.log) x →
    Follows (t.keysH (linux m) linuxHost (linuxApp m) cs).world (linuxVars (t.keysH (linux m) linuxHost (linuxApp m) cs).log)
      (x.bind (fun x => x.run (t.linesH (linux m) linuxHost (linuxApp m) cs))) := by
  obtain ⟨-, -, room, -, ok, -, plain⟩ := linux_fits m
  induction cs with
  | nil =>
    intro t x _ _ h
    cases x with
    | none => exact h
    | some x => exact h
  | cons c cs ih =>
    intro t x hW hs h
    have h1 : linuxWorld.Moved (t.keyH (linux m) linuxHost (linuxApp m) c).world :=
      (clean_near (E := (linux m).named (linuxHost.after (linux m) (linuxApp m) t c)) (Roomy.named room _) (World.Ok.named ok _) (Fits.named (linux_fits0 m) _)
        (Tame.named (linux_tame m) _) (fun f h => (plain.files f h).2) (fun m h => (plain.dirs m h).2) hW ((near_named _ _ _).mpr hs.1)).2
    cases x with
    | none =>
      have h2 : linuxVars t.log = .error .oob := by
        cases hv : linuxVars t.log with
        | ok s => rw [hv] at h; exact h.elim
        | error f => rw [hv] at h; cases h; rfl
      have h3 := ih _ none h1 hs.2 (by rw [linux_lost m t c h2]; rfl)
      exact h3
    | some x =>
      have h3 := ih _ _ h1 hs.2 (linux_key m hW h c)
      show Follows (Term.keysH _ _ _ _ cs).world (linuxVars (Term.keysH _ _ _ _ cs).log) _
      have e : (some x).bind (fun x => x.run (t.linesH (linux m) linuxHost (linuxApp m) (c :: cs))) =
          (if isEnter c && t.ed.esc == .none then x.line (words (sent 256 t.ed.line)) else some x).bind
            (fun x => x.run ((t.keyH (linux m) linuxHost (linuxApp m) c).linesH (linux m) linuxHost (linuxApp m) cs)) := by
        show x.run ((if isEnter c && t.ed.esc == .none then [sent 256 t.ed.line] else []) ++ _) = _
        cases isEnter c && t.ed.esc == .none
        · rfl
        · show List.foldlM _ _ (_ :: _) = _
          rw [List.foldlM_cons]
          rfl
      rw [e]
      exact h3

/-- The example demo_linux with any keys at all, and any fair timing of the terminal: if everything fits, then it does what the terminal is specified to do, its working directory,
hostname and memories are what the entered lines make of them, and it waits for the next key.  Otherwise there is a time after which it never waits for a key. -/
theorem C71_linux (m : Machinery) (hm : m.null = some []) (inBuf outBuf : List UInt8) (h1 : inBuf.length = 256) (h2 : outBuf.length = 256) (cs : List UInt8)
    (f : Nat → Slot) (hf : Fair f) :
    ∃ u, run (linux m) (blank inBuf outBuf) (steps linuxSetup) = .ok u ∧
      ((Term.startH (linux m) linuxHost linuxSetup).NearAllH (linux m) linuxHost (linuxApp m) cs →
        ∃ v K, Shell (linux m) ((Term.startH (linux m) linuxHost linuxSetup).keysH (linux m) linuxHost (linuxApp m) cs) v ∧
          (∀ k ≥ K, driveNH (linux m) linuxHost f u cs k = .ok (v, [])) ∧
          Shows v.log ((Term.startH (linux m) linuxHost linuxSetup).keysH (linux m) linuxHost (linuxApp m) cs).world.path
            (Machine.run {} ((Term.startH (linux m) linuxHost linuxSetup).linesH (linux m) linuxHost (linuxApp m) cs))) ∧
      (¬ (Term.startH (linux m) linuxHost linuxSetup).NearAllH (linux m) linuxHost (linuxApp m) cs →
        ∃ K, ∀ k ≥ K, ∀ v r, driveNH (linux m) linuxHost f u cs k = .ok (v, r) → v.state ≠ .readChar) := by
  obtain ⟨hc, cfg, room, hv, ok, -, plain⟩ := linux_fits m
  have hl := linux_after m
  have ok' := ok
  have fits := linux_fits0 m
  have tame := linux_tame m
  have flat := linux_flat
  have hfl := fun f h => (plain.files f h).2
  have hdl := fun n h => (plain.dirs n h).2
  rw [← hl] at ok' fits tame flat hfl hdl
  obtain ⟨u, e, k1, k2⟩ := C71_life (linux m) hc cfg room (linuxApp m) (linux_describes m hm) (linux_noPrompt m) linuxHost linuxHost_ok inBuf outBuf h1 h2 linuxSetup hv
    ok' fits tame hfl hdl flat cs f hf
  refine ⟨u, e, fun near => ?_, k2⟩
  obtain ⟨v, K, H, h⟩ := k1 near
  refine ⟨v, K, H, h, ?_⟩
  rw [H.log]
  refine follows_shows (C71_machine m cs _ (some {}) (linux_started m) near ?_)
  rw [(linux_starts m).1]
  exact ⟨(linux_starts m).2, rfl, rfl, rfl⟩

/-! ### Examples -/

instance decNearAllH (E : Env) (host : Host) (A : App) : (cs : List UInt8) → (t : Term) → Decidable (t.NearAllH E host A cs)
  | [], _ => isTrue trivial
  | c :: cs, t => by unfold Term.NearAllH; have := decNearAllH E host A cs (t.keyH E host A c); infer_instance

/-- The session of C54, and 254 letters in the root directory: everything fits.  In /dev/mem there is no room for 247 letters.  NUL and TAB at the first prompt: several names, the
shell stops; NUL and TAB behind a word that only one name begins with: completed. -/
theorem linux_near : linuxTerm.NearAllH linux0 linuxHost linuxApp0 linuxKeys ∧ linuxTerm.NearAllH linux0 linuxHost linuxApp0 (List.replicate 254 120 ++ b!"\r") ∧
    ¬ linuxTerm.NearAllH linux0 linuxHost linuxApp0 (b!"cd /dev/mem\r" ++ List.replicate 247 120 ++ b!"\r") ∧
    linuxTerm.NearAllH linux0 linuxHost linuxApp0 (b!"cd /dev/mem\r" ++ List.replicate 246 120 ++ b!"\r") ∧
    ¬ linuxTerm.NearAllH linux0 linuxHost linuxApp0 [cNul, cTab] ∧
    linuxTerm.NearAllH linux0 linuxHost linuxApp0 (b!"cat rea" ++ [cNul, cTab]) ∧ (linuxTerm.keysH linux0 linuxHost linuxApp0 (b!"cat rea" ++ [cNul, cTab])).ed.line = b!"cat readme.txt" := by
  decide +kernel

/-- NUL and TAB stop demo_linux. -/
example (f : Nat → Slot) (hf : Fair f) : ∃ u, run linux0 (blank (List.replicate 256 1) (List.replicate 256 2)) (steps linuxSetup) = .ok u ∧
    ∃ K, ∀ k ≥ K, ∀ v r, driveNH linux0 linuxHost f u ([cNul, cTab] ++ b!"ls\r") k = .ok (v, r) → v.state ≠ .readChar := by
  obtain ⟨u, e, -, h⟩ := C71_linux someMachinery rfl (List.replicate 256 1) (List.replicate 256 2) List.length_replicate List.length_replicate ([cNul, cTab] ++ b!"ls\r") f hf
  exact ⟨u, e, h (by decide +kernel)⟩

/-- The session of C54. -/
example (f : Nat → Slot) (hf : Fair f) : ∃ u v K, run linux0 (blank (List.replicate 256 1) (List.replicate 256 2)) (steps linuxSetup) = .ok u ∧
    (∀ k ≥ K, driveNH linux0 linuxHost f u linuxKeys k = .ok (v, [])) ∧ linuxHost v.log = b!"box" := by
  obtain ⟨u, e, h, -⟩ := C71_linux someMachinery rfl (List.replicate 256 1) (List.replicate 256 2) List.length_replicate List.length_replicate linuxKeys f hf
  obtain ⟨v, K, -, h, hs⟩ := h linux_near.1
  exact ⟨u, v, K, e, h, (hs.1 _ linuxKeys_ok.2.2).1⟩

end Ush.Props
