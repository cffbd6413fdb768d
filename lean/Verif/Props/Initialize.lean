import Verif.Model.Initialize
import Verif.Props.Demo
/-!
# Applications in which every line can be entered, the example Initialize (C61)
-/
namespace Ush.Props
open Spec
variable {E : Env} {A : App} {W : World}

theorem free_keys (cfg : Config E) (room : Roomy E) (hA : A.Describes E) (ok : W.Ok E) (fits : W.Fits E (E.inSize - 1)) (tame : A.Tame E W) :
    ∀ (cs : List UInt8) (t : Term) (u : Ush), Shell E t u → W.Moved t.world → t.TabsAll E A cs → t.OkAll E A cs ∧ W.Moved (t.keys E A cs).world := by
  have hin := room.inSize
  intro cs
  induction cs with
  | nil => intro t u _ h _; exact ⟨trivial, h⟩
  | cons c cs ih =>
    intro t u H h ht
    obtain ⟨h1, h2⟩ := tame_key_of (c := c) room fits ok tame h (by
      split
      · next hc => exact ht.1 hc
      · split
        · exact sent_words hin (shows_lt H.waiting.shows H.waiting.sized)
        · trivial)
    obtain ⟨v, -, H'⟩ := key_sim cfg (by omega) hA H h1 []
    obtain ⟨h3, h4⟩ := ih _ v H' h2 ht.2
    exact ⟨⟨h1, h3⟩, h4⟩

/-- If the path buffers can hold, in every directory, any word that fits the input buffer, then every key sequence is answered as the specified terminal answers it:
lines of any length, with any bytes and any arguments.  Only where TAB is pressed there is a condition: the names offered fit the input buffer. -/
theorem C61_keys (E : Env) (cfg : Config E) (room : Roomy E) (A : App) (hA : A.Describes E) (W : World) (ok : W.Ok E) (fits : W.Fits E (E.inSize - 1))
    (tame : A.Tame E W) (cs : List UInt8) (t : Term) (u : Ush) (H : Shell E t u) (hW : W.Moved t.world) (ht : t.TabsAll E A cs) :
    (∀ inp, ∃ v, Steps E u (cs ++ inp) v inp ∧ Shell E (t.keys E A cs) v ∧ W.Moved (t.keys E A cs).world) ∧
      ∀ ss, ∃ w r, drive E u cs ss = .ok (w, r) ∧ w.log <+: (t.keys E A cs).log := by
  have hin := room.inSize
  obtain ⟨h1, h2⟩ := free_keys cfg room hA ok fits tame cs t u H hW ht
  refine ⟨fun inp => ?_, fun ss => C47_prefix E cfg (by omega) A hA cs t u H h1 ss⟩
  obtain ⟨v, s, H'⟩ := C47_keys E cfg (by omega) A hA cs t u H h1 inp
  exact ⟨v, s, H', h2⟩

theorem minimal_ok : CfgOk minimal ∧ Config minimal ∧ Roomy minimal ∧ (initWorld minimal).ValidRun minimal minimalSetup ∧
    (after minimal minimalSetup).Ok minimal ∧ (after minimal minimalSetup).Fits minimal 31 ∧ (after minimal minimalSetup).Plain minimal 4 :=
  ⟨⟨by decide, by decide, by decide, by decide, by decide⟩, ⟨by decide, ⟨by decide, by decide, by decide, by decide, by decide, statusString_nul _ (by decide)⟩⟩,
    ⟨by decide, by decide, by decide, by decide⟩, by decide, by decide, by decide, by decide⟩

theorem minimal_describes : App.Describes {} minimal :=
  ⟨fun _ _ => rfl, fun _ _ _ _ _ => rfl, fun _ _ _ _ => rfl, fun _ _ _ _ _ => rfl⟩

theorem minimal_tame (W : World) : App.Tame minimal {} W :=
  ⟨fun _ _ => rfl, fun _ _ _ => chats_nil _ _, fun _ _ => Nat.zero_le _, fun _ _ _ => chats_nil _ _⟩

/-- The example Initialize: started, with keys of any kind and any timing, it does what the terminal is specified to do and nothing else; its working directory is `/`. -/
theorem C61_initialize (inBuf outBuf : List UInt8) (h1 : inBuf.length = 32) (h2 : outBuf.length = 32) (cs : List UInt8)
    (ht : (Term.start minimal minimalSetup).TabsAll minimal {} cs) (f : Nat → Slot) (hf : Fair f) :
    ∃ u v K, run minimal (blank inBuf outBuf) (steps minimalSetup) = .ok u ∧ (∀ k ≥ K, driveN minimal f u cs k = .ok (v, [])) ∧
      Shell minimal ((Term.start minimal minimalSetup).keys minimal {} cs) v ∧
      ((Term.start minimal minimalSetup).keys minimal {} cs).world = after minimal minimalSetup := by
  obtain ⟨hc, cfg, room, hv, ok, fits, -⟩ := minimal_ok
  obtain ⟨u, v, e, s, H, l⟩ := C38_startup minimal hc cfg inBuf outBuf h1 h2 minimalSetup hv ok cs
  obtain ⟨k1, k2⟩ := free_keys cfg room minimal_describes ok fits (minimal_tame _) cs (Term.start minimal minimalSetup) v ⟨H, l⟩
    (after_moved minimal minimalSetup ok.cwd) ht
  obtain ⟨u', w, K, e', H', h⟩ := C47_life minimal hc cfg {} minimal_describes inBuf outBuf h1 h2 minimalSetup hv ok cs k1 f hf
  refine ⟨u', w, K, e', h, H', ?_⟩
  obtain ⟨m1, m2, m, hm, m3⟩ := k2
  generalize ((Term.start minimal minimalSetup).keys minimal {} cs).world = V at m1 m2 m3
  have hm : m = ⟨[], 1, []⟩ := by
    have : (after minimal minimalSetup).dirs = [⟨[], 1, []⟩] := by decide
    rw [this] at hm
    simpa using hm
  subst hm
  obtain ⟨a, b, d⟩ := V
  simp only at m1 m2 m3
  subst m1 m2 m3
  rfl

/-- ... all its prompts are the same text, and it begins with the banner. -/
theorem C61_prompt : (after minimal minimalSetup).prompt minimal = b!"\x1b[35m[arduino /]$ \x1b[0m" ∧
    shown (Term.start minimal minimalSetup).log = b!"uShell 0.1.0\r\n\x1b[35m[arduino /]$ \x1b[0m" := by
  decide +kernel

/-- ... where TAB can be pressed: the word has less than 31 bytes, in front of it are less than 28 bytes, and there is no NUL in the line. -/
theorem C61_tab (head w : Str) (h1 : head.length < 28) (h2 : w.length < 31) : (after minimal minimalSetup).TabOk minimal head w :=
  tame_tab minimal_ok.2.2.2.2.2.1 minimal_ok.2.2.2.2.2.2 (after_moved minimal minimalSetup minimal_ok.2.2.2.2.1.cwd) h2 (by
    show _ < 32
    omega)

instance decTabsAll (E : Env) (A : App) : (cs : List UInt8) → (t : Term) → Decidable (t.TabsAll E A cs)
  | [], _ => isTrue trivial
  | c :: cs, t => by unfold Term.TabsAll; have := decTabsAll E A cs (t.key E A c); infer_instance

/-- Lines that are too long, NUL, completions: all this is covered. -/
example : (Term.start minimal minimalSetup).TabsAll minimal {} (b!"h\t pwd\rpw\t\r" ++ List.replicate 31 120 ++ b!"\r\x00 ls\rcat " ++ List.replicate 27 120 ++ b!"\recho a > b\r") := by
  decide +kernel

/-- Behind 29 bytes, the completion of `p` to `pwd` writes behind the input buffer. -/
theorem C61_false_tab : faultOf (run minimal (blank (List.replicate 32 0) (List.replicate 32 0))
    (steps minimalSetup ++ List.replicate 800 (.service ⟨none, true⟩) ++ typing 4 (List.replicate 28 120 ++ b!" p") ++ typing 120 b!"\t")) = some .oob := by
  decide +kernel

/-- The path of a word of 31 bytes does not fit the array on the stack. -/
theorem C61_false_word : faultOf (run minimal (blank (List.replicate 32 0) (List.replicate 32 0))
    (steps minimalSetup ++ List.replicate 800 (.service ⟨none, true⟩) ++ typing 4 (List.replicate 31 120) ++ typing 120 b!"\t")) = some .oob := by
  decide +kernel

/-- Behind 27 bytes there is no problem. -/
example : faultOf (run minimal (blank (List.replicate 32 0) (List.replicate 32 0))
    (steps minimalSetup ++ List.replicate 800 (.service ⟨none, true⟩) ++ typing 4 (List.replicate 26 120 ++ b!" p") ++ typing 120 b!"\t")) = none := by
  decide +kernel

example (f : Nat → Slot) (hf : Fair f) : ∃ u v K, run minimal (blank (List.replicate 32 0) (List.replicate 32 0)) (steps minimalSetup) = .ok u ∧
    (∀ k ≥ K, driveN minimal f u b!"h\t pwd\rpw\t\r" k = .ok (v, [])) ∧ Shell minimal ((Term.start minimal minimalSetup).keys minimal {} b!"h\t pwd\rpw\t\r") v := by
  obtain ⟨u, v, K, h1, h2, h3, -⟩ := C61_initialize (List.replicate 32 0) (List.replicate 32 0) rfl rfl b!"h\t pwd\rpw\t\r" (by decide +kernel) f hf
  exact ⟨u, v, K, h1, h2, h3⟩

end Ush.Props
