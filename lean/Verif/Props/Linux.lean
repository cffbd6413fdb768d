import Verif.Props.Host
import Verif.Props.Demo
import Verif.Proof.Linux
/-!
# The example demo_linux (C54)

`Machine` (Spec/Linux.lean) is the example as its user sees it: working directory, hostname, two memories.  `Follows V r x`: the variables `r` of the program and the
directory of `V` are those of the machine `x`; if the machine has lost its memory by an overflow (`none`), so has the program.
-/
namespace Ush.Props
open Spec

/-- The example fits its buffers: words are shorter than 247, names are not longer than 10. -/
theorem linux_fits (m : Machinery) : CfgOk (linux m) ∧ Config (linux m) ∧ Roomy (linux m) ∧ (initWorld (linux m)).ValidRun (linux m) linuxSetup ∧
    linuxWorld.Ok (linux m) ∧ linuxWorld.Fits (linux m) 247 ∧ linuxWorld.Plain (linux m) 10 :=
  ⟨CfgOk.equip _ _ ⟨by decide, by decide, by decide, by decide, fun _ => by decide⟩,
    Config.equip _ _ ⟨by decide, ⟨by decide, by decide, by decide, by decide, by decide, statusString_nul _ (by decide)⟩⟩,
    Roomy.equip _ _ ⟨by decide, by decide, by decide, by decide⟩, valid_equip _ _ _ (by decide +kernel), Ok.equip _ _ (by decide +kernel),
    Fits.equip _ _ ⟨by decide +kernel, by decide +kernel, by decide⟩, Plain.equip _ _ (by decide +kernel)⟩

/-- After some keys, the program is where the entered lines have brought the machine. -/
theorem C54_machine (m : Machinery) (cs : List UInt8) : ∀ (t : Term) (x : Option Machine), linuxWorld.Moved t.world → t.ShortAllH (linux m) linuxHost (linuxApp m) 247 10 cs →
    Follows t.world (linuxVars t.log) x →
    Follows (t.keysH (linux m) linuxHost (linuxApp m) cs).world (linuxVars (t.keysH (linux m) linuxHost (linuxApp m) cs).log)
      (x.bind (fun x => x.run (t.linesH (linux m) linuxHost (linuxApp m) cs))) := by
  obtain ⟨-, -, room, -, ok, fits, plain⟩ := linux_fits m
  induction cs with
  | nil =>
    intro t x _ _ h
    cases x with
    | none => exact h
    | some x => exact h
  | cons c cs ih =>
    intro t x hW hs h
    have h1 := (tame_keyH (host := linuxHost) room fits ok plain (linux_tame m) hW hs.1).2
    cases x with
    | none =>
      have h2 : linuxVars t.log = .error .oob := by
        cases hv : linuxVars t.log with
        | ok s => rw [hv] at h; exact h.elim
        | error f => rw [hv] at h; cases h; rfl
      have h3 := ih _ none h1 hs.2 (by rw [linux_lost m t c h2]; rfl)
      exact h3
    | some x =>
      have h3 := ih _ _ h1 hs.2 (linux_key m hW h c)
      show Follows (Term.keysH _ _ _ _ cs).world (linuxVars (Term.keysH _ _ _ _ cs).log) _
      have e : (some x).bind (fun x => x.run (t.linesH (linux m) linuxHost (linuxApp m) (c :: cs))) =
          (if isEnter c && t.ed.esc == .none then x.line (words (sent 256 t.ed.line)) else some x).bind
            (fun x => x.run ((t.keyH (linux m) linuxHost (linuxApp m) c).linesH (linux m) linuxHost (linuxApp m) cs)) := by
        show x.run ((if isEnter c && t.ed.esc == .none then [sent 256 t.ed.line] else []) ++ _) = _
        cases isEnter c && t.ed.esc == .none
        · rfl
        · show List.foldlM _ _ (_ :: _) = _
          rw [List.foldlM_cons]
          rfl
      rw [e]
      exact h3

/-- What the example shows of itself after the history `l`, in the directory `dir`: the machine.  If a line has written outside the memories, the behaviour of the program
is undefined from then on. -/
def Shows (l : List Event) (dir : List Str) (o : Option Machine) : Prop :=
  (∀ x, o = some x → linuxHost l = x.host ∧ linuxRead (·.ram) l = x.ram ∧ linuxRead (·.eeprom) l = x.eeprom ∧ dir = x.dir) ∧
    (o = none → linuxVars l = .error .oob)

theorem follows_shows {V : World} {l : List Event} {o : Option Machine} (h : Follows V (linuxVars l) o) : Shows l V.path o := by
  unfold Shows linuxHost linuxRead
  cases hl : linuxVars l with
  | error f =>
    rw [hl] at h
    cases o with
    | none => cases h; exact ⟨(fun _ h => nomatch h), fun _ => rfl⟩
    | some x => exact h.elim
  | ok s =>
    rw [hl] at h
    cases o with
    | none => exact h.elim
    | some x => exact ⟨fun y e => by cases e; exact ⟨h.host, h.ram, h.eeprom, h.dir⟩, (fun h => nomatch h)⟩

theorem linux_starts (m : Machinery) : linuxVars (Term.startH (linux m) linuxHost linuxSetup).log = .ok {} ∧
    (Term.startH (linux m) linuxHost linuxSetup).world.path = [] := by
  refine ⟨?_, ?_⟩
  · unfold Term.startH Term.start
    rw [vars_deeds, deeds_append, deeds_ret, deeds_outs]
    rfl
  · show (after (linux m) linuxSetup).path = []
    rw [linux_after]
    decide

theorem linux_shows (m : Machinery) (cs : List UInt8) (t : Term) (h : linuxWorld.Moved t.world) (hs : t.ShortAllH (linux m) linuxHost (linuxApp m) 247 10 cs)
    (h1 : linuxVars t.log = .ok {}) (h2 : t.world.path = []) :
    Shows (t.keysH (linux m) linuxHost (linuxApp m) cs).log (t.keysH (linux m) linuxHost (linuxApp m) cs).world.path
      (Machine.run {} (t.linesH (linux m) linuxHost (linuxApp m) cs)) := by
  refine follows_shows (C54_machine m cs t (some {}) h hs ?_)
  rw [h1]
  exact ⟨h2, rfl, rfl, rfl⟩

theorem linux_noPrompt (m : Machinery) : NoPrompt (linux m) := fun _ _ _ h => nomatch h

theorem linux_started (m : Machinery) : linuxWorld.Moved (Term.startH (linux m) linuxHost linuxSetup).world := by
  have ok := (linux_fits m).2.2.2.2.1
  rw [← linux_after m] at ok ⊢
  exact after_moved (linux m) linuxSetup ok.cwd

/-- The example demo_linux: started, with keys of any kind and any timing, it does what the terminal is specified to do (with the hostname of the moment in every prompt) and nothing
else; its working directory, hostname and memories are what the entered lines make of them.  Whether the pointer that `null_data_getter` does not set can be read is
assumed (`hm`). -/
theorem C54_linux (m : Machinery) (hm : m.null = some []) (inBuf outBuf : List UInt8) (h1 : inBuf.length = 256) (h2 : outBuf.length = 256) (cs : List UInt8)
    (hs : (Term.startH (linux m) linuxHost linuxSetup).ShortAllH (linux m) linuxHost (linuxApp m) 247 10 cs) (f : Nat → Slot) (hf : Fair f) :
    ∃ u v K, run (linux m) (blank inBuf outBuf) (steps linuxSetup) = .ok u ∧ (∀ k ≥ K, driveNH (linux m) linuxHost f u cs k = .ok (v, [])) ∧
      Shell (linux m) ((Term.startH (linux m) linuxHost linuxSetup).keysH (linux m) linuxHost (linuxApp m) cs) v ∧
      Shows v.log ((Term.startH (linux m) linuxHost linuxSetup).keysH (linux m) linuxHost (linuxApp m) cs).world.path
        (Machine.run {} ((Term.startH (linux m) linuxHost linuxSetup).linesH (linux m) linuxHost (linuxApp m) cs)) := by
  obtain ⟨hc, cfg, room, hv, ok, fits, plain⟩ := linux_fits m
  have hW := linux_started m
  have k := (tame_keysH (host := linuxHost) room fits ok plain (linux_tame m) cs (Term.startH (linux m) linuxHost linuxSetup) hW hs).1
  have hM := linux_shows m cs (Term.startH (linux m) linuxHost linuxSetup) hW hs (linux_starts m).1 (linux_starts m).2
  rw [← linux_after m] at ok
  obtain ⟨u, v, K, e, H, h⟩ := C52_life (linux m) hc cfg (linuxApp m) (linux_describes m hm) (linux_noPrompt m) linuxHost linuxHost_ok inBuf outBuf h1 h2 linuxSetup hv
    ok cs k f hf
  refine ⟨u, v, K, e, h, H, ?_⟩
  rw [H.log]
  exact hM

/-! ### A session with the example -/

instance decShortAllH (E : Env) (host : Host) (A : App) (L N : Nat) : (cs : List UInt8) → (t : Term) → Decidable (t.ShortAllH E host A L N cs)
  | [], _ => isTrue trivial
  | c :: cs, t => by unfold Term.ShortAllH; have := decShortAllH E host A L N cs (t.keyH E host A c); infer_instance

abbrev linux0 : Env := linux someMachinery
abbrev linuxApp0 : App := linuxApp someMachinery
abbrev linuxTerm : Term := Term.startH linux0 linuxHost linuxSetup

/-- The hostname is changed, a memory is written with the help of TAB, then everything is looked at. -/
def linuxKeys : List UInt8 :=
  b!"echo box > /etc/hostname\rcd dev/mem\recho \"\\x41\\x00Z\" > eep\t\rcat ../../etc/hostname\rxxd eeprom\recho hi > ram\rreset\r/bin/uptime\r/bin/print pip\r"

theorem linuxKeys_ok : linuxTerm.ShortAllH linux0 linuxHost linuxApp0 247 10 linuxKeys ∧
    linuxTerm.linesH linux0 linuxHost linuxApp0 linuxKeys = [b!"echo box > /etc/hostname", b!"cd dev/mem", b!"echo \"\\x41\\x00Z\" > eeprom", b!"cat ../../etc/hostname",
      b!"xxd eeprom", b!"echo hi > ram", b!"reset", b!"/bin/uptime", b!"/bin/print pip"] ∧
    Machine.run {} (linuxTerm.linesH linux0 linuxHost linuxApp0 linuxKeys) =
      some ⟨[], b!"box", b!"hi" ++ List.replicate 254 0, b!"A\x00Z" ++ List.replicate 29 0xFF⟩ := by
  refine ⟨?_, ?_, ?_⟩ <;> decide +kernel

/-- What the terminal shows. -/
theorem linuxKeys_shown : shown (linuxTerm.keysH linux0 linuxHost linuxApp0 linuxKeys).log =
    b!"uShell 0.1.0\r\n\x1b[35m[host /]$ \x1b[0mecho box > /etc/hostname\r\n\x1b[35m[box /]$ \x1b[0mcd dev/mem\r\n" ++
    b!"\x1b[35m[box mem]$ \x1b[0mecho \"\\x41\\x00Z\" > eeprom\r\n\x1b[35m[box mem]$ \x1b[0mcat ../../etc/hostname\r\nbox" ++
    b!"\x1b[35m[box mem]$ \x1b[0mxxd eeprom\r\n00000000: 41 00 5A FF FF FF FF FF  A.Z.....\r\n00000008: FF FF FF FF FF FF FF FF  ........\r\n" ++
    b!"00000010: FF FF FF FF FF FF FF FF  ........\r\n00000018: FF FF FF FF FF FF FF FF  ........\r\n\x1b[35m[box mem]$ \x1b[0mecho hi > ram\r\n" ++
    b!"\x1b[35m[box mem]$ \x1b[0mreset\r\nuShell 0.1.0\r\n\x1b[35m[box /]$ \x1b[0m/bin/uptime\r\ntime: 1s\r\n" ++
    b!"\x1b[35m[box /]$ \x1b[0m/bin/print pip\r\npip\r\n\x1b[35m[box /]$ \x1b[0m" := by
  decide +kernel

/-- `C54_linux` for this session. -/
example : ∃ u v K, run linux0 (blank (List.replicate 256 1) (List.replicate 256 2)) (steps linuxSetup) = .ok u ∧
    (∀ k ≥ K, driveNH linux0 linuxHost (fun n => if n % 2 = 0 then ⟨true, false⟩ else ⟨false, true⟩) u linuxKeys k = .ok (v, [])) ∧
    linuxHost v.log = b!"box" ∧ linuxRead (·.eeprom) v.log = b!"A\x00Z" ++ List.replicate 29 0xFF := by
  obtain ⟨u, v, K, e, h, -, hs⟩ := C54_linux someMachinery rfl (List.replicate 256 1) (List.replicate 256 2) List.length_replicate List.length_replicate linuxKeys linuxKeys_ok.1
    (fun n => if n % 2 = 0 then ⟨true, false⟩ else ⟨false, true⟩)
    ⟨fun n => ⟨2 * n, by omega, by simp⟩, fun n => ⟨2 * n + 1, by omega, by simp [show (2 * n + 1) % 2 = 1 by omega]⟩⟩
  obtain ⟨h1, -, h3, -⟩ := hs.1 _ linuxKeys_ok.2.2
  exact ⟨u, v, K, e, h, h1, h3⟩

/-! ### What goes wrong -/

/-- 33 bytes for the 32 bytes of the non-volatile memory. -/
def longKeys : List UInt8 := b!"echo 123456789012345678901234567890123 > /dev/mem/eeprom\r"

/-- The setters do not look at the size: a line that is well within the limits of the shell writes outside `g_eeprom_buffer`. -/
theorem C54_false_eeprom : ∃ u v K, run linux0 (blank (List.replicate 256 1) (List.replicate 256 2)) (steps linuxSetup) = .ok u ∧
    (∀ k ≥ K, driveNH linux0 linuxHost (fun n => if n % 2 = 0 then ⟨true, false⟩ else ⟨false, true⟩) u longKeys k = .ok (v, [])) ∧ linuxVars v.log = .error .oob := by
  obtain ⟨u, v, K, e, h, -, hs⟩ := C54_linux someMachinery rfl (List.replicate 256 1) (List.replicate 256 2) List.length_replicate List.length_replicate longKeys
    (by decide +kernel) (fun n => if n % 2 = 0 then ⟨true, false⟩ else ⟨false, true⟩)
    ⟨fun n => ⟨2 * n, by omega, by simp⟩, fun n => ⟨2 * n + 1, by omega, by simp [show (2 * n + 1) % 2 = 1 by omega]⟩⟩
  exact ⟨u, v, K, e, h, hs.2 (by decide +kernel)⟩

/-- The setter of the hostname does not look at the size either: it takes bytes of the argument that are behind the data. -/
theorem C54_false_hostname : (Machine.run {} [b!"echo \\x41\\x42 > /etc/hostname"]).map (·.host) = some b!"AB41\\x42" ∧ decodeSpec b!"\\x41\\x42" = b!"AB" := by
  decide +kernel

/-- The bound of `C54_linux` is exact: in /dev/mem, a line of 247 letters overflows the path buffer. -/
theorem C54_false_long : faultOf (run linux0 (blank (List.replicate 256 0) (List.replicate 256 0))
    (steps linuxSetup ++ List.replicate 1000 (.service ⟨none, true⟩) ++ typing 120 b!"cd /dev/mem\n" ++ typing 4 (List.replicate 247 120) ++ typing 600 b!"\n")) = some .oob := by
  decide +kernel

/-- One letter less is no problem. -/
example : faultOf (run linux0 (blank (List.replicate 256 0) (List.replicate 256 0))
    (steps linuxSetup ++ List.replicate 1000 (.service ⟨none, true⟩) ++ typing 120 b!"cd /dev/mem\n" ++ typing 4 (List.replicate 246 120) ++ typing 600 b!"\n")) = none := by
  decide +kernel

/-- `cat /dev/null` uses a pointer that has no value, if `null_data_getter` is called. -/
theorem C54_false_null : faultOf (run (linux { someMachinery with null := none }) (blank (List.replicate 256 0) (List.replicate 256 0))
    (steps linuxSetup ++ List.replicate 1000 (.service ⟨none, true⟩) ++ typing 200 b!"cat /dev/null\n")) = some .uninit := by
  decide +kernel

end Ush.Props
