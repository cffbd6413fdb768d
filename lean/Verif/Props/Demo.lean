import Verif.Props.Terminal
import Verif.Props.Safe
import Verif.Proof.Demo
/-!
# Applications that leave the directories alone (C48), the example DemoBasic (C49)
-/
namespace Ush.Props
open Spec

/-- In such an application, whatever is typed is answered as specified (C47), as long as the lengths are respected. -/
theorem C48_keys (E : Env) (cfg : Config E) (room : Roomy E) (A : App) (hA : A.Describes E) (L N : Nat) (W : World) (ok : W.Ok E) (fits : W.Fits E L)
    (plain : W.Plain E N) (tame : A.Tame E W) (cs : List UInt8) (t : Term) (u : Ush) (H : Shell E t u) (hW : W.Moved t.world)
    (hs : t.ShortAll E A L N cs) (inp : List UInt8) :
    ∃ v, Steps E u (cs ++ inp) v inp ∧ Shell E (t.keys E A cs) v ∧ W.Moved (t.keys E A cs).world := by
  obtain ⟨h1, h2⟩ := tame_keys room fits ok plain tame cs t hW hs
  obtain ⟨v, s, H'⟩ := C47_keys E cfg (by have := room.inSize; omega) A hA cs t u H h1 inp
  exact ⟨v, s, H', h2⟩

/-- ... from `ush_init` on, whatever the timing of the terminal. -/
theorem C48_life (E : Env) (hc : CfgOk E) (cfg : Config E) (room : Roomy E) (A : App) (hA : A.Describes E) (L N : Nat) (inBuf outBuf : List UInt8)
    (h1 : inBuf.length = E.inSize) (h2 : outBuf.length = E.outSize) (os : List FsOp) (hv : (initWorld E).ValidRun E os) (ok : (after E os).Ok E)
    (fits : (after E os).Fits E L) (plain : (after E os).Plain E N) (tame : A.Tame E (after E os)) (cs : List UInt8)
    (hs : (Term.start E os).ShortAll E A L N cs) (f : Nat → Slot) (hf : Fair f) :
    ∃ u v K, run E (blank inBuf outBuf) (steps os) = .ok u ∧ Shell E ((Term.start E os).keys E A cs) v ∧ (after E os).Moved ((Term.start E os).keys E A cs).world ∧
      ∀ n ≥ K, driveN E f u cs n = .ok (v, []) := by
  obtain ⟨k1, k2⟩ := tame_keys room fits ok plain tame cs (Term.start E os) (after_moved E os ok.cwd) hs
  obtain ⟨u, v, K, e, H, h⟩ := C47_life E hc cfg A hA inBuf outBuf h1 h2 os hv ok cs k1 f hf
  exact ⟨u, v, K, e, H, k2, h⟩

/-- ... and at every moment, whatever has been typed so far and however slow the terminal is: no fault, and the log is a beginning of the specified one. -/
theorem C48_prefix (E : Env) (cfg : Config E) (room : Roomy E) (A : App) (hA : A.Describes E) (L N : Nat) (W : World) (ok : W.Ok E) (fits : W.Fits E L)
    (plain : W.Plain E N) (tame : A.Tame E W) (cs : List UInt8) (t : Term) (u : Ush) (H : Shell E t u) (hW : W.Moved t.world)
    (hs : t.ShortAll E A L N cs) (ss : List Slot) : ∃ w r, drive E u cs ss = .ok (w, r) ∧ w.log <+: (t.keys E A cs).log :=
  C47_prefix E cfg (by have := room.inSize; omega) A hA cs t u H (tame_keys room fits ok plain tame cs t hW hs).1 ss

/-! ### DemoBasic -/

instance (E : Env) (N : Nat) (W : World) : Decidable (W.Plain E N) :=
  decidable_of_iff ((∀ f ∈ W.files, f.name.length ≤ N ∧ cLf ∉ f.name ∧ cCr ∉ f.name) ∧
      (∀ m ∈ W.tree, (dirName m.path).length ≤ N ∧ cLf ∉ dirName m.path ∧ cCr ∉ dirName m.path) ∧ ∀ m ∈ W.dirs, (render m.path).length + N + 1 < E.pathMax)
    ⟨fun h => ⟨h.1, h.2.1, h.2.2⟩, fun h => ⟨h.files, h.dirs, h.paths⟩⟩

instance (E : Env) (L N : Nat) (t : Term) (c : UInt8) : Decidable (t.Short E L N c) := by unfold Term.Short; infer_instance

instance decShortAll (E : Env) (A : App) (L N : Nat) : (cs : List UInt8) → (t : Term) → Decidable (t.ShortAll E A L N cs)
  | [], _ => isTrue trivial
  | c :: cs, t => by unfold Term.ShortAll; have := decShortAll E A L N cs (t.key E A c); infer_instance

/-- The example fits its buffers: words are shorter than `n - 5`, names are not longer than 8. -/
theorem demo_fits (n : Nat) (hn : 32 ≤ n) (time : List Event → Str) : CfgOk (demo n time) ∧ Config (demo n time) ∧ Roomy (demo n time) ∧
    (initWorld (demo n time)).ValidRun (demo n time) demoSetup ∧ demoWorld.Ok (demo n time) ∧ demoWorld.Fits (demo n time) (n - 5) ∧
    demoWorld.Plain (demo n time) 8 := by
  have hp : ∀ m ∈ demoWorld.tree, (fullText (render m.path) []).length ≤ 5 := by decide
  have hf : ∀ f ∈ demoWorld.files, Proper f ∧ (rowHead (demo 32 fun _ => []) f).length < 32 := by decide
  have hv : (initWorld (demo 32 fun _ => [])).ValidRun (demo 32 fun _ => []) demoSetup := by decide
  have ho : demoWorld.Ok (demo 32 fun _ => []) := by decide
  have hq : demoWorld.Plain (demo 32 fun _ => []) 8 := by decide
  have hc : CStrings (demo 32 fun _ => []) := ⟨by decide, by decide, by decide, by decide, by decide, statusString_nul _ (by decide)⟩
  refine ⟨⟨?_, ?_, ?_, by show 0 < 5; omega, fun _ => ?_⟩, ⟨?_, ⟨hc.1, hc.2, hc.3, hc.4, hc.5, hc.6⟩⟩, ⟨?_, ?_, ?_, ?_⟩, ?_, ⟨ho.cwd, ?_, ho.treeTexts, ho.cmdTexts⟩,
    ⟨fun f h => ⟨(hf f h).1, Nat.lt_of_lt_of_le (hf f h).2 hn⟩, ?_, ?_⟩, ⟨hq.files, hq.dirs, ?_⟩⟩
  · show 0 < n; omega
  · show 4 ≤ n; omega
  · show 0 < n; omega
  · show builtinTable (demo 32 fun _ => []) ≠ []; decide
  · show 4 ≤ n; omega
  · show 2 ≤ n; omega
  · show 10 < n; omega
  · show 0 < 8; omega
  · show 3 * 8 + 1 < n; omega
  · obtain ⟨a1, ⟨b1, b2, b3⟩, ⟨c1, c2, c3⟩, ⟨d1, d2, d3⟩, -⟩ := hv
    exact ⟨a1, ⟨b1, Nat.lt_of_lt_of_le b2 hn, b3⟩, ⟨c1, Nat.lt_of_lt_of_le c2 hn, c3⟩, ⟨d1, Nat.lt_of_lt_of_le d2 hn, d3⟩, trivial⟩
  · exact fun m hm f hf => ⟨(ho.names m hm f hf).1, Nat.lt_of_lt_of_le (ho.names m hm f hf).2 hn⟩
  · intro m hm
    have := hp m hm
    show _ ≤ n
    omega
  · show n - 5 ≤ n; omega
  · exact fun m hm => Nat.lt_of_lt_of_le (hq.paths m hm) hn

/-- The device of the example after some keys is what the entered lines make of it. -/
theorem C49_device (n : Nat) (hn : 32 ≤ n) (time : List Event → Str) (cs : List UInt8) : ∀ t : Term, demoWorld.Moved t.world →
    t.ShortAll (demo n time) (demoApp time) (n - 5) 8 cs →
    (t.keys (demo n time) (demoApp time) cs).device = t.device.run (t.lines (demo n time) (demoApp time) cs) := by
  obtain ⟨-, -, room, -, ok, fits, plain⟩ := demo_fits n hn time
  induction cs with
  | nil => intro t _ _; rfl
  | cons c cs ih =>
    intro t hW hs
    have h1 := (tame_key room fits ok plain (demo_tame n time) hW hs.1).2
    have h2 := ih _ h1 hs.2
    rw [demo_key hW] at h2
    show (Term.keys _ _ _ cs).device = _
    rw [h2]
    show _ = Device.run t.device ((if isEnter c && t.ed.esc == .none then [sent n t.ed.line] else []) ++ Term.lines _ _ _ cs)
    cases isEnter c && t.ed.esc == .none <;> rfl

/-- The example DemoBasic: started, with keys of any kind and any timing, it does what the terminal is specified to do and nothing else, and its LED and
working directory are what the entered lines make of them. -/
theorem C49_demo (n : Nat) (hn : 32 ≤ n) (time : List Event → Str) (inBuf outBuf : List UInt8) (h1 : inBuf.length = n) (h2 : outBuf.length = n) (cs : List UInt8)
    (hs : (Term.start (demo n time) demoSetup).ShortAll (demo n time) (demoApp time) (n - 5) 8 cs) (f : Nat → Slot) (hf : Fair f) :
    ∃ u v K, run (demo n time) (blank inBuf outBuf) (steps demoSetup) = .ok u ∧ (∀ k ≥ K, driveN (demo n time) f u cs k = .ok (v, [])) ∧
      Shell (demo n time) ((Term.start (demo n time) demoSetup).keys (demo n time) (demoApp time) cs) v ∧
      led v.log = (Device.run {} ((Term.start (demo n time) demoSetup).lines (demo n time) (demoApp time) cs)).led ∧
      ((Term.start (demo n time) demoSetup).keys (demo n time) (demoApp time) cs).world.path =
        (Device.run {} ((Term.start (demo n time) demoSetup).lines (demo n time) (demoApp time) cs)).dir := by
  obtain ⟨hc, cfg, room, hv, ok, fits, plain⟩ := demo_fits n hn time
  obtain ⟨u, v, K, e, H, -, h⟩ := C48_life (demo n time) hc cfg room (demoApp time) (demo_describes n time) (n - 5) 8 inBuf outBuf h1 h2 demoSetup hv
    ok fits plain (demo_tame n time) cs hs f hf
  have hd := C49_device n hn time cs (Term.start (demo n time) demoSetup) (after_moved (demo n time) demoSetup ok.cwd) hs
  have h0 : (Term.start (demo n time) demoSetup).device = {} := by
    unfold Term.device
    congr 1
  rw [h0] at hd
  refine ⟨u, v, K, e, h, H, ?_, ?_⟩
  · rw [H.log, ← hd]; rfl
  · rw [← hd]; rfl

/-- `cat` of the file /dev/led, however it is named, prints the state of the LED. -/
theorem C49_read (n : Nat) (time : List Event → Str) (t : Term) (hW : demoWorld.Moved t.world) (c : UInt8) (hc : isEnter c = true) (he : t.ed.esc = .none) (a : Str)
    (hw : words (sent n t.ed.line) = [b!"cat", a]) (ha : resolveText t.device.dir a = b!"/dev/led") :
    (t.key (demo n time) (demoApp time) c).log = t.log ++ .inp c :: outs (enterEcho c) ++ [.exec (.builtin .cat) [b!"cat", a], .getData 5] ++
      outs ((if t.device.led then b!"1\r\n" else b!"0\r\n") ++ t.world.prompt (demo n time)) := by
  obtain ⟨f, hf, hg⟩ := demo_read hW ha
  have h1 : c ≠ cEtx := by rintro rfl; cases hc
  have h2 : c ≠ cTab := by rintro rfl; cases hc
  obtain ⟨g, hg1, hg2⟩ := demo_cat hW
  have e : ∀ l, led (t.log ++ .inp c :: outs (enterEcho c) ++ l) = l.foldl ledStep (led t.log) := by
    intro l
    rw [List.append_assoc, led_append]
    show List.foldl ledStep _ (Event.inp c :: (outs (enterEcho c) ++ l)) = _
    rw [List.foldl_cons, List.foldl_append, dull_outs]
    rfl
  unfold Term.key
  rw [if_neg h1, if_neg h2, hc, he]
  simp only [beq_self_eq_true, Bool.and_self, if_true, show (demo n time).inSize = n from rfl, hw, lineAnswer]
  have er : ∀ l argv, (Talk.start t.world c).run (demo n time) ((demoApp time).hook l argv) = (Talk.start t.world c, []) := fun _ _ => rfl
  have e0 : ∀ argv, hookEvents (demo n time) argv = [] := fun _ => rfl
  have e1 : (Talk.start t.world c).world = t.world := rfl
  simp only [er, e0, e1, hg1, List.map_nil, List.append_nil, List.nil_append, fileAnswer, hg2, builtinAnswer, catError, hf, hg, reduceCtorEq, if_false, catAll,
    Option.bind_some, catLog, List.flatMap_cons, List.flatMap_nil, Term.add]
  have eg : ∀ l, (demoApp time).get 5 l = if led l then b!"1\r\n" else b!"0\r\n" := fun _ => rfl
  rw [eg, e]
  show _ = t.log ++ .inp c :: outs (enterEcho c) ++ _ ++ outs ((if led t.log then b!"1\r\n" else b!"0\r\n") ++ _)
  simp [ledStep, outs]
  rfl

/-! ### A session with the example, and what happens to longer lines -/

/-- A clock. -/
def clock (l : List Event) : Str := [48 + UInt8.ofNat (l.count (.getData 6)), cCr, cLf]

/-- The LED is toggled from another directory, switched by TAB-completed commands, by `echo`, and read. -/
def demoKeys : List UInt8 := b!"/bin/toggle\rcat dev/led\rcd bi\t\rset 0\rto\t\r./set 1 1\recho 0x > ../dev/led\rcat /dev/led /dev/time\rset 1\rreboot\r"

example : (Term.start (demo 32 clock) demoSetup).ShortAll (demo 32 clock) (demoApp clock) 27 8 demoKeys ∧
    (Term.start (demo 32 clock) demoSetup).lines (demo 32 clock) (demoApp clock) demoKeys = [b!"/bin/toggle", b!"cat dev/led", b!"cd bin", b!"set 0", b!"toggle", b!"./set 1 1",
      b!"echo 0x > ../dev/led", b!"cat /dev/led /dev/time", b!"set 1", b!"reboot"] ∧
    Device.run {} ((Term.start (demo 32 clock) demoSetup).lines (demo 32 clock) (demoApp clock) demoKeys) = ⟨[b!"bin"], true⟩ := by
  refine ⟨?_, ?_, ?_⟩ <;> decide +kernel

/-- The bound is exact: in /dev (or /bin), a line of 27 letters overflows the path buffer of the small boards. -/
theorem C49_false_long : faultOf (run (demo 32 clock) (blank (List.replicate 32 0) (List.replicate 32 0))
    (steps demoSetup ++ List.replicate 800 (.service ⟨none, true⟩) ++ typing 120 b!"cd dev\n" ++ typing 4 (List.replicate 27 120) ++ typing 120 b!"\n")) = some .oob := by
  decide +kernel

/-- One letter less is no problem. -/
example : faultOf (run (demo 32 clock) (blank (List.replicate 32 0) (List.replicate 32 0))
    (steps demoSetup ++ List.replicate 800 (.service ⟨none, true⟩) ++ typing 120 b!"cd dev\n" ++ typing 4 (List.replicate 26 120) ++ typing 120 b!"\n")) = none := by
  decide +kernel

theorem demoKeys_short : (Term.start (demo 32 clock) demoSetup).ShortAll (demo 32 clock) (demoApp clock) 27 8 demoKeys := by decide +kernel

/-- The device of these examples when it has started. -/
theorem demoShell : ∃ u, Shell (demo 32 clock) (Term.start (demo 32 clock) demoSetup) u := by
  obtain ⟨h1, h2, -, h3⟩ := demo_fits 32 (by decide) clock
  obtain ⟨-, v, -, -, H, l⟩ := C38_startup (demo 32 clock) h1 h2 (List.replicate 32 1) (List.replicate 32 2) rfl rfl demoSetup (by decide) (by decide) []
  exact ⟨v, H, l⟩

/-- The theorems for any keys, from the moment on when the device has started. -/
example : ∃ u v, Shell (demo 32 clock) (Term.start (demo 32 clock) demoSetup) u ∧ Steps (demo 32 clock) u (demoKeys ++ []) v [] ∧
    Shell (demo 32 clock) ((Term.start (demo 32 clock) demoSetup).keys (demo 32 clock) (demoApp clock) demoKeys) v := by
  obtain ⟨-, h2, h3, -, h5, h6, h7⟩ := demo_fits 32 (by decide) clock
  obtain ⟨u, H⟩ := demoShell
  obtain ⟨v, s, h, -⟩ := C48_keys (demo 32 clock) h2 h3 (demoApp clock) (demo_describes 32 clock) 27 8 demoWorld h5 h6 h7 (demo_tame 32 clock) demoKeys _ u H ⟨rfl, rfl, _, by decide, rfl⟩ demoKeys_short []
  exact ⟨u, v, H, s, h⟩

example : ∃ u w r, Shell (demo 32 clock) (Term.start (demo 32 clock) demoSetup) u ∧ drive (demo 32 clock) u demoKeys (List.replicate 500 ⟨true, true⟩) = .ok (w, r) ∧
    w.log <+: ((Term.start (demo 32 clock) demoSetup).keys (demo 32 clock) (demoApp clock) demoKeys).log := by
  obtain ⟨-, h2, h3, -, h5, h6, h7⟩ := demo_fits 32 (by decide) clock
  obtain ⟨u, H⟩ := demoShell
  obtain ⟨w, r, h⟩ := C48_prefix (demo 32 clock) h2 h3 (demoApp clock) (demo_describes 32 clock) 27 8 demoWorld h5 h6 h7 (demo_tame 32 clock) demoKeys _ u H ⟨rfl, rfl, _, by decide, rfl⟩ demoKeys_short
    (List.replicate 500 ⟨true, true⟩)
  exact ⟨u, w, r, H, h⟩

example (f : Nat → Slot) (hf : Fair f) : ∃ u v K, run (demo 32 clock) (blank (List.replicate 32 0) (List.replicate 32 0)) (steps demoSetup) = .ok u ∧
    (∀ k ≥ K, driveN (demo 32 clock) f u demoKeys k = .ok (v, [])) ∧ led v.log = true := by
  obtain ⟨u, v, K, h1, h2, -, h4, -⟩ := C49_demo 32 (by decide) clock (List.replicate 32 0) (List.replicate 32 0) rfl rfl demoKeys demoKeys_short f hf
  exact ⟨u, v, K, h1, h2, h4.trans (by decide +kernel)⟩

end Ush.Props
