import Verif.Props.Full
/-!
# C70 TAB on every line

NUL can be typed.  It is part of the line, but ends it as a C string.  Only the part in front of it is looked at; what is added goes behind it.
-/
namespace Ush.Props
open Ush Spec

/-! ## One TAB -/

/-- Where there is room, TAB gives the line and the output that are specified, on every line. -/
theorem C70_tab (E : Env) (cfg : Config E) (on : E.autocomplete = true) (W : World) (u : Ush) (e : Editor) (H : Waiting E W u e) (ht : W.LineFits E e.line)
    (hcl : W.LineClean E e.line) (inp : List UInt8) :
    ∃ v, Steps E u (cTab :: inp) v inp ∧ Waiting E W v ⟨(W.press E e.line).1, e.esc⟩ ∧ v.log = u.log ++ .inp cTab :: outs (W.press E e.line).2 := by
  obtain ⟨v, r, h⟩ := tab_press on cfg H inp ht hcl
  exact ⟨v, r.steps, h, r.log⟩

/-- There is no room, or there is a NUL and several names would have to be tried: no key is read after TAB, and the shell never waits for one. -/
theorem C70_dead (E : Env) (on : E.autocomplete = true) (W : World) (u : Ush) (e : Editor) (H : Waiting E W u e) (flat : W.Flat) (far : ¬ W.LineFits E e.line)
    (inp : List UInt8) (f : Nat → Slot) (n : Nat) (v : Ush) (r : List UInt8)
    (h : driveN E f u (cTab :: inp) n = .ok (v, r)) : r = cTab :: inp ∨ (r = inp ∧ v.state ≠ .readChar) := by
  obtain ⟨w, s, hn⟩ := line_never on H flat far inp
  obtain ⟨k, -, hk⟩ := drive_chain E _ _ _ _ _ h
  obtain ⟨h1, h2⟩ := Never.before s hn k hk
  have h3 := chain_suffix _ hk
  rcases List.suffix_cons_iff.mp h3 with h4 | h4
  · exact .inl h4
  · have h5 := h4.length_le
    exact .inr ⟨h4.eq_of_length (by omega), h2 (by omega)⟩

/-- TAB is over at some time exactly if there is room. -/
theorem C70_exact (E : Env) (cfg : Config E) (on : E.autocomplete = true) (W : World) (u : Ush) (e : Editor) (H : Waiting E W u e) (flat : W.Flat)
    (inp : List UInt8) (f : Nat → Slot) (hf : Fair f) :
    (∃ n v, driveN E f u (cTab :: inp) n = .ok (v, inp) ∧ v.state = .readChar) ↔ W.LineFits E e.line := by
  constructor
  · intro ⟨n, v, h, hs⟩
    refine Classical.byContradiction fun far => ?_
    rcases C70_dead E on W u e H flat far inp f n v inp h with h1 | h1
    · have := congrArg List.length h1
      simp at this
    · exact h1.2 hs
  · intro ht
    by_cases hnul : cNul ∈ e.line
    · obtain ⟨v, r, h, -⟩ := press_run on cfg H inp hnul ht
      obtain ⟨n, hn⟩ := fair_gets f hf r.steps
      exact ⟨n, v, hn, h⟩
    · exact (C69_exact E cfg on W u e H hnul flat inp f hf).mpr ((lineFits_plain hnul).mp ht)

/-- A NUL in the line, and several names of which the last one is not the word itself: the shell never waits for a key again. -/
theorem C70_nul (E : Env) (on : E.autocomplete = true) (W : World) (u : Ush) (e : Editor) (H : Waiting E W u e) (flat : W.Flat) (hnul : cNul ∈ e.line)
    (many : 2 ≤ (W.offers (tabTarget (seen e.line)).2).length) (last : (W.offers (tabTarget (seen e.line)).2).getLast? ≠ some (tabTarget (seen e.line)).2)
    (inp : List UInt8) (f : Nat → Slot) (n : Nat) (v : Ush) (r : List UInt8)
    (h : driveN E f u (cTab :: inp) n = .ok (v, r)) : r = cTab :: inp ∨ (r = inp ∧ v.state ≠ .readChar) :=
  C70_dead E on W u e H flat (fun hf => last (hf.2 hnul many)) inp f n v r h

/-! ### Examples -/

/-- Two files, of which the second one is a prefix of the first one. -/
def yHist : List FsOp := [.mount [] 1 [{ name := b!"log2", getData := some 1 }, { name := b!"log", getData := some 2 }, { name := b!"run", getData := some 1 }]]

abbrev yW : World := after gE yHist

theorem yCfg : Config gE := ⟨by decide, ⟨by decide, by decide, by decide, by decide, by decide, statusString_nul _ (by decide)⟩⟩

theorem yWaiting : ∃ u, Waiting gE yW u {} := boot_waiting ⟨by decide, by decide, by decide, by decide, by decide⟩ yCfg yHist (by decide) (by decide)

/-- `r`, NUL, `x`: completed, and what was behind the NUL is lost.  `log`, NUL: the names are listed.  `q`, NUL: nothing happens.  `l`, NUL: the shell never waits again. -/
example : yW.LineFits gE [114, 0, 120] ∧ yW.LineClean gE [114, 0, 120] ∧ yW.press gE [114, 0, 120] = (b!"run", b!"un") ∧
    yW.LineFits gE (b!"log" ++ [0]) ∧ (yW.press gE (b!"log" ++ [0])).1 = b!"log" ++ [0] ∧ (yW.press gE (b!"log" ++ [0])).2 = crlf ++ b!"log2" ++ crlf ++ b!"log" ++ crlf ++ yW.prompt gE ++ b!"log" ∧
    yW.LineFits gE [113, 0] ∧ yW.press gE [113, 0] = ([113, 0], []) ∧
    ¬ yW.LineFits gE [108, 0] ∧ (yW.offers [108]).length = 2 ∧ (yW.offers [108]).getLast? ≠ some [108] ∧ seen [108, 0] = [108] ∧ (tabTarget [108]).2 = [108] := by
  decide

/-- The shell waits with these lines. -/
example (line : Str) (h : line ∈ [[114, 0, 120], b!"log" ++ [0], [113, 0], [108, 0]]) : yW.Flat ∧ ∃ u, Waiting gE yW u ⟨line, .none⟩ := by
  refine ⟨C69_flat yW (by unfold World.Usual; decide), ?_⟩
  obtain ⟨u, H⟩ := yWaiting
  have key : ∀ line ∈ [[114, 0, 120], b!"log" ++ [0], [113, 0], [(108 : UInt8), 0]], (∀ c ∈ line, isText c = true ∧ isErase c = false) ∧ line.length < gE.inSize := by decide
  exact typed yCfg H line (key line h).1 (key line h).2

/-! ## DemoBasic, every key -/

section
variable {E : Env} {A : App} {W : World}

/-- What a key needs besides to be answered as specified: no name contains a line end. -/
theorem clean_near (room : Roomy E) (ok : W.Ok E) (fits : W.Fits E 0) (tame : A.Tame E W)
    (hf : ∀ f ∈ W.files, cLf ∉ f.name ∧ cCr ∉ f.name) (hd : ∀ m ∈ W.tree, cLf ∉ dirName m.path ∧ cCr ∉ dirName m.path) {t : Term} {c : UInt8} (hW : W.Moved t.world)
    (near : t.Near E c) : t.Ok E A c ∧ W.Moved (t.key E A c).world := by
  have hn := fun x n (h : n ∈ t.world.offers x) => names_of (Q := fun n => cLf ∉ n ∧ cCr ∉ n) hW hf hd h
  refine tame_key_near (c := c) room fits ok tame hW ?_
  unfold Term.Near at near
  split
  · next hc =>
    rw [if_pos hc] at near
    exact fun on => ⟨near on, grown_clean fun x c h => (hn x c h).1, grown_clean fun x c h => (hn x c h).2⟩
  · next hc => rwa [if_neg hc] at near

/-- No name contains a line end: nothing else has to be respected. -/
theorem tabsClean_of (room : Roomy E) (ok : W.Ok E) (fits : W.Fits E 0) (tame : A.Tame E W)
    (hf : ∀ f ∈ W.files, cLf ∉ f.name ∧ cCr ∉ f.name) (hd : ∀ m ∈ W.tree, cLf ∉ dirName m.path ∧ cCr ∉ dirName m.path) (cs : List UInt8) :
    ∀ (t : Term), W.Moved t.world → t.TabsClean E A cs := by
  induction cs with
  | nil => intros; trivial
  | cons c cs ih =>
    intro t hW
    have hn := fun x n (h : n ∈ t.world.offers x) => names_of (Q := fun n => cLf ∉ n ∧ cCr ∉ n) hW hf hd h
    exact ⟨fun _ _ => ⟨grown_clean fun x c h => (hn x c h).1, grown_clean fun x c h => (hn x c h).2⟩, fun near => ih _ (clean_near room ok fits tame hf hd hW near).2⟩

end

/-- The device (LED and working directory) after some keys, as long as everything fits, is what the entered lines make of it. -/
theorem C70_device (n : Nat) (hn : 32 ≤ n) (time : List Event → Str) (cs : List UInt8) : ∀ t : Term, demoWorld.Moved t.world →
    t.NearAll (demo n time) (demoApp time) cs →
    (t.keys (demo n time) (demoApp time) cs).device = t.device.run (t.lines (demo n time) (demoApp time) cs) := by
  obtain ⟨-, -, room, -, ok, -, plain⟩ := demo_fits n hn time
  induction cs with
  | nil => intro t _ _; rfl
  | cons c cs ih =>
    intro t hW hs
    have h1 := (clean_near room ok (demo_fits0 n hn time) (demo_tame n time) (fun f h => (plain.files f h).2) (fun m h => (plain.dirs m h).2) hW hs.1).2
    have h2 := ih _ h1 hs.2
    rw [demo_key hW] at h2
    show (Term.keys _ _ _ cs).device = _
    rw [h2]
    show _ = Device.run t.device ((if isEnter c && t.ed.esc == .none then [sent n t.ed.line] else []) ++ Term.lines _ _ _ cs)
    cases isEnter c && t.ed.esc == .none <;> rfl

/-- DemoBasic with any keys at all, and any fair timing of the terminal: if everything fits, then the shell does what is specified and waits for the next key; its LED and its
working directory are what the entered lines make of them.  Otherwise there is a time after which it never waits for a key.  Which of both can be read off the keys. -/
theorem C70_demo (n : Nat) (hn : 32 ≤ n) (time : List Event → Str) (inBuf outBuf : List UInt8) (h1 : inBuf.length = n) (h2 : outBuf.length = n) (cs : List UInt8)
    (f : Nat → Slot) (hf : Fair f) :
    ∃ u, run (demo n time) (blank inBuf outBuf) (steps demoSetup) = .ok u ∧
      ((Term.start (demo n time) demoSetup).NearAll (demo n time) (demoApp time) cs →
        ∃ v K, Shell (demo n time) ((Term.start (demo n time) demoSetup).keys (demo n time) (demoApp time) cs) v ∧ (∀ k ≥ K, driveN (demo n time) f u cs k = .ok (v, [])) ∧
          led v.log = (Device.run {} ((Term.start (demo n time) demoSetup).lines (demo n time) (demoApp time) cs)).led ∧
          ((Term.start (demo n time) demoSetup).keys (demo n time) (demoApp time) cs).world.path =
            (Device.run {} ((Term.start (demo n time) demoSetup).lines (demo n time) (demoApp time) cs)).dir) ∧
      (¬ (Term.start (demo n time) demoSetup).NearAll (demo n time) (demoApp time) cs →
        ∃ K, ∀ k ≥ K, ∀ v r, driveN (demo n time) f u cs k = .ok (v, r) → v.state ≠ .readChar) := by
  obtain ⟨hc, cfg, room, hv, ok, -, plain⟩ := demo_fits n hn time
  obtain ⟨u, e, k1, k2⟩ := C69_life (demo n time) hc cfg room (demoApp time) (demo_describes n time) inBuf outBuf h1 h2 demoSetup hv ok (demo_fits0 n hn time) (demo_tame n time) (demo_flat n time) cs
    (tabsClean_of room ok (demo_fits0 n hn time) (demo_tame n time) (fun f h => (plain.files f h).2) (fun m h => (plain.dirs m h).2) cs _ (after_moved _ _ ok.cwd)) f hf
  refine ⟨u, e, fun near => ?_, k2⟩
  obtain ⟨v, K, H, h⟩ := k1 near
  have hd := C70_device n hn time cs (Term.start (demo n time) demoSetup) (after_moved (demo n time) demoSetup ok.cwd) near
  have h0 : (Term.start (demo n time) demoSetup).device = {} := by
    unfold Term.device
    congr 1
  rw [h0] at hd
  refine ⟨v, K, H, h, ?_, ?_⟩
  · rw [H.log, ← hd]; rfl
  · rw [← hd]; rfl

/-- NUL and TAB: `to` NUL `x` TAB in `bin` is completed (`x` is lost), NUL and TAB alone end everything; behind other words there is nothing to complete. -/
example : (Term.start (demo 32 clock) demoSetup).NearAll (demo 32 clock) (demoApp clock) (b!"cd bin\nto" ++ [cNul] ++ b!"x\t") ∧
    ((Term.start (demo 32 clock) demoSetup).keys (demo 32 clock) (demoApp clock) (b!"cd bin\nto" ++ [cNul] ++ b!"x\t")).ed.line = b!"toggle" ∧
    (Term.start (demo 32 clock) demoSetup).NearAll (demo 32 clock) (demoApp clock) (b!"zz" ++ [cNul] ++ b!"x\t") ∧
    ((Term.start (demo 32 clock) demoSetup).keys (demo 32 clock) (demoApp clock) (b!"zz" ++ [cNul] ++ b!"x\t")).ed.line = b!"zz" ++ [cNul] ++ b!"x" ∧
    ¬ (Term.start (demo 32 clock) demoSetup).NearAll (demo 32 clock) (demoApp clock) [cNul, cTab] := by
  refine ⟨?_, ?_, ?_, ?_, ?_⟩ <;> decide +kernel

end Ush.Props
