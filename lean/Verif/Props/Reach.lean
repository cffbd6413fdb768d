import Verif.Props.Demo
import Verif.Proof.Reach
/-!
# C68 The limit for the length of paths is exact
-/
namespace Ush.Props
open Ush Spec

/-! ## The library functions -/

/-- Resolving a path: it works where there is room for the path, and writes over the end of the buffer otherwise. -/
theorem C68_resolve (E : Env) (W : World) (u : Ush) (H : Holds E W u) (a : Str) (hn : cNul ∉ a) :
    getAbsolutePath E u a = if W.Room E a then .ok (resolveText W.path a) else .error .oob := by
  split
  · next h => exact (H.abs hn h).1
  · next h => exact H.abs_far h

/-- Looking up a file. -/
theorem C68_find (E : Env) (W : World) (u : Ush) (H : Holds E W u) (a : Str) (hn : cNul ∉ a) :
    fileFindByName E u a = if W.Near E a then .ok (W.file? a) else .error .oob := by
  split
  · next h => exact H.find hn h
  · next h => exact H.find_far h

/-- Changing the directory. -/
theorem C68_cd (E : Env) (W : World) (u : Ush) (H : Holds E W u) (a : Str) (hn : cNul ∉ a) (h0 : a ≠ []) :
    setCurrentDir E u a = if W.Room E a then .ok (match W.dir? a with | some m => ({ u with current := some m.id }, .ok) | none => (u, .nodeNotFound)) else .error .oob := by
  unfold setCurrentDir
  rw [if_neg h0]
  split
  · next h =>
    rw [(H.abs hn h).1, M.ok_bind, H.dir hn h, M.ok_bind]
    cases W.dir? a <;> rfl
  · next h => rw [H.abs_far h]; rfl

/-- In the sample shell (80 bytes of path): 78 letters in `/`, not 79. -/
example : sE.pathMax = 80 ∧ sW.path = [] ∧ sW.Room sE (List.replicate 78 120) ∧ ¬ sW.Room sE (List.replicate 79 120) ∧
    ¬ sW.Near sE (List.replicate 79 120) ∧ ∃ u, Holds sE sW u := by
  refine ⟨by decide, by decide, by decide, by decide, by decide, ?_⟩
  obtain ⟨u, H⟩ := sTyped b!"x" (by decide) (by decide)
  exact ⟨u, H.toHolds⟩

/-! ## The keyboard -/

/-- Enter, where the words of the line that are looked up do not fit: the shell comes to a call that writes over the end of the buffer.  What the hook does and which other
callbacks there are does not matter. -/
theorem C68_line (E : Env) (cfg : Config E) (W : World) (u : Ush) (e : Editor) (H : Waiting E W u e) (hesc : e.esc = .none) (c : UInt8) (hen : c = cLf ∨ c = cCr)
    (hin : 2 ≤ E.inSize) (cs : List Call) (hh : HookSays E (u.log ++ .inp c :: outs (enterEcho c)) (words (sent E.inSize e.line)) cs)
    (hv : (Talk.start W c).ValidRun E cs) (ok : ((Talk.start W c).run E cs).1.world.Ok E)
    (far : ¬ ((Talk.start W c).run E cs).1.world.LineNear E (words (sent E.inSize e.line))) (inp : List UInt8) :
    ∃ v, Steps E u (c :: inp) v inp ∧ ∀ io, service E io v = .error .oob :=
  line_far cfg H c inp hesc hen hin rfl hh hv ok far

/-- TAB after a word that does not fit. -/
theorem C68_tab (E : Env) (on : E.autocomplete = true) (W : World) (u : Ush) (e : Editor) (H : Waiting E W u e) (hnul : cNul ∉ e.line)
    (far : ¬ W.Room E (tabTarget e.line).2) (inp : List UInt8) : ∃ v, Steps E u (cTab :: inp) v inp ∧ ∀ io, service E io v = .error .oob :=
  tab_far on H inp hnul far

section
variable {E : Env} {A : App} {W : World}

theorem reach_key (cfg : Config E) (room : Roomy E) (hA : A.Describes E) (ok : W.Ok E) (fits : W.Fits E 0) (tame : A.Tame E W) {t : Term} {u : Ush}
    (H : Shell E t u) (hW : W.Moved t.world) {c : UInt8} {cs : List UInt8} (ht : t.TabsFit E A (c :: cs)) (inp : List UInt8) :
    (t.Near E c → (∃ v, Steps E u (c :: inp) v inp ∧ Shell E (t.key E A c) v) ∧ W.Moved (t.key E A c).world) ∧
    (¬ t.Near E c → ∃ v, Steps E u (c :: inp) v inp ∧ ∀ io, service E io v = .error .oob) := by
  have hin := room.inSize
  constructor
  · intro near
    obtain ⟨h1, h2⟩ := tame_key_near (c := c) room fits ok tame hW (by
      unfold Term.Near at near
      split
      · next hc =>
        rw [if_pos hc] at near
        intro on
        obtain ⟨k1, -, k2⟩ := ht.1 hc on
        exact (lineOk_plain k1).mpr ⟨(lineFits_plain k1).mp (near on), k2⟩
      · next hc => rwa [if_neg hc] at near)
    exact ⟨key_sim cfg (by omega) hA H h1 inp, h2⟩
  · intro far
    obtain ⟨V, e, l⟩ := t
    obtain ⟨Hw, hl⟩ := H
    simp only at Hw hl hW
    unfold Term.Near at far
    simp only at far
    split at far
    · next hc =>
      subst hc
      have on : E.autocomplete = true := Classical.byContradiction fun h => far fun h' => absurd h' h
      obtain ⟨k1, k2, -⟩ := ht.1 rfl on
      obtain ⟨v, s, h | ⟨h1, z, h2, h3, -⟩⟩ := tab_full on Hw inp k1 (fun h => far fun _ => (lineFits_plain k1).mpr h)
      · exact ⟨v, s, h⟩
      · exact absurd ⟨h1, z, h2, h3⟩ k2
    · next hc =>
      split at far
      · next h3 =>
        obtain ⟨k1, k2⟩ := (Bool.and_eq_true _ _).mp h3
        have hen : c = cLf ∨ c = cCr := by
          unfold isEnter at k1
          simp at k1
          exact k1.symm
        have hh := hA.hook (u.log ++ .inp c :: outs (enterEcho c)) (words (sent E.inSize e.line))
        rw [tame.hook] at hh
        exact line_far cfg Hw c inp (by simpa using k2) hen hin rfl hh trivial (Moved_ok hW ok) far
      · exact absurd trivial far

end

/-- The keys `cs`, typed one after the other to an application that leaves the directories alone: if all words that are looked up fit, then the shell does what the
specified terminal does; otherwise it comes to a call that writes over the end of the buffer. -/
theorem C68_keys (E : Env) (cfg : Config E) (room : Roomy E) (A : App) (hA : A.Describes E) (W : World) (ok : W.Ok E) (fits : W.Fits E 0) (tame : A.Tame E W)
    (cs : List UInt8) : ∀ (t : Term) (u : Ush), Shell E t u → W.Moved t.world → t.TabsFit E A cs →
    (t.NearAll E A cs → ∃ v, Steps E u cs v [] ∧ Shell E (t.keys E A cs) v ∧ W.Moved (t.keys E A cs).world) ∧
    (¬ t.NearAll E A cs → ∃ v r, Steps E u cs v r ∧ ∀ io, service E io v = .error .oob) := by
  induction cs with
  | nil => intro t u H hW _; exact ⟨fun _ => ⟨u, Steps.refl _ _ _, H, hW⟩, fun h => absurd trivial h⟩
  | cons c cs ih =>
    intro t u H hW ht
    obtain ⟨k1, k2⟩ := reach_key cfg room hA ok fits tame H hW ht cs
    by_cases near : t.Near E c
    · obtain ⟨⟨v, s, H'⟩, hW'⟩ := k1 near
      obtain ⟨i1, i2⟩ := ih _ v H' hW' (ht.2 near)
      refine ⟨fun h => ?_, fun h => ?_⟩
      · obtain ⟨w, s', r⟩ := i1 h.2
        exact ⟨w, s.trans s', r⟩
      · obtain ⟨w, r, s', h'⟩ := i2 (fun h' => h ⟨near, h'⟩)
        exact ⟨w, r, s.trans s', h'⟩
    · refine ⟨fun h => absurd h.1 near, fun _ => ?_⟩
      obtain ⟨v, s, h⟩ := k2 near
      exact ⟨v, cs, s, h⟩

/-- ... from `ush_init` on, whatever the timing of the terminal. -/
theorem C68_life (E : Env) (hc : CfgOk E) (cfg : Config E) (room : Roomy E) (A : App) (hA : A.Describes E) (inBuf outBuf : List UInt8)
    (h1 : inBuf.length = E.inSize) (h2 : outBuf.length = E.outSize) (os : List FsOp) (hv : (initWorld E).ValidRun E os) (ok : (after E os).Ok E)
    (fits : (after E os).Fits E 0) (tame : A.Tame E (after E os)) (cs : List UInt8) (ht : (Term.start E os).TabsFit E A cs) (f : Nat → Slot) (hf : Fair f) :
    ∃ u, run E (blank inBuf outBuf) (steps os) = .ok u ∧
      ((Term.start E os).NearAll E A cs → ∃ v K, Shell E ((Term.start E os).keys E A cs) v ∧ ∀ n ≥ K, driveN E f u cs n = .ok (v, [])) ∧
      (¬ (Term.start E os).NearAll E A cs → ∃ K, ∀ n ≥ K, driveN E f u cs n = .error .oob) := by
  obtain ⟨u, v, e, s, H, l⟩ := C38_startup E hc cfg inBuf outBuf h1 h2 os hv ok cs
  obtain ⟨k1, k2⟩ := C68_keys E cfg room A hA _ ok fits tame cs (Term.start E os) v ⟨H, l⟩ (after_moved E os ok.cwd) ht
  refine ⟨u, e, fun h => ?_, fun h => ?_⟩
  · obtain ⟨w, s', H', -⟩ := k1 h
    obtain ⟨N, hN⟩ := C20_fair E u w cs (s.trans s') ⟨H'.waiting.shows.state, rfl⟩ H'.waiting.current f hf
    exact ⟨w, N, H', hN⟩
  · obtain ⟨w, r, s', h'⟩ := k2 h
    exact fair_stuck f hf (s.trans s') h'

/-- With other words: the shell never writes over the end of a buffer exactly if all words that are looked up fit. -/
theorem C68_exact (E : Env) (hc : CfgOk E) (cfg : Config E) (room : Roomy E) (A : App) (hA : A.Describes E) (inBuf outBuf : List UInt8)
    (h1 : inBuf.length = E.inSize) (h2 : outBuf.length = E.outSize) (os : List FsOp) (hv : (initWorld E).ValidRun E os) (ok : (after E os).Ok E)
    (fits : (after E os).Fits E 0) (tame : A.Tame E (after E os)) (cs : List UInt8) (ht : (Term.start E os).TabsFit E A cs) (f : Nat → Slot) (hf : Fair f) :
    ∃ u, run E (blank inBuf outBuf) (steps os) = .ok u ∧ ((∀ n, ∃ p, driveN E f u cs n = .ok p) ↔ (Term.start E os).NearAll E A cs) := by
  obtain ⟨u, e, k1, k2⟩ := C68_life E hc cfg room A hA inBuf outBuf h1 h2 os hv ok fits tame cs ht f hf
  refine ⟨u, e, fun h => ?_, fun h => ?_⟩
  · refine Classical.byContradiction fun hn => ?_
    obtain ⟨K, hK⟩ := k2 hn
    obtain ⟨p, hp⟩ := h K
    rw [hK K (Nat.le_refl _)] at hp
    cases hp
  · obtain ⟨v, K, -, hK⟩ := k1 h
    intro n
    rcases Nat.le_total K n with hn | hn
    · exact ⟨_, hK n hn⟩
    · obtain ⟨d, rfl⟩ := Nat.exists_eq_add_of_le hn
      have := hK (n + d) (Nat.le_refl _)
      unfold driveN at this ⊢
      rw [List.range_add, List.map_append, drive_append] at this
      obtain ⟨p, hp, -⟩ := M.bind_eq_ok.mp this
      exact ⟨p, hp⟩

/-! ## The example DemoBasic -/

theorem demo_fits0 (n : Nat) (hn : 32 ≤ n) (time : List Event → Str) : (after (demo n time) demoSetup).Fits (demo n time) 0 := by
  obtain ⟨-, -, -, -, -, fits, -⟩ := demo_fits n hn time
  exact ⟨fits.files, fun m hm => by have := fits.paths m hm; omega, Nat.zero_le _⟩

/-- DemoBasic with keys of any kind other than TAB and any timing: as specified, or an overflow of the path buffer; which of both can be read off the keys. -/
theorem C68_demo (n : Nat) (hn : 32 ≤ n) (time : List Event → Str) (inBuf outBuf : List UInt8) (h1 : inBuf.length = n) (h2 : outBuf.length = n) (cs : List UInt8)
    (ht : cTab ∉ cs) (f : Nat → Slot) (hf : Fair f) :
    ∃ u, run (demo n time) (blank inBuf outBuf) (steps demoSetup) = .ok u ∧
      ((Term.start (demo n time) demoSetup).NearAll (demo n time) (demoApp time) cs →
        ∃ v K, Shell (demo n time) ((Term.start (demo n time) demoSetup).keys (demo n time) (demoApp time) cs) v ∧ ∀ k ≥ K, driveN (demo n time) f u cs k = .ok (v, [])) ∧
      (¬ (Term.start (demo n time) demoSetup).NearAll (demo n time) (demoApp time) cs → ∃ K, ∀ k ≥ K, driveN (demo n time) f u cs k = .error .oob) := by
  obtain ⟨hc, cfg, room, hv, ok, -, -⟩ := demo_fits n hn time
  have tabs : ∀ (cs : List UInt8) (t : Term), cTab ∉ cs → t.TabsFit (demo n time) (demoApp time) cs := by
    intro cs
    induction cs with
    | nil => intro t _; trivial
    | cons c cs ih => exact fun t h => ⟨fun hc => absurd (by simp [hc]) h, fun _ => ih _ fun h' => h (by simp [h'])⟩
  exact C68_life (demo n time) hc cfg room (demoApp time) (demo_describes n time) inBuf outBuf h1 h2 demoSetup hv ok (demo_fits0 n hn time) (demo_tame n time) cs
    (tabs cs _ ht) f hf

instance (E : Env) (W : World) (b : Builtin) (as : List Str) : Decidable (W.ArgsNear E b as) := by
  unfold World.ArgsNear
  split <;> infer_instance

instance (E : Env) (W : World) (argv : List Str) : Decidable (W.LineNear E argv) := by
  unfold World.LineNear
  split
  · infer_instance
  · refine @instDecidableAnd _ _ _ ?_
    split <;> infer_instance

instance (E : Env) (t : Term) (c : UInt8) : Decidable (t.Near E c) := by
  unfold Term.Near
  infer_instance

instance decNearAll (E : Env) (A : App) : (cs : List UInt8) → (t : Term) → Decidable (t.NearAll E A cs)
  | [], _ => isTrue trivial
  | c :: cs, t => by unfold Term.NearAll; have := decNearAll E A cs (t.key E A c); infer_instance

/-- On the small boards (32 bytes), after `cd dev`: a line of 26 letters is a syntax error, one of 27 letters an overflow.  The argument of the built-in command
`ls` counts in the same way, that of the application's `toggle` does not. -/
example : (Term.start (demo 32 clock) demoSetup).NearAll (demo 32 clock) (demoApp clock) (b!"cd dev\n" ++ List.replicate 26 120 ++ b!"\n") ∧
    ¬ (Term.start (demo 32 clock) demoSetup).NearAll (demo 32 clock) (demoApp clock) (b!"cd dev\n" ++ List.replicate 27 120 ++ b!"\n") ∧
    (Term.start (demo 32 clock) demoSetup).NearAll (demo 32 clock) (demoApp clock) (b!"cd bin\nls xxxxxxxxxxxxxxxxxxxxxxxxxx\n") ∧
    ¬ (Term.start (demo 32 clock) demoSetup).NearAll (demo 32 clock) (demoApp clock) (b!"cd bin\nls xxxxxxxxxxxxxxxxxxxxxxxxxxx\n") ∧
    (Term.start (demo 32 clock) demoSetup).NearAll (demo 32 clock) (demoApp clock) (b!"cd bin\ntoggle xxxxxxxxxxxxxxxxxxxxxxx\n") := by
  refine ⟨?_, ?_, ?_, ?_, ?_⟩ <;> decide +kernel

/-- With input in even and output in odd calls. -/
example : ∃ u K, run (demo 32 clock) (blank (List.replicate 32 0) (List.replicate 32 0)) (steps demoSetup) = .ok u ∧
    ∀ k ≥ K, driveN (demo 32 clock) (fun n => if n % 2 = 0 then ⟨true, false⟩ else ⟨false, true⟩) u (b!"cd dev\n" ++ List.replicate 27 120 ++ b!"\n") k = .error .oob := by
  obtain ⟨u, e, -, h⟩ := C68_demo 32 (by decide) clock (List.replicate 32 0) (List.replicate 32 0) rfl rfl (b!"cd dev\n" ++ List.replicate 27 120 ++ b!"\n") (by decide)
    (fun n => if n % 2 = 0 then ⟨true, false⟩ else ⟨false, true⟩)
    ⟨fun n => ⟨2 * n, by omega, by simp⟩, fun n => ⟨2 * n + 1, by omega, by simp [show (2 * n + 1) % 2 = 1 by omega]⟩⟩
  obtain ⟨K, hK⟩ := h (by decide +kernel)
  exact ⟨u, K, e, hK⟩

end Ush.Props
