import Verif.Spec.AppsHost
import Verif.Props.Moment
import Verif.Props.Rows
/-!
# C76 Any application, with the hostname of the moment
-/
namespace Ush.Props
open Ush Spec

section
variable {E : Env} {A : App} {host : Host} {h : Str}

theorem hooked_named (t : Term) (c : UInt8) : t.hooked (E.named h) A c = t.hooked E A c := run_talk _ _

theorem lineNear_named (W : World) (argv : List Str) : W.LineNear (E.named h) argv ↔ W.LineNear E argv := by
  cases argv with
  | nil => exact Iff.rfl
  | cons a as =>
    show (W.Near (E.named h) a ∧ _) ↔ (W.Near E a ∧ _)
    refine and_congr Iff.rfl ?_
    split
    · rename_i b _
      show W.ArgsNear (E.named h) b as ↔ W.ArgsNear E b as
      unfold World.ArgsNear
      simp only [catNear_named]
      rfl
    · exact Iff.rfl

theorem nearApp_named (t : Term) (c : UInt8) (h : Str) : t.NearApp (E.named h) A c ↔ t.NearApp E A c := by
  unfold Term.NearApp Term.prepared
  rw [hooked_named]
  split
  · exact Iff.rfl
  · split
    · exact and_congr Iff.rfl (and_congr (lineNear_named _ _) Iff.rfl)
    · exact Iff.rfl

theorem Sound_named (W : World) : W.Sound (E.named h) ↔ W.Sound E := ⟨fun H => ⟨(ok_named W).mp H.ok, H.proper⟩, fun H => ⟨(ok_named W).mpr H.ok, H.proper⟩⟩

theorem civil_named (T : Talk) (cs : List Call) : T.Civil (E.named h) cs ↔ T.Civil E cs := by
  unfold Talk.Civil
  rw [valid_talk, run_talk, Sound_named]

theorem fileCivil_named (T : Talk) (l : List Event) (f : FileDesc) (argv : List Str) : fileCivil (E.named h) A T l f argv ↔ fileCivil E A T l f argv := by
  unfold fileCivil
  split
  · exact civil_named _ _
  · simp only [civil_named]
  · exact Iff.rfl

theorem appOk_named (t : Term) (c : UInt8) (h : Str) : t.AppOk (E.named h) A c ↔ t.AppOk E A c := by
  unfold Term.AppOk Term.prepared
  rw [hooked_named]
  split
  · exact Iff.rfl
  · split
    · show (∀ name as, t.argv E = name :: as → _) ↔ _
      simp only [civil_named, fileCivil_named]
      exact Iff.rfl
    · exact Iff.rfl

theorem step_named (T : Talk) (c : Call) : T.step (E.named h) c = T.step E c := by cases c <;> rfl

theorem call_world (t : Term) (c : Call) : (t.call (E.named h) c).world = (t.call E c).world := by
  cases c <;> rfl

theorem call_alike (t : Term) (c : Call) : Alike (t.call (E.named h) c).log (t.call E c).log := by
  unfold Term.call
  split
  · exact .refl _
  · rw [step_named]
    exact (tells_alike _ _).left _

theorem callOk_named (t : Term) (c : Call) : t.CallOk (E.named h) c ↔ t.CallOk E c := by
  unfold Term.CallOk
  rw [call_world, ok_named]
  have := valid_talk (E := E) (h := h) [c] (Talk.mk t.world [] (.text [] false))
  simp only [Talk.ValidRun, and_true] at this
  rw [this]

theorem call_dynamic (cfg : Config E) (hA : A.Describes E) (hp : NoPrompt E) (hh : host.Ok) {t : Term} {u : Ush} (H : Shell E t u) (c : Call) (ok : t.CallOk E c) :
    ∃ v w, runApis E u c.apis = .ok v ∧ StepsH E host v [] w [] ∧ Shell E (t.callH E host c) w := by
  obtain ⟨v, w, e, ⟨n, s⟩, H'⟩ := call_sim_term (E := E.named (host (t.call E c).log)) (Config.named cfg (hh.text _)) (show 0 < E.inSize from Nat.zero_lt_of_lt (shows_lt H.waiting.shows H.waiting.sized))
    (Shell.named H _) c ((callOk_named t c).mpr ok)
  rw [runApis_named] at e
  have hl : host w.log = host (t.call E c).log := by rw [H'.log]; exact (call_alike t c).host hh
  rw [← hl] at s
  have off : Off v := runApis_on outside_line _ (On.of (by rw [H.waiting.shows.state]; rfl) (by rw [H.waiting.shows.state]; simp))
    (fun a ha => calls_on [c] a (by simpa using ha)) e
  exact ⟨v, w, e, ⟨n, chain_dynamic (hA.off hp) hh n off.aims H'.waiting.shows.state s⟩, Shell.unnamed H'⟩

end

section
variable (E : Env) (cfg : Config E) (A : App) (hA : A.Describes E) (hg : ∀ id l, (A.get id l).length ≤ 16 ^ 8) (hp : NoPrompt E) (host : Host) (hh : host.Ok)
include cfg hA hg hp hh

/-- One key. -/
theorem C76_key (t : Term) (u : Ush) (H : Shell E t u) (hW : t.world.Sound E) (c : UInt8) (ha : t.AppOk E A c) (inp : List UInt8) :
    (t.NearApp E A c → ∃ v, StepsH E host u (c :: inp) v inp ∧ Shell E (t.keyH E host A c) v ∧ (t.keyH E host A c).world.Sound E) ∧
    (¬ t.NearApp E A c → ∃ v, StepsH E host u (c :: inp) v inp ∧ NeverH E host v inp) := by
  refine ⟨fun near => ?_, fun far => ?_⟩
  · obtain ⟨v, s, H'⟩ := C52_key E cfg (Nat.zero_lt_of_lt (shows_lt H.waiting.shows H.waiting.sized)) A hA hp host hh t u H c (civil_key hg hW ha near).1 inp
    exact ⟨v, s, H', (Sound_named _).mp (civil_key (E := E.named (host.after E A t c)) hg ((Sound_named _).mpr hW) ((appOk_named _ _ _).mpr ha) ((nearApp_named _ _ _).mpr near)).2⟩
  · exact never_dynamic (hA.off hp) hh H.waiting.shows.state fun h hn =>
      civil_far (E := E.named h) (Config.named cfg hn) (Describes.named hA h) (Shell.named H h) ((appOk_named _ _ _).mpr ha) (fun near => far ((nearApp_named _ _ _).mp near)) inp

/-- All keys. -/
theorem C76_keys (cs : List UInt8) : ∀ (t : Term) (u : Ush), Shell E t u → t.world.Sound E → t.AppAllH E host A cs →
    (t.NearAppAllH E host A cs → ∃ v, StepsH E host u cs v [] ∧ Shell E (t.keysH E host A cs) v) ∧
    (¬ t.NearAppAllH E host A cs → ∃ v r, StepsH E host u cs v r ∧ NeverH E host v r) := by
  induction cs with
  | nil => intro t u H hW _; exact ⟨fun _ => ⟨u, ⟨0, rfl⟩, H⟩, fun h => absurd trivial h⟩
  | cons c cs ih =>
    intro t u H hW ha
    obtain ⟨k1, k2⟩ := C76_key E cfg A hA hg hp host hh t u H hW c ha.1 cs
    by_cases near : t.NearApp E A c
    · obtain ⟨v, s, H', hW'⟩ := k1 near
      obtain ⟨i1, i2⟩ := ih _ v H' hW' (ha.2 near)
      refine ⟨fun h => ?_, fun h => ?_⟩
      · obtain ⟨w, s', r⟩ := i1 h.2
        exact ⟨w, s.trans s', r⟩
      · obtain ⟨w, r, s', h'⟩ := i2 (fun h' => h ⟨near, h'⟩)
        exact ⟨w, r, s.trans s', h'⟩
    · refine ⟨fun h => absurd h.1 near, fun _ => ?_⟩
      obtain ⟨v, s, h⟩ := k2 near
      exact ⟨v, cs, s, h⟩

/-- Keys, and calls of the application at the prompt.  The only things that can be wrong then are keys. -/
theorem C76_items (is : List Item) : ∀ (t : Term) (u : Ush), Shell E t u → t.world.Sound E → t.AppItemsH E host A is →
    (t.NearItemsH E host A is → ∃ v, playsH E host u v is ∧ Shell E (t.itemsH E host A is) v) ∧
    (¬ t.NearItemsH E host A is → ∃ pre c post v w, is = pre ++ .key c :: post ∧ playsH E host u v pre ∧ Shell E (t.itemsH E host A pre) v ∧ StepsH E host v [c] w [] ∧
      NeverH E host w []) := by
  induction is with
  | nil => intro t u H hW _; exact ⟨fun _ => ⟨u, rfl, H⟩, fun h => absurd trivial h⟩
  | cons i is ih =>
    intro t u H hW ha
    by_cases near : t.NearItem E A i
    · have key : ∃ v, Shell E (t.itemH E host A i) v ∧ (t.itemH E host A i).world.Sound E ∧ ∀ js w, playsH E host v w js → playsH E host u w (i :: js) := by
        cases i with
        | key c =>
          obtain ⟨v, s, H', hW'⟩ := (C76_key E cfg A hA hg hp host hh t u H hW c ha.1 []).1 near
          exact ⟨v, H', hW', fun js w h => ⟨v, s, H'.waiting.shows.state, h⟩⟩
        | call c =>
          obtain ⟨v, w, e, s, H'⟩ := call_dynamic cfg hA hp hh H c ha.1.1
          refine ⟨w, H', ?_, fun js x h => ⟨v, w, e, s, H'.waiting.shows.state, h⟩⟩
          show (t.call (E.named _) c).world.Sound E
          rw [call_world]
          exact ha.1.2
      obtain ⟨v, H', hW', hpl⟩ := key
      obtain ⟨i1, i2⟩ := ih _ v H' hW' (ha.2 near)
      refine ⟨fun h => ?_, fun h => ?_⟩
      · obtain ⟨w, s', r⟩ := i1 h.2
        exact ⟨w, hpl _ _ s', r⟩
      · obtain ⟨pre, c, post, x, w, rfl, p1, p2, p3⟩ := i2 (fun h' => h ⟨near, h'⟩)
        exact ⟨i :: pre, c, post, x, w, rfl, hpl _ _ p1, p2, p3⟩
    · refine ⟨fun h => absurd h.1 near, fun _ => ?_⟩
      cases i with
      | key c =>
        obtain ⟨v, s, h⟩ := (C76_key E cfg A hA hg hp host hh t u H hW c ha.1 []).2 near
        exact ⟨[], c, is, u, v, rfl, rfl, H, s, h⟩
      | call _ => exact absurd trivial near

/-- From `ush_init` on, for every fair timing of the terminal. -/
theorem C76_life (hc : CfgOk E) (inBuf outBuf : List UInt8) (h1 : inBuf.length = E.inSize) (h2 : outBuf.length = E.outSize) (os : List FsOp)
    (hv : (initWorld E).ValidRun E os) (hW : (after E os).Sound E) (cs : List UInt8) (ha : (Term.startH E host os).AppAllH E host A cs) (f : Nat → Slot) (hf : Fair f) :
    ∃ u, run E (blank inBuf outBuf) (steps os) = .ok u ∧
      ((Term.startH E host os).NearAppAllH E host A cs → ∃ v K, Shell E ((Term.startH E host os).keysH E host A cs) v ∧ ∀ n ≥ K, driveNH E host f u cs n = .ok (v, [])) ∧
      (¬ (Term.startH E host os).NearAppAllH E host A cs → ∃ K, ∀ n ≥ K, ∀ v r, driveNH E host f u cs n = .ok (v, r) → v.state ≠ .readChar) := by
  obtain ⟨u, v, e, s, H⟩ := C52_started E hc cfg A hA hp host hh inBuf outBuf h1 h2 os hv hW.ok cs
  obtain ⟨k1, k2⟩ := C76_keys E cfg A hA hg hp host hh cs (Term.startH E host os) v H hW ha
  refine ⟨u, e, fun h => ?_, fun h => ?_⟩
  · obtain ⟨w, s', H'⟩ := k1 h
    obtain ⟨N, hN⟩ := fairH_reaches E host f hf u cs w (s.trans s') ⟨H'.waiting.shows.state, rfl⟩ H'.waiting.current
    exact ⟨w, N, H', hN⟩
  · obtain ⟨w, r, s', h'⟩ := k2 h
    obtain ⟨N, hN⟩ := fairH_never f hf (s.trans s') h'
    exact ⟨N, fun n hn v r e => (hN n hn v r e).1⟩

omit cfg hA hg hp hh in
theorem keeps_named {P : World → Prop} (K : A.Keeps E P) (h : Str) : A.Keeps (E.named h) P where
  sound W hW := (Sound_named W).mpr (K.sound W hW)
  flat := K.flat
  files := K.files
  dirs := K.dirs
  cd := K.cd
  hook W hW c l argv := by simp only [valid_talk, run_talk]; exact K.hook W hW c l argv
  exec W hW c l argv id l' argv' := by simp only [valid_talk, run_talk]; exact K.exec W hW c l argv id l' argv'
  set W hW c l argv id l' d := by simp only [valid_talk, run_talk]; exact K.set W hW c l argv id l' d

omit cfg hA hg hp hh in
theorem keeps_allH {P : World → Prop} (K : A.Keeps E P) (cs : List UInt8) : ∀ t : Term, P t.world → t.AppAllH E host A cs := by
  induction cs with
  | nil => intros; trivial
  | cons c cs ih =>
    intro t h
    exact ⟨(keeps_key K h c).1, fun _ => ih _ (keeps_key (keeps_named E A K _) h c).2⟩

omit cfg hA hg hp hh in
theorem keeps_itemsH {P : World → Prop} (K : A.Keeps E P) (is : List Item) (hc : ∀ t : Term, P t.world → ∀ c, Item.call c ∈ is → t.CallOk E c ∧ P (t.call E c).world) :
    ∀ t : Term, P t.world → t.AppItemsH E host A is := by
  induction is with
  | nil => intros; trivial
  | cons i is ih =>
    intro t h
    have ih := ih fun t h c hm => hc t h c (List.mem_cons_of_mem _ hm)
    cases i with
    | key c => exact ⟨(keeps_key K h c).1, fun _ => ih _ (keeps_key (keeps_named E A K _) h c).2⟩
    | call c =>
      obtain ⟨h1, h2⟩ := hc t h c (List.mem_cons_self ..)
      refine ⟨⟨h1, K.sound _ h2⟩, fun _ => ih _ ?_⟩
      show P (t.call (E.named _) c).world
      rw [call_world]
      exact h2

/-- An application that always keeps the rules: with any keys and any fair timing the shell survives exactly if there is room. -/
theorem C76_keeps (P : World → Prop) (K : A.Keeps E P) (hc : CfgOk E) (inBuf outBuf : List UInt8) (h1 : inBuf.length = E.inSize) (h2 : outBuf.length = E.outSize) (os : List FsOp)
    (hv : (initWorld E).ValidRun E os) (hP : P (after E os)) (cs : List UInt8) (f : Nat → Slot) (hf : Fair f) :
    ∃ u, run E (blank inBuf outBuf) (steps os) = .ok u ∧
      ((∀ K, ∃ n ≥ K, ∃ v r, driveNH E host f u cs n = .ok (v, r) ∧ v.state = .readChar) ↔ (Term.startH E host os).NearAppAllH E host A cs) := by
  obtain ⟨u, e, k1, k2⟩ := C76_life E cfg A hA hg hp host hh hc inBuf outBuf h1 h2 os hv (K.sound _ hP) cs (keeps_allH E A host K cs _ hP) f hf
  refine ⟨u, e, fun h => ?_, fun h K => ?_⟩
  · refine Classical.byContradiction fun hn => ?_
    obtain ⟨K, hK⟩ := k2 hn
    obtain ⟨n, hn, v, r, e, hs⟩ := h K
    exact hK n hn v r e hs
  · obtain ⟨v, N, H, hN⟩ := k1 h
    exact ⟨max K N, Nat.le_max_left _ _, v, [], hN _ (Nat.le_max_right _ _), H.waiting.shows.state⟩

end

/-! ## The device of C73 with a hostname that says whether it is plugged in -/

/-- The last of the commands `plug` and `unplug` that has been called. -/
def plugState (l : List Event) : Str :=
  l.foldl (fun s e => match e with
    | .exec (.user 1) _ => b!"in"
    | .exec (.user 2) _ => b!"out"
    | _ => s) b!"new"

theorem plugState_cases (l : List Event) : plugState l ∈ [b!"new", b!"in", b!"out"] := by
  unfold plugState
  have h : ∀ s ∈ [b!"new", b!"in", b!"out"], l.foldl (fun s e => match e with
    | .exec (.user 1) _ => b!"in"
    | .exec (.user 2) _ => b!"out"
    | _ => s) s ∈ [b!"new", b!"in", b!"out"] := by
    induction l with
    | nil => exact fun _ h => h
    | cons e l ih =>
      intro s h
      rw [List.foldl_cons]
      apply ih
      split
      · decide
      · decide
      · exact h
  exact h _ (by decide)

theorem plugHost : Host.Ok plugState :=
  ⟨fun l => (by decide : ∀ s ∈ [b!"new", b!"in", b!"out"], cNul ∉ s) _ (plugState_cases l), fun l c => by simp [plugState]⟩

theorem plugNoPrompt : NoPrompt plugE := by intro id u s h; cases h

instance decNearAppAllH (E : Env) (host : Host) (A : App) : (cs : List UInt8) → (t : Term) → Decidable (t.NearAppAllH E host A cs)
  | [], _ => .isTrue trivial
  | c :: cs, t =>
    have := decNearAppAllH E host A cs (t.keyH E host A c)
    inferInstanceAs (Decidable (t.NearApp E A c ∧ Term.NearAppAllH E host A (t.keyH E host A c) cs))

/-- What is shown, and what is too long. -/
theorem plugNearH : (Term.startH plugE plugState plugHist).NearAppAllH plugE plugState plugApp (b!"plug\ncd x\n/unplug\n") ∧
    shown ((Term.startH plugE plugState plugHist).keysH plugE plugState plugApp (b!"plug\ncd x\n/unplug\n")).log =
      b!"uShell 0.1.0\r\n\x1b[35m[new /]$ \x1b[0mplug\nin\r\n\x1b[35m[in /]$ \x1b[0mcd x\n?\x1b[35m[in x]$ \x1b[0m/unplug\nout\r\n\x1b[35m[out x]$ \x1b[0m" ∧
    ¬ (Term.startH plugE plugState plugHist).NearAppAllH plugE plugState plugApp (b!"plug\ncd x\n/unplug\nabcdefghijklmn\n") := by
  refine ⟨?_, ?_, ?_⟩ <;> decide +kernel

instance decNearItemsH (E : Env) (host : Host) (A : App) : (is : List Item) → (t : Term) → Decidable (t.NearItemsH E host A is)
  | [], _ => .isTrue trivial
  | i :: is, t =>
    have := decNearItemsH E host A is (t.itemH E host A i)
    inferInstanceAs (Decidable (t.NearItem E A i ∧ Term.NearItemsH E host A (t.itemH E host A i) is))

/-- The application takes the device away and says so; the hostname stays, since no command has been called. -/
example : (Term.startH plugE plugState plugHist).NearItemsH plugE plugState plugApp (plugItems b!"ls\n") ∧
    ¬ (Term.startH plugE plugState plugHist).NearItemsH plugE plugState plugApp (plugItems b!"abcdefghijklmn\n") ∧
    (shown ((Term.startH plugE plugState plugHist).itemsH plugE plugState plugApp (plugItems [])).log).drop 81 = b!"gone\r\n\x1b[35m[in x]$ \x1b[0m" := by
  refine ⟨?_, ?_, ?_⟩ <;> decide +kernel

theorem plugItemsH_ok (s : Str) (t : Term) (h : t.world ∈ plugWorlds) : t.AppItemsH plugE plugState plugApp (plugItems s) := by
  exact keeps_itemsH plugE plugApp plugState plugKeeps _ (plugItems_calls s) t h

theorem C76_plug (inBuf outBuf : List UInt8) (h1 : inBuf.length = 32) (h2 : outBuf.length = 64) (cs : List UInt8) (f : Nat → Slot) (hf : Fair f) :
    ∃ u, run plugE (blank inBuf outBuf) (steps plugHist) = .ok u ∧
      ((∀ K, ∃ n ≥ K, ∃ v r, driveNH plugE plugState f u cs n = .ok (v, r) ∧ v.state = .readChar) ↔ (Term.startH plugE plugState plugHist).NearAppAllH plugE plugState plugApp cs) :=
  C76_keeps plugE plugConfig plugApp plugDescribes (fun _ _ => Nat.le_of_ble_eq_true rfl) plugNoPrompt plugState plugHost _ plugKeeps
    ⟨by decide, by decide, by decide, by decide, by decide⟩ inBuf outBuf h1 h2 plugHist (by decide) (by decide) cs f hf

end Ush.Props
