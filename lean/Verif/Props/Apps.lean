import Verif.Proof.Apps
import Verif.Props.Moment
/-!
# Claim C73: the keyboard against any application

C69 decides which keys the shell survives for applications that leave the directories alone and have no general hook that matters.  Here the application is any one: its hook
and its callbacks print, mount, unmount, add and remove commands, change the directory.  What is asked of it is asked in `Term.AppOk`; what is left to the keys is `Term.NearApp`.
-/
namespace Ush.Props
open Spec

section
variable (E : Env) (cfg : Config E) (A : App) (hA : A.Describes E) (hg : ∀ id l, (A.get id l).length ≤ 16 ^ 8)
include hg

omit hg in
/-- In a configuration with room for the names all rows fit.  Then the part of the keys is that there is room for what is typed. -/
theorem C73_shows (room : Roomy E) (W : World) (L : Nat) (fit : W.Fits E L) (l : List Event) (argv : List Str) : lineShows E A W l argv := by
  have hf : ∀ m ∈ W.dirs, lsFits E m := fun m hm g hg =>
    ⟨by have := room.offset; omega, (fit.files g (List.mem_append_right _ (List.mem_flatMap.mpr ⟨m, hm, hg⟩))).2⟩
  rcases argv with _ | ⟨name, as⟩
  · trivial
  · unfold lineShows
    simp only
    split
    · unfold builtinShows
      split
      · exact fun g hg => (fit.files g (List.mem_append_left _ hg)).2
      · exact fun m hm => hf m (mem_dirs.mpr (.inr hm))
      · exact fun m hm => hf m (mem_dirs_of_tree (findText_mem hm))
      · exact fun id _ => ⟨room.offset, room.hex, .inl room.cols⟩
      · trivial
    · trivial

omit hg in
/-- Without calls in the hook, it is that of C68 and C69. -/
theorem C73_near (room : Roomy E) (t : Term) (L : Nat) (fit : t.world.Fits E L) (c : UInt8) (h : t.enters c = true → A.hook (t.entered c) (t.argv E) = []) :
    t.NearApp E A c ↔ t.Near E c := by
  unfold Term.NearApp Term.Near
  split
  · exact Iff.rfl
  · unfold Term.enters at h ⊢
    split
    · next h3 =>
      unfold Term.hooked
      rw [h h3]
      exact ⟨fun h => h.2.1, fun h => ⟨room.inSize, h, C73_shows E A room t.world L fit _ _⟩⟩
    · exact Iff.rfl

/-- If the application keeps its part, what the terminal of C38 asks for is exactly the part of the keys. -/
theorem C73_split (t : Term) (c : UInt8) (hW : t.world.Sound E) (ha : t.AppOk E A c) : t.Ok E A c ↔ t.NearApp E A c :=
  ⟨ok_near, fun h => (civil_key hg hW ha h).1⟩

include cfg hA

/-- The shell waits for a key.  If there is room for all of the keys, then it does what the specified terminal does and waits again.  Otherwise there comes a point where it
never waits for a key again. -/
theorem C73_keys (cs : List UInt8) (t : Term) (u : Ush) (H : Shell E t u) (hW : t.world.Sound E) (ha : t.AppAll E A cs) :
    (t.NearAppAll E A cs → ∃ v, Steps E u cs v [] ∧ Shell E (t.keys E A cs) v ∧ (t.keys E A cs).world.Sound E) ∧
    (¬ t.NearAppAll E A cs → ∃ v r, Steps E u cs v r ∧ Never E v r) :=
  civil_keys cfg hA hg cs t u H hW ha

/-- The same with calls of the application at the prompt in between.  The only things that can be wrong then are keys. -/
theorem C73_items (is : List Item) (t : Term) (u : Ush) (H : Shell E t u) (hW : t.world.Sound E) (ha : t.AppItems E A is) :
    (t.NearItems E A is → ∃ v, plays E u v is ∧ Shell E (t.items E A is) v) ∧
    (¬ t.NearItems E A is → ∃ pre c post v w, is = pre ++ .key c :: post ∧ plays E u v pre ∧ Shell E (t.items E A pre) v ∧ Steps E v [c] w [] ∧ Never E w []) :=
  civil_items cfg hA hg is t u H hW ha

/-- From `ush_init` on, for every fair timing of the terminal. -/
theorem C73_life (hc : CfgOk E) (inBuf outBuf : List UInt8) (h1 : inBuf.length = E.inSize) (h2 : outBuf.length = E.outSize) (os : List FsOp)
    (hv : (initWorld E).ValidRun E os) (hW : (after E os).Sound E) (cs : List UInt8) (ha : (Term.start E os).AppAll E A cs) (f : Nat → Slot) (hf : Fair f) :
    ∃ u, run E (blank inBuf outBuf) (steps os) = .ok u ∧
      ((Term.start E os).NearAppAll E A cs → ∃ v K, Shell E ((Term.start E os).keys E A cs) v ∧ ∀ n ≥ K, driveN E f u cs n = .ok (v, [])) ∧
      (¬ (Term.start E os).NearAppAll E A cs → ∃ K, ∀ n ≥ K, ∀ v r, driveN E f u cs n = .ok (v, r) → v.state ≠ .readChar) := by
  obtain ⟨u, v, e, s, H, l⟩ := C38_startup E hc cfg inBuf outBuf h1 h2 os hv hW.ok cs
  obtain ⟨k1, k2⟩ := civil_keys cfg hA hg cs (Term.start E os) v ⟨H, l⟩ hW ha
  refine ⟨u, e, fun h => ?_, fun h => ?_⟩
  · obtain ⟨w, s', H', -⟩ := k1 h
    obtain ⟨N, hN⟩ := C20_fair E u w cs (s.trans s') ⟨H'.waiting.shows.state, rfl⟩ H'.waiting.current f hf
    exact ⟨w, N, H', hN⟩
  · obtain ⟨w, r, s', h'⟩ := k2 h
    obtain ⟨N, hN⟩ := fair_never f hf (s.trans s') h'
    exact ⟨N, fun n hn v r e => (hN n hn v r e).1⟩

/-- With other words: the shell survives the keys exactly if there is room for them. -/
theorem C73_alive (hc : CfgOk E) (inBuf outBuf : List UInt8) (h1 : inBuf.length = E.inSize) (h2 : outBuf.length = E.outSize) (os : List FsOp)
    (hv : (initWorld E).ValidRun E os) (hW : (after E os).Sound E) (cs : List UInt8) (ha : (Term.start E os).AppAll E A cs) (f : Nat → Slot) (hf : Fair f) :
    ∃ u, run E (blank inBuf outBuf) (steps os) = .ok u ∧
      ((∀ K, ∃ n ≥ K, ∃ v r, driveN E f u cs n = .ok (v, r) ∧ v.state = .readChar) ↔ (Term.start E os).NearAppAll E A cs) := by
  obtain ⟨u, e, k1, k2⟩ := C73_life E cfg A hA hg hc inBuf outBuf h1 h2 os hv hW cs ha f hf
  refine ⟨u, e, fun h => ?_, fun h K => ?_⟩
  · refine Classical.byContradiction fun hn => ?_
    obtain ⟨K, hK⟩ := k2 hn
    obtain ⟨n, hn, v, r, e, hs⟩ := h K
    exact hK n hn v r e hs
  · obtain ⟨v, N, H, hN⟩ := k1 h
    exact ⟨max K N, Nat.le_max_left _ _, v, [], hN _ (Nat.le_max_right _ _), H.waiting.shows.state⟩

/-- The same for an application that keeps the rules at the prompt, too. -/
theorem C73_keeps_items (P : World → Prop) (K : A.Keeps E P) (is : List Item) (hi : ∀ t : Term, P t.world → ∀ c, Item.call c ∈ is → t.CallOk E c ∧ P (t.call E c).world)
    (t : Term) (u : Ush) (H : Shell E t u) (hP : P t.world) :
    (t.NearItems E A is → ∃ v, plays E u v is ∧ Shell E (t.items E A is) v) ∧
    (¬ t.NearItems E A is → ∃ pre c post v w, is = pre ++ .key c :: post ∧ plays E u v pre ∧ Shell E (t.items E A pre) v ∧ Steps E v [c] w [] ∧ Never E w []) :=
  C73_items E cfg A hA hg is t u H (K.sound _ hP) (keeps_items K is hi t hP)

/-- An application that always keeps the rules, all keys. -/
theorem C73_keeps (P : World → Prop) (K : A.Keeps E P) (hc : CfgOk E) (inBuf outBuf : List UInt8) (h1 : inBuf.length = E.inSize) (h2 : outBuf.length = E.outSize) (os : List FsOp)
    (hv : (initWorld E).ValidRun E os) (hP : P (after E os)) (cs : List UInt8) (f : Nat → Slot) (hf : Fair f) :
    ∃ u, run E (blank inBuf outBuf) (steps os) = .ok u ∧
      ((∀ K, ∃ n ≥ K, ∃ v r, driveN E f u cs n = .ok (v, r) ∧ v.state = .readChar) ↔ (Term.start E os).NearAppAll E A cs) :=
  C73_alive E cfg A hA hg hc inBuf outBuf h1 h2 os hv (K.sound _ hP) cs (keeps_all K cs _ hP) f hf

end

/-! ## An example: a device that is plugged in and out

Command `plug` mounts the directory `/x` (after taking away the one that may be there), `unplug` takes it away, also under the feet of somebody who is in it.  The general hook
prints `?` before each line is answered.  The paths are short, the line is long. -/

def plugFile : FileDesc := { name := b!"temp", getData := some 1, setData := some 1 }

def plugCalls : Nat → List Call
  | 1 => [.fs (.unmount b!"/x"), .fs (.mount [b!"x"] 2 [plugFile]), .print b!"in"]
  | 2 => [.fs (.unmount b!"/x"), .print b!"out"]
  | _ => []

def plugE : Env := { sE with pathMax := 16, userExec := fun id _ _ => (plugCalls id).flatMap Call.apis, userGet := fun _ _ => some b!"21" }

def plugApp : App where
  hook _ _ := [.printf b!"?"]
  exec id _ _ := plugCalls id
  get _ _ := b!"21"

def plugHist : List FsOp := [.mount [] 1 [{ name := b!"plug", exec := some (.user 1) }, { name := b!"unplug", exec := some (.user 2) }]]

abbrev plugW : World := after plugE plugHist

deriving instance DecidableEq for Mount, Group, World

/-- The four situations: plugged or not, at the root or in `/x`. -/
def plugWorlds : List World :=
  let o := (plugW.step (.mount [b!"x"] 2 [plugFile])).1
  [plugW, o, { plugW with cwd := some ⟨[b!"x"], 2, [plugFile]⟩ }, { o with cwd := some ⟨[b!"x"], 2, [plugFile]⟩ }]

theorem plugDescribes : plugApp.Describes plugE :=
  ⟨fun _ _ _ _ => rfl, fun _ _ _ _ _ => rfl, fun _ _ _ _ => rfl, fun _ _ _ _ _ => rfl⟩

theorem plugConfig : Config plugE := ⟨by decide, ⟨by decide, by decide, by decide, by decide, by decide, statusString_nul _ (by decide)⟩⟩

theorem plugRoomy : Roomy plugE := ⟨by decide, by decide, by decide, by decide⟩

theorem plugFits : ∀ W ∈ plugWorlds, W.Fits plugE 0 := by decide

theorem plugEcho (c : UInt8) : enterEcho c = [cCr, cLf] ∨ enterEcho c = [c] := by
  unfold enterEcho; split
  · exact .inl rfl
  · exact .inr rfl

theorem plugKeeps : plugApp.Keeps plugE (· ∈ plugWorlds) where
  sound W h := by
    have k1 : ∀ W ∈ plugWorlds, W.Ok plugE := by decide
    exact ⟨k1 W h, fun f hf => ((plugFits W h).files f hf).1⟩
  flat W h := by
    have k : ∀ W ∈ plugWorlds, W.Usual [] := by unfold World.Usual; decide
    exact C69_flat W (k W h)
  files := by decide
  dirs := by decide
  cd := by decide
  hook W h c l argv := by
    refine ⟨⟨⟨by decide, ?_⟩, trivial⟩, h⟩
    show (enterEcho c).length + 1 < 64
    rcases plugEcho c with e | e <;> rw [e] <;> simp
  exec W h c l argv id l' argv' := by
    have k : ∀ W ∈ plugWorlds, ∀ id ∈ [1, 2], (⟨W, [], .buf 0⟩ : Talk).ValidRun plugE (plugCalls id) ∧ ((⟨W, [], .buf 0⟩ : Talk).run plugE (plugCalls id)).1.world ∈ plugWorlds := by decide
    by_cases h1 : id = 1
    · subst h1
      exact k W h 1 (by decide)
    · by_cases h2 : id = 2
      · subst h2
        exact k W h 2 (by decide)
      · have e : plugCalls id = [] := by unfold plugCalls; split <;> first | rfl | contradiction
        show Talk.ValidRun plugE _ (plugCalls id) ∧ (Talk.run plugE _ (plugCalls id)).1.world ∈ plugWorlds
        rw [e]
        exact ⟨trivial, h⟩
  set W h c l argv id l' d := ⟨trivial, h⟩

instance (p : Option α) (P : α → Prop) [∀ a, Decidable (P a)] : Decidable (∀ a, p = some a → P a) :=
  match p with
  | none => .isTrue nofun
  | some a => if h : P a then .isTrue fun _ e => Option.some.inj e ▸ h else .isFalse fun h' => h (h' a rfl)

instance (E : Env) (A : App) (W : World) (l : List Event) (b : Builtin) (as : List Str) : Decidable (builtinShows E A W l b as) := by
  unfold builtinShows; split <;> infer_instance

instance (E : Env) (A : App) (W : World) (l : List Event) (argv : List Str) : Decidable (lineShows E A W l argv) := by
  unfold lineShows; split
  · infer_instance
  · split <;> infer_instance

instance (E : Env) (A : App) (t : Term) (c : UInt8) : Decidable (t.NearApp E A c) := by
  unfold Term.NearApp; infer_instance

instance decNearAppAll (E : Env) (A : App) : (cs : List UInt8) → (t : Term) → Decidable (t.NearAppAll E A cs)
  | [], _ => .isTrue trivial
  | c :: cs, t =>
    have := decNearAppAll E A cs (t.key E A c)
    inferInstanceAs (Decidable (t.NearApp E A c ∧ Term.NearAppAll E A (t.key E A c) cs))

/-- The shell survives the first sequence of keys, and not the others: a word of 14 bytes is too long in `/x`, before the device is plugged out and after; at the root it is not. -/
theorem plugNear : (Term.start plugE plugHist).NearAppAll plugE plugApp (b!"plug\ncd x\ncat temp\n/unplug\nls\ncat temp\nplug\ncd /\nabcdefghijklmn\nun\t\n") ∧
    ¬ (Term.start plugE plugHist).NearAppAll plugE plugApp (b!"plug\ncd x\nabcdefghijklmn\n") ∧
    ¬ (Term.start plugE plugHist).NearAppAll plugE plugApp (b!"plug\ncd x\n/unplug\nabcdefghijklmn\n") := by
  refine ⟨?_, ?_, ?_⟩ <;> decide +kernel

/-- With an input buffer of one byte nothing can be entered, but text can be typed and erased. -/
theorem plugOne : (Term.start { plugE with inSize := 1 } plugHist).NearAppAll { plugE with inSize := 1 } plugApp (b!"plug\x08\x7f\x03") ∧
    ¬ (Term.start { plugE with inSize := 1 } plugHist).NearAppAll { plugE with inSize := 1 } plugApp b!"\n" ∧
    ¬ (Term.start { plugE with inSize := 1 } plugHist).NearAppAll { plugE with inSize := 1 } plugApp b!"\t" := by
  refine ⟨?_, ?_, ?_⟩ <;> decide +kernel

/-- `C73_keeps` and the theorems before it hold for the device: with every sequence of keys and every fair timing. -/
theorem C73_plug (inBuf outBuf : List UInt8) (h1 : inBuf.length = 32) (h2 : outBuf.length = 64) (cs : List UInt8) (f : Nat → Slot) (hf : Fair f) :
    ∃ u, run plugE (blank inBuf outBuf) (steps plugHist) = .ok u ∧
      ((∀ K, ∃ n ≥ K, ∃ v r, driveN plugE f u cs n = .ok (v, r) ∧ v.state = .readChar) ↔ (Term.start plugE plugHist).NearAppAll plugE plugApp cs) :=
  C73_keeps plugE plugConfig plugApp plugDescribes (fun _ _ => Nat.le_of_ble_eq_true rfl) _ plugKeeps ⟨by decide, by decide, by decide, by decide, by decide⟩ inBuf outBuf h1 h2 plugHist (by decide) (by decide) cs f hf

instance (E : Env) (A : App) (t : Term) : (i : Item) → Decidable (t.NearItem E A i)
  | .key c => inferInstanceAs (Decidable (t.NearApp E A c))
  | .call _ => .isTrue trivial

instance decNearItems (E : Env) (A : App) : (is : List Item) → (t : Term) → Decidable (t.NearItems E A is)
  | [], _ => .isTrue trivial
  | i :: is, t =>
    have := decNearItems E A is (t.item E A i)
    inferInstanceAs (Decidable (t.NearItem E A i ∧ Term.NearItems E A (t.item E A i) is))

/-- The device is taken away by the application itself while somebody is in its directory. -/
def plugItems (s : Str) : List Item := (b!"plug\ncd x\n").map .key ++ .call (.fs (.unmount b!"/x")) :: .call (.print b!"gone") :: s.map .key

theorem plugItems_near : (Term.start plugE plugHist).NearItems plugE plugApp (plugItems b!"cat temp\ncd /\nabcdefghijklmn\n") ∧
    ¬ (Term.start plugE plugHist).NearItems plugE plugApp (plugItems b!"abcdefghijklmn\n") := by
  refine ⟨?_, ?_⟩ <;> decide +kernel

/-- The hypotheses of `C73_items` and `C73_keeps_items`, with any keys. -/
theorem plugItems_calls (s : Str) (t : Term) (h : t.world ∈ plugWorlds) (c : Call) (hc : Item.call c ∈ plugItems s) : t.CallOk plugE c ∧ (t.call plugE c).world ∈ plugWorlds := by
  have hk : ∀ s : Str, Item.call c ∉ s.map Item.key := fun s h => by simp at h
  rcases List.mem_append.mp hc with hc | hc
  · exact absurd hc (hk _)
  · rcases List.mem_cons.mp hc with e | hc
    · cases e
      have k : ∀ W ∈ plugWorlds, (W.step (.unmount b!"/x")).1 ∈ plugWorlds := by decide
      exact ⟨⟨trivial, ⟨by decide, by decide⟩, (plugKeeps.sound _ (k _ h)).ok⟩, k _ h⟩
    · rcases List.mem_cons.mp hc with e | hc
      · cases e
        exact ⟨⟨trivial, (by decide : cNul ∉ b!"gone"), (plugKeeps.sound _ h).ok⟩, h⟩
      · exact absurd hc (hk _)

theorem plugItems_ok (s : Str) (t : Term) (h : t.world ∈ plugWorlds) : t.AppItems plugE plugApp (plugItems s) :=
  keeps_items plugKeeps _ (plugItems_calls s) t h

end Ush.Props
