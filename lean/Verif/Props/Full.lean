import Verif.Props.Reach
import Verif.Props.Features
import Verif.Proof.Drift
import Mathlib.Data.List.Infix
/-!
# C69 What TAB needs is exact
-/
namespace Ush.Props
open Ush Spec

section
variable {E : Env} {W : World} {u : Ush} {e : Editor}

/-- The directories are the usual ones: see C28. -/
theorem C69_flat (W : World) (h : W.Usual []) : W.Flat := by
  intro x
  rw [offers_eq h (List.nil_prefix), offers_eq h (List.nil_prefix)]
  unfold World.candidates
  have : W.names.filter (fun n => ([] : Str).isPrefixOf n) = W.names := List.filter_eq_self.mpr (fun _ _ => by simp)
  rw [this]
  exact List.length_filter_le _ _

theorem tried_two {w z : Str} (h : z ∈ W.tried E w) : 2 ≤ (W.offers w).length := by
  unfold World.tried at h
  split at h
  · assumption
  · cases h

theorem tried_offers {w z : Str} (h : z ∈ W.tried E w) : 0 < (W.offers z.dropLast).length := by
  unfold World.tried at h
  split at h
  · obtain ⟨y, -, hy⟩ := List.mem_filterMap.mp h
    unfold World.next at hy
    obtain ⟨c, hc, hy⟩ := Option.bind_eq_some_iff.mp hy
    obtain ⟨a, -, rfl⟩ := Option.map_eq_some_iff.mp hy
    rw [List.dropLast_concat]
    exact List.length_pos_of_mem (List.mem_of_getLast? hc)
  · cases h

/-- There is no room: the shell never waits for a key again. -/
theorem tab_never (on : E.autocomplete = true) (H : Waiting E W u e) (hnul : cNul ∉ e.line) (flat : W.Flat)
    (far : ¬ W.TabFits E (tabTarget e.line).1 (tabTarget e.line).2) (inp : List UInt8) : ∃ v, Steps E u (cTab :: inp) v inp ∧ Never E v inp := by
  obtain ⟨v, s, h | ⟨-, z, h2, -, h4⟩⟩ := tab_full on H inp hnul far
  · exact ⟨v, s, never_stuck h inp⟩
  · obtain ⟨w, s', h | h⟩ := h4.lost (flat _) (tried_offers h2) inp
    · exact ⟨w, s.trans s', never_stuck h inp⟩
    · exact ⟨w, s.trans s', h.never inp⟩

/-- ... on every line. -/
theorem line_never (on : E.autocomplete = true) (H : Waiting E W u e) (flat : W.Flat) (far : ¬ W.LineFits E e.line) (inp : List UInt8) :
    ∃ v, Steps E u (cTab :: inp) v inp ∧ Never E v inp := by
  by_cases hnul : cNul ∈ e.line
  · exact press_never on H inp hnul flat far
  · exact tab_never on H hnul flat (fun h => far ((lineFits_plain hnul).mpr h)) inp

end

/-! ## One TAB -/

/-- There is no room for the completion, and the position does not wrap around: the shell comes to a call that reads or writes over the end of a buffer. -/
theorem C69_far (E : Env) (on : E.autocomplete = true) (W : World) (u : Ush) (e : Editor) (H : Waiting E W u e) (hnul : cNul ∉ e.line)
    (far : ¬ W.TabFits E (tabTarget e.line).1 (tabTarget e.line).2) (hw : ¬ W.Wraps E (tabTarget e.line).1 (tabTarget e.line).2) (inp : List UInt8) :
    ∃ v, Steps E u (cTab :: inp) v inp ∧ ∀ io, service E io v = .error .oob := by
  obtain ⟨v, s, h | ⟨h1, z, h2, h3, -⟩⟩ := tab_full on H inp hnul far
  · exact ⟨v, s, h⟩
  · exact absurd ⟨h1, z, h2, h3⟩ hw

/-- There is no room for the completion: whatever the timing of the terminal, no key is read after TAB, and the shell never waits for one.  It comes to a fault, or
goes on for ever. -/
theorem C69_dead (E : Env) (on : E.autocomplete = true) (W : World) (u : Ush) (e : Editor) (H : Waiting E W u e) (hnul : cNul ∉ e.line) (flat : W.Flat)
    (far : ¬ W.TabFits E (tabTarget e.line).1 (tabTarget e.line).2) (inp : List UInt8) (f : Nat → Slot) (n : Nat) (v : Ush) (r : List UInt8)
    (h : driveN E f u (cTab :: inp) n = .ok (v, r)) : r = cTab :: inp ∨ (r = inp ∧ v.state ≠ .readChar) := by
  obtain ⟨w, s, hn⟩ := tab_never on H hnul flat far inp
  obtain ⟨k, -, hk⟩ := drive_chain E _ _ _ _ _ h
  obtain ⟨h1, h2⟩ := Never.before s hn k hk
  have h3 := chain_suffix _ hk
  rcases List.suffix_cons_iff.mp h3 with h4 | h4
  · exact .inl h4
  · have h5 := h4.length_le
    exact .inr ⟨h4.eq_of_length (by omega), h2 (by omega)⟩

/-- TAB is over at some time exactly if there is room. -/
theorem C69_exact (E : Env) (cfg : Config E) (on : E.autocomplete = true) (W : World) (u : Ush) (e : Editor) (H : Waiting E W u e) (hnul : cNul ∉ e.line) (flat : W.Flat)
    (inp : List UInt8) (f : Nat → Slot) (hf : Fair f) :
    (∃ n v, driveN E f u (cTab :: inp) n = .ok (v, inp) ∧ v.state = .readChar) ↔ W.TabFits E (tabTarget e.line).1 (tabTarget e.line).2 := by
  constructor
  · intro ⟨n, v, h, hs⟩
    refine Classical.byContradiction fun far => ?_
    rcases C69_dead E on W u e H hnul flat far inp f n v inp h with h1 | h1
    · have := congrArg List.length h1
      simp at this
    · exact h1.2 hs
  · intro ht
    obtain ⟨k1, k2⟩ := tabTarget_split e.line
    obtain ⟨w, r1, T, hw⟩ := tab_start on H inp hnul k1 k2
    obtain ⟨v, r3, -, hv⟩ := complete_run cfg T hw ht inp
    obtain ⟨n, hn⟩ := fair_gets f hf (r1.trans r3).steps
    exact ⟨n, v, hn, hv⟩

/-- All names begin with a text for which there is no room in the input buffer: TAB goes on for ever, without a fault and without reading another key. -/
theorem C69_endless (E : Env) (on : E.autocomplete = true) (W : World) (u : Ush) (e : Editor) (H : Waiting E W u e) (hnul : cNul ∉ e.line)
    (p : Str) (N : Nat) (D : Endless E W p N) (h1 : (tabTarget e.line).1 = []) (h2 : (tabTarget e.line).2 <+: p) (inp : List UInt8) (f : Nat → Slot) (n : Nat) :
    ∃ v r, driveN E f u (cTab :: inp) n = .ok (v, r) ∧ (r = cTab :: inp ∨ (r = inp ∧ v.state ≠ .readChar)) := by
  obtain ⟨k1, k2⟩ := tabTarget_split e.line
  obtain ⟨w, r1, T, hw⟩ := tab_start on H inp hnul k1 k2
  generalize (tabTarget e.line).2 = x at *
  rw [h1] at T
  have hx : x.length < E.inSize := by have := T.length; simpa using this
  obtain ⟨d1, d2⟩ := D.names x h2 hx
  have dm := D.many
  have hne : W.offers x ≠ [] := fun h => by rw [h] at d1; simp at d1; omega
  obtain ⟨a, r2, Ta, a1, a2, a3, a4⟩ := count_run T hw (D.room x h2 hx) inp
  have C : Counted E W p e.esc N x a := { toTabbing := Ta, state := a1, prev := .inl a2, count := a3.trans d1, cand := a4 hne, word := h2 }
  have s := (r1.trans r2).steps
  have hn := C.never D inp
  have ok : ∀ k, ∃ q, chain E u (cTab :: inp) k = .ok q := by
    intro k
    obtain ⟨m, hm⟩ := s
    change chain E u (cTab :: inp) m = .ok (a, inp) at hm
    by_cases hle : k ≤ m
    · obtain ⟨d, rfl⟩ := Nat.exists_eq_add_of_le hle
      rw [chain_add] at hm
      obtain ⟨q, hq, -⟩ := M.bind_eq_ok.mp hm
      exact ⟨q, hq⟩
    · obtain ⟨d, rfl⟩ := Nat.exists_eq_add_of_le (Nat.le_of_not_le hle)
      obtain ⟨v, hv⟩ := Counted.forever D inp d C
      exact ⟨(v, inp), by rw [chain_add, hm]; exact hv⟩
  cases h : driveN E f u (cTab :: inp) n with
  | error x =>
    obtain ⟨k, -, hk⟩ := drive_fault E _ _ _ _ h
    obtain ⟨q, hq⟩ := ok k
    rw [hk] at hq
    cases hq
  | ok q =>
    refine ⟨q.1, q.2, rfl, ?_⟩
    obtain ⟨k, -, hk⟩ := drive_chain E _ _ _ q.1 q.2 h
    obtain ⟨h1, h2⟩ := Never.before s hn k hk
    rcases List.suffix_cons_iff.mp (chain_suffix _ hk) with h4 | h4
    · exact .inl h4
    · have h5 := h4.length_le
      exact .inr ⟨h4.eq_of_length (by omega), h2 (by omega)⟩

/-! ## All keys -/

section
variable {E : Env} {A : App} {W : World}

theorem full_key (cfg : Config E) (room : Roomy E) (hA : A.Describes E) (ok : W.Ok E) (fits : W.Fits E 0) (tame : A.Tame E W) (flat : ∀ V, W.Moved V → V.Flat)
    {t : Term} {u : Ush} (H : Shell E t u) (hW : W.Moved t.world) {c : UInt8} {cs : List UInt8} (ht : t.TabsClean E A (c :: cs)) (inp : List UInt8) :
    (t.Near E c → (∃ v, Steps E u (c :: inp) v inp ∧ Shell E (t.key E A c) v) ∧ W.Moved (t.key E A c).world) ∧
    (¬ t.Near E c → ∃ v, Steps E u (c :: inp) v inp ∧ Never E v inp) := by
  by_cases hc : c = cTab
  · subst hc
    refine ⟨fun near => ?_, fun far => ?_⟩
    · unfold Term.Near at near
      rw [if_pos rfl] at near
      obtain ⟨h1, h2⟩ := tame_key_near (c := cTab) room fits ok tame hW (by rw [if_pos rfl]; exact fun on => ⟨near on, ht.1 rfl on⟩)
      have hin := room.inSize
      exact ⟨key_sim cfg (by omega) hA H h1 inp, h2⟩
    · unfold Term.Near at far
      rw [if_pos rfl] at far
      have on : E.autocomplete = true := Classical.byContradiction fun h => far fun h' => absurd h' h
      exact line_never on H.waiting (flat _ hW) (fun h => far fun _ => h) inp
  · obtain ⟨k1, k2⟩ := reach_key cfg room hA ok fits tame H hW (c := c) (cs := []) ⟨fun h => absurd h hc, fun _ => trivial⟩ inp
    exact ⟨k1, fun far => let ⟨v, s, h⟩ := k2 far; ⟨v, s, never_stuck h inp⟩⟩

theorem full_keys (cfg : Config E) (room : Roomy E) (hA : A.Describes E) (ok : W.Ok E) (fits : W.Fits E 0) (tame : A.Tame E W) (flat : ∀ V, W.Moved V → V.Flat)
    (cs : List UInt8) : ∀ (t : Term) (u : Ush), Shell E t u → W.Moved t.world → t.TabsClean E A cs →
    (t.NearAll E A cs → ∃ v, Steps E u cs v [] ∧ Shell E (t.keys E A cs) v ∧ W.Moved (t.keys E A cs).world) ∧
    (¬ t.NearAll E A cs → ∃ v r, Steps E u cs v r ∧ Never E v r) := by
  induction cs with
  | nil => intro t u H hW _; exact ⟨fun _ => ⟨u, Steps.refl _ _ _, H, hW⟩, fun h => absurd trivial h⟩
  | cons c cs ih =>
    intro t u H hW ht
    obtain ⟨k1, k2⟩ := full_key cfg room hA ok fits tame flat H hW ht cs
    by_cases near : t.Near E c
    · obtain ⟨⟨v, s, H'⟩, hW'⟩ := k1 near
      obtain ⟨i1, i2⟩ := ih _ v H' hW' (ht.2 near)
      refine ⟨fun h => ?_, fun h => ?_⟩
      · obtain ⟨w, s', r⟩ := i1 h.2
        exact ⟨w, s.trans s', r⟩
      · obtain ⟨w, r, s', h'⟩ := i2 (fun h' => h ⟨near, h'⟩)
        exact ⟨w, r, s.trans s', h'⟩
    · refine ⟨fun h => absurd h.1 near, fun _ => ?_⟩
      obtain ⟨v, s, h⟩ := k2 near
      exact ⟨v, cs, s, h⟩

end

/-- From `ush_init` on, for every fair timing of the terminal, the keys `cs` typed to an application that leaves the directories alone: if everything fits, then the shell
does what the specified terminal does, and waits for the next key.  Otherwise it stops waiting for keys: from some time on it never waits again, if there is no fault. -/
theorem C69_life (E : Env) (hc : CfgOk E) (cfg : Config E) (room : Roomy E) (A : App) (hA : A.Describes E) (inBuf outBuf : List UInt8)
    (h1 : inBuf.length = E.inSize) (h2 : outBuf.length = E.outSize) (os : List FsOp) (hv : (initWorld E).ValidRun E os) (ok : (after E os).Ok E)
    (fits : (after E os).Fits E 0) (tame : A.Tame E (after E os)) (flat : ∀ V, (after E os).Moved V → V.Flat) (cs : List UInt8)
    (ht : (Term.start E os).TabsClean E A cs) (f : Nat → Slot) (hf : Fair f) :
    ∃ u, run E (blank inBuf outBuf) (steps os) = .ok u ∧
      ((Term.start E os).NearAll E A cs → ∃ v K, Shell E ((Term.start E os).keys E A cs) v ∧ ∀ n ≥ K, driveN E f u cs n = .ok (v, [])) ∧
      (¬ (Term.start E os).NearAll E A cs → ∃ K, ∀ n ≥ K, ∀ v r, driveN E f u cs n = .ok (v, r) → v.state ≠ .readChar) := by
  obtain ⟨u, v, e, s, H, l⟩ := C38_startup E hc cfg inBuf outBuf h1 h2 os hv ok cs
  obtain ⟨k1, k2⟩ := full_keys cfg room hA ok fits tame flat cs (Term.start E os) v ⟨H, l⟩ (after_moved E os ok.cwd) ht
  refine ⟨u, e, fun h => ?_, fun h => ?_⟩
  · obtain ⟨w, s', H', -⟩ := k1 h
    obtain ⟨N, hN⟩ := C20_fair E u w cs (s.trans s') ⟨H'.waiting.shows.state, rfl⟩ H'.waiting.current f hf
    exact ⟨w, N, H', hN⟩
  · obtain ⟨w, r, s', h'⟩ := k2 h
    obtain ⟨N, hN⟩ := fair_never f hf (s.trans s') h'
    exact ⟨N, fun n hn v r e => (hN n hn v r e).1⟩

/-- With other words: the shell survives the keys exactly if everything fits. -/
theorem C69_alive (E : Env) (hc : CfgOk E) (cfg : Config E) (room : Roomy E) (A : App) (hA : A.Describes E) (inBuf outBuf : List UInt8)
    (h1 : inBuf.length = E.inSize) (h2 : outBuf.length = E.outSize) (os : List FsOp) (hv : (initWorld E).ValidRun E os) (ok : (after E os).Ok E)
    (fits : (after E os).Fits E 0) (tame : A.Tame E (after E os)) (flat : ∀ V, (after E os).Moved V → V.Flat) (cs : List UInt8)
    (ht : (Term.start E os).TabsClean E A cs) (f : Nat → Slot) (hf : Fair f) :
    ∃ u, run E (blank inBuf outBuf) (steps os) = .ok u ∧
      ((∀ K, ∃ n ≥ K, ∃ v r, driveN E f u cs n = .ok (v, r) ∧ v.state = .readChar) ↔ (Term.start E os).NearAll E A cs) := by
  obtain ⟨u, e, k1, k2⟩ := C69_life E hc cfg room A hA inBuf outBuf h1 h2 os hv ok fits tame flat cs ht f hf
  refine ⟨u, e, fun h => ?_, fun h K => ?_⟩
  · refine Classical.byContradiction fun hn => ?_
    obtain ⟨K, hK⟩ := k2 hn
    obtain ⟨n, hn, v, r, e, hs⟩ := h K
    exact hK n hn v r e hs
  · obtain ⟨v, N, H, hN⟩ := k1 h
    exact ⟨max K N, Nat.le_max_left _ _, v, [], hN _ (Nat.le_max_right _ _), H.waiting.shows.state⟩

/-! ## The example DemoBasic, with TAB -/

section
variable {E : Env} {A : App} {W V : World}

/-- Something that is true of all names of the application is true of the names that are offered. -/
theorem names_of {Q : Str → Prop} (h : W.Moved V) (hf : ∀ f ∈ W.files, Q f.name) (hd : ∀ m ∈ W.tree, Q (dirName m.path)) {n x : Str} (hn : n ∈ V.offers x) : Q n := by
  obtain ⟨h1, h2, m, hm, h3⟩ := h
  have hn := (List.mem_filter.mp hn).1
  rw [h1, h2, h3] at hn
  rcases List.mem_append.mp hn with hn | hn
  · rcases List.mem_append.mp hn with hn | hn
    · obtain ⟨f, hf', rfl⟩ := List.mem_map.mp hn
      exact hf f (List.mem_append_left _ hf')
    · obtain ⟨f, hf', rfl⟩ := List.mem_map.mp hn
      exact hf f (List.mem_append_right _ (List.mem_flatMap.mpr ⟨m, hm, hf'⟩))
  · obtain ⟨m', hm', rfl⟩ := List.mem_map.mp hn
    exact hd m' (mem_under_opt hm')

theorem tried_prefix {w z : Str} (h : z ∈ W.tried E w) : ∃ x, ∃ c ∈ W.offers x, z <+: c := by
  unfold World.tried at h
  split at h
  · obtain ⟨y, -, hy⟩ := List.mem_filterMap.mp h
    unfold World.next at hy
    obtain ⟨c, hc, hy⟩ := Option.bind_eq_some_iff.mp hy
    obtain ⟨a, ha, rfl⟩ := Option.map_eq_some_iff.mp hy
    refine ⟨y, c, List.mem_of_getLast? hc, ?_⟩
    obtain ⟨t, rfl⟩ := offers_prefix (List.mem_of_getLast? hc)
    obtain ⟨b, t', rfl⟩ : ∃ b t', t = b :: t' := by
      cases t with
      | nil => simp at ha
      | cons b t' => exact ⟨b, t', rfl⟩
    simp at ha
    subst ha
    exact ⟨t', by simp⟩
  · cases h

theorem growth_last (k : Nat) (w : Str) : ∃ y, (W.growth k w).getLast? = some y ∧ (y = w ∨ ∃ x, ∃ c ∈ W.offers x, y <+: c) := by
  induction k generalizing w with
  | zero => exact ⟨w, rfl, .inl rfl⟩
  | succ k ih =>
    unfold World.growth
    cases hm : W.more w with
    | none => exact ⟨w, rfl, .inl rfl⟩
    | some z =>
      obtain ⟨y, h1, h2⟩ := ih z
      have h3 : ∃ x, ∃ c ∈ W.offers x, z <+: c := by
        unfold World.more at hm
        obtain ⟨c, hc, hm⟩ := Option.bind_eq_some_iff.mp hm
        obtain ⟨a, ha, hm⟩ := Option.bind_eq_some_iff.mp hm
        split at hm
        · cases hm
          refine ⟨w, c, List.mem_of_getLast? hc, ?_⟩
          obtain ⟨t, rfl⟩ := offers_prefix (List.mem_of_getLast? hc)
          obtain ⟨b, t', rfl⟩ : ∃ b t', t = b :: t' := by
            cases t with
            | nil => simp at ha
            | cons b t' => exact ⟨b, t', rfl⟩
          simp at ha
          subst ha
          exact ⟨t', by simp⟩
        · cases hm
      refine ⟨y, ?_, .inr ?_⟩
      · show (w :: W.growth k z).getLast? = _
        rw [List.getLast?_cons, h1]; rfl
      · rcases h2 with rfl | h2
        · exact h3
        · exact h2

/-- What is added comes from the names. -/
theorem grown_clean {w : Str} {a : UInt8} (h : ∀ x, ∀ c ∈ W.offers x, a ∉ c) : a ∉ (W.grown E w).drop w.length := by
  unfold World.grown
  split
  · next c hc => exact fun h' => h w c (by rw [hc]; simp) (List.mem_of_mem_drop h')
  · obtain ⟨y, h1, h2⟩ := growth_last (W := W) E.inSize w
    rw [h1, Option.getD_some]
    rcases h2 with rfl | ⟨x, c, hc, hy⟩
    · simp
    · exact fun h' => h x c hc (hy.subset (List.mem_of_mem_drop h'))

/-- NUL comes only from the keyboard. -/
theorem key_nul (hf : ∀ f ∈ W.files, cNul ∉ f.name) (hd : ∀ m ∈ W.tree, cNul ∉ dirName m.path) {t : Term} (hW : W.Moved t.world) {c : UInt8} (hc : c ≠ cNul)
    (ht : cNul ∉ t.ed.line) : cNul ∉ (t.key E A c).ed.line := by
  unfold Term.key
  split
  · simp
  · split
    · split
      · show cNul ∉ (t.world.press E t.ed.line).1
        rw [press_plain ht]
        show cNul ∉ (tabTarget t.ed.line).1 ++ t.world.grown E (tabTarget t.ed.line).2
        obtain ⟨k1, -⟩ := tabTarget_split t.ed.line
        rw [k1] at ht
        obtain ⟨z, hg⟩ := grown_prefix E t.world (tabTarget t.ed.line).2
        have := grown_clean (E := E) (w := (tabTarget t.ed.line).2) (a := cNul) (W := t.world) fun x c h => names_of (Q := fun n => cNul ∉ n) hW hf hd h
        rw [← hg, List.drop_left] at this
        rw [← hg, ← List.append_assoc]
        exact fun h => (List.mem_append.mp h).elim ht this
      · exact ht
    · split
      · simp
      · show cNul ∉ (t.ed.key E.inSize c).1.line
        unfold Editor.key
        split
        · split
          · exact ht
          · exact fun h => ht ((List.dropLast_prefix _).subset h)
        · split
          · exact ht
          · split
            · exact ht
            · exact ht
            · simp only
              split
              · exact fun h => (List.mem_append.mp h).elim ht fun h => hc (List.mem_singleton.mp h).symm
              · simp

/-- Short names without line ends, and no NUL on the keyboard: nothing else has to be respected. -/
theorem tabsFit_of (room : Roomy E) (ok : W.Ok E) (fits : W.Fits E 0) (tame : A.Tame E W)
    (hf : ∀ f ∈ W.files, f.name.length < E.inSize ∧ cNul ∉ f.name ∧ cLf ∉ f.name ∧ cCr ∉ f.name)
    (hd : ∀ m ∈ W.tree, (dirName m.path).length < E.inSize ∧ cNul ∉ dirName m.path ∧ cLf ∉ dirName m.path ∧ cCr ∉ dirName m.path) (cs : List UInt8) :
    ∀ (t : Term), W.Moved t.world → cNul ∉ t.ed.line → cNul ∉ cs → t.TabsFit E A cs := by
  induction cs with
  | nil => intros; trivial
  | cons c cs ih =>
    intro t hW hl hcs
    have hn := fun x n (h : n ∈ t.world.offers x) => names_of (Q := fun n => n.length < E.inSize ∧ cNul ∉ n ∧ cLf ∉ n ∧ cCr ∉ n) hW hf hd h
    have tabs : cNul ∉ t.ed.line ∧ ¬ t.world.Wraps E (tabTarget t.ed.line).1 (tabTarget t.ed.line).2 ∧
        cLf ∉ (t.world.grown E (tabTarget t.ed.line).2).drop (tabTarget t.ed.line).2.length ∧
        cCr ∉ (t.world.grown E (tabTarget t.ed.line).2).drop (tabTarget t.ed.line).2.length := by
      refine ⟨hl, ?_, grown_clean fun x c h => (hn x c h).2.2.1, grown_clean fun x c h => (hn x c h).2.2.2⟩
      rintro ⟨-, z, hz, hlen⟩
      obtain ⟨x, c, hc, hzc⟩ := tried_prefix hz
      have h1 := hzc.length_le
      have h2 := (hn x c hc).1
      omega
    refine ⟨fun _ _ => tabs, fun near => ih _ ?_ ?_ (fun h => hcs (by simp [h]))⟩
    · refine (tame_key_near (c := c) room fits ok tame hW ?_).2
      unfold Term.Near at near
      split
      · next hc =>
        rw [if_pos hc] at near
        exact fun on => (lineOk_plain hl).mpr ⟨(lineFits_plain hl).mp (near on), tabs.2.2⟩
      · next hc => rwa [if_neg hc] at near
    · exact key_nul (fun f h => (hf f h).2.1) (fun m h => (hd m h).2.1) hW (fun h => hcs (by simp [h])) hl

end

/-- DemoBasic with any keys other than NUL and any timing: as specified, or an overflow; which of both can be read off the keys. -/
theorem C69_demo (n : Nat) (hn : 32 ≤ n) (time : List Event → Str) (inBuf outBuf : List UInt8) (h1 : inBuf.length = n) (h2 : outBuf.length = n) (cs : List UInt8)
    (ht : cNul ∉ cs) (f : Nat → Slot) (hf : Fair f) :
    ∃ u, run (demo n time) (blank inBuf outBuf) (steps demoSetup) = .ok u ∧
      ((Term.start (demo n time) demoSetup).NearAll (demo n time) (demoApp time) cs →
        ∃ v K, Shell (demo n time) ((Term.start (demo n time) demoSetup).keys (demo n time) (demoApp time) cs) v ∧ ∀ k ≥ K, driveN (demo n time) f u cs k = .ok (v, [])) ∧
      (¬ (Term.start (demo n time) demoSetup).NearAll (demo n time) (demoApp time) cs → ∃ K, ∀ k ≥ K, driveN (demo n time) f u cs k = .error .oob) := by
  obtain ⟨hc, cfg, room, hv, ok, -, plain⟩ := demo_fits n hn time
  have e1 : ∀ f ∈ demoWorld.files, cNul ∉ f.name := by decide
  have e2 : ∀ m ∈ demoWorld.tree, cNul ∉ dirName m.path := by decide
  refine C68_life (demo n time) hc cfg room (demoApp time) (demo_describes n time) inBuf outBuf h1 h2 demoSetup hv ok (demo_fits0 n hn time) (demo_tame n time) cs
    (tabsFit_of room ok (demo_fits0 n hn time) (demo_tame n time) (fun f h => ?_) (fun m h => ?_) cs _ (after_moved _ _ ok.cwd) (by simp [Term.start]) ht) f hf
  · obtain ⟨k1, k2, k3⟩ := plain.files f h
    exact ⟨by show _ < n; omega, e1 f h, k2, k3⟩
  · obtain ⟨k1, k2, k3⟩ := plain.dirs m h
    exact ⟨by show _ < n; omega, e2 m h, k2, k3⟩

instance decTabsClean (E : Env) (A : App) : (cs : List UInt8) → (t : Term) → Decidable (t.TabsClean E A cs)
  | [], _ => isTrue trivial
  | c :: cs, t => by unfold Term.TabsClean; have := decTabsClean E A cs (t.key E A c); infer_instance

/-- On the small boards (32 bytes): `to` and TAB behind 23 other characters works, behind 24 it does not; the name is copied over the end of the input buffer. -/
example : (Term.start (demo 32 clock) demoSetup).NearAll (demo 32 clock) (demoApp clock) (b!"cd bin\nxxxxxxxxxxxxxxxxxxxxxxxx to\t") ∧
    ¬ (Term.start (demo 32 clock) demoSetup).NearAll (demo 32 clock) (demoApp clock) (b!"cd bin\nxxxxxxxxxxxxxxxxxxxxxxxxx to\t") := by
  refine ⟨?_, ?_⟩ <;> decide +kernel

/-- The hypothesis of `C69_life` and `C69_alive` about the names, for DemoBasic. -/
theorem demo_flat (n : Nat) (time : List Event → Str) (V : World) (h : (after (demo n time) demoSetup).Moved V) : V.Flat := by
  obtain ⟨h1, h2, m, hm, h3⟩ := h
  have key : ∀ m ∈ demoWorld.dirs, ({ demoWorld with cwd := some m } : World).Usual [] := by unfold World.Usual; decide
  have e : V = { demoWorld with cwd := some m } := by
    obtain ⟨t, g, c⟩ := V
    simp only at h1 h2 h3
    subst h1 h2 h3
    rfl
  rw [e]
  exact C69_flat _ (key m hm)

example (f : Nat → Slot) (hf : Fair f) : ∃ u, run (demo 32 clock) (blank (List.replicate 32 0) (List.replicate 32 0)) (steps demoSetup) = .ok u ∧
    ¬ ∀ K, ∃ n ≥ K, ∃ v r, driveN (demo 32 clock) f u (b!"cd bin\nxxxxxxxxxxxxxxxxxxxxxxxxx to\t") n = .ok (v, r) ∧ v.state = .readChar := by
  obtain ⟨hc, cfg, room, hv, ok, -, plain⟩ := demo_fits 32 (by decide) clock
  obtain ⟨u, e, h⟩ := C69_alive (demo 32 clock) hc cfg room (demoApp clock) (demo_describes 32 clock) (List.replicate 32 0) (List.replicate 32 0) rfl rfl demoSetup hv ok
    (demo_fits0 32 (by decide) clock) (demo_tame 32 clock) (demo_flat 32 clock) (b!"cd bin\nxxxxxxxxxxxxxxxxxxxxxxxxx to\t") (by decide +kernel) f hf
  exact ⟨u, e, fun h' => absurd (h.mp h') (by decide +kernel)⟩

/-! ## An example -/

/-- Eight bytes of input, no built-in commands. -/
def gE : Env := { sE0 with commandsOn := false, inSize := 8 }

def gHist : List FsOp := [.mount [] 1 [{ name := b!"temperature_in", getData := some 1 }, { name := b!"temperature_out", getData := some 2 }]]

abbrev gW : World := after gE gHist

theorem gWaiting : ∃ u, Waiting gE gW u {} :=
  boot_waiting ⟨by decide, by decide, by decide, by decide, by decide⟩
    ⟨by decide, ⟨by decide, by decide, by decide, by decide, by decide, statusString_nul _ (by decide)⟩⟩ gHist (by decide) (by decide)

theorem gEndless : Endless gE gW b!"temperature_" 2 := by
  have key : ∀ x ∈ (b!"temperature_").inits, x.length < 8 → gW.Room gE x ∧ (gW.offers x).length = 2 ∧ ∀ c ∈ gW.offers x, (b!"temperature_").isPrefixOf c = true := by
    decide +kernel
  refine ⟨by decide, by decide, fun x h h' => (key x ((List.mem_inits _ _).mpr h) h').1, fun x h h' => ?_⟩
  obtain ⟨-, k1, k2⟩ := key x ((List.mem_inits _ _).mpr h) h'
  exact ⟨k1, fun c hc => List.isPrefixOf_iff_prefix.mp (k2 c hc)⟩

/-- Two files, `temperature_in` and `temperature_out`: TAB on the empty line never ends. -/
example : ∃ u, Waiting gE gW u {} ∧ ∀ (inp : List UInt8) (f : Nat → Slot) (n : Nat),
    ∃ v r, driveN gE f u (cTab :: inp) n = .ok (v, r) ∧ (r = cTab :: inp ∨ (r = inp ∧ v.state ≠ .readChar)) := by
  obtain ⟨u, H⟩ := gWaiting
  exact ⟨u, H, fun inp f n => C69_endless gE rfl gW u {} H (by decide) _ _ gEndless (by decide) (by decide) inp f n⟩

/-- The hypotheses of the other theorems: nothing wraps around behind another word, and there are worlds of the usual kind. -/
example : gW.Flat ∧ ¬ gW.TabFits gE [] [] ∧ gW.Wraps gE [] [] ∧ ¬ gW.TabFits gE b!"x " b!"t" ∧ ¬ gW.Wraps gE b!"x " b!"t" ∧ gW.TabFits gE b!"x " b!"y" ∧
    ∃ u, Waiting gE gW u ⟨b!"x t", .none⟩ := by
  refine ⟨C69_flat gW ?_, ?_, ?_, ?_, ?_, ?_, ?_⟩
  · unfold World.Usual; decide
  · decide
  · exact ⟨rfl, b!"temperat", by decide, by decide⟩
  · decide
  · exact fun h => absurd h.1 (by decide)
  · decide
  · obtain ⟨u, H⟩ := gWaiting
    exact typed ⟨by decide, ⟨by decide, by decide, by decide, by decide, by decide, statusString_nul _ (by decide)⟩⟩ H b!"x t" (by decide) (by decide)

end Ush.Props
