import Verif.Proof.Forget
import Verif.Props.Terminal
/-!
# C66: what the shell remembers

Two shells with different histories behave in the same way from now on, if they have the same directories, commands and working directory (`world`), the same line
(`ed`), and if their applications have noticed the same (`noticed`: calls of callbacks and what the library returned).  What else is in the shell object (buffers, counters, pointers) does
not matter; nor does how the line has been typed.
-/
namespace Ush.Props
open Spec

section
variable (E : Env) (cfg : Config E) (hin : 0 < E.inSize) (A : App) (hA : A.Describes E) (hb : A.Blind) (t1 t2 : Term) (u1 u2 : Ush)
  (H1 : Shell E t1 u1) (H2 : Shell E t2 u2)
include cfg hin hA hb H1 H2

/-- The same keys: the same output, the same calls of callbacks, and again the same state. -/
theorem C66_same (h : t1.Alike t2) (cs : List UInt8) (ok : t1.OkAll E A cs) (inp : List UInt8) :
    ∃ v1 v2 k, Steps E u1 (cs ++ inp) v1 inp ∧ Steps E u2 (cs ++ inp) v2 inp ∧ v1.log = u1.log ++ k ∧ v2.log = u2.log ++ k ∧
      Shell E (t1.keys E A cs) v1 ∧ Shell E (t2.keys E A cs) v2 ∧ (t1.keys E A cs).Alike (t2.keys E A cs) := by
  obtain ⟨v1, s1, K1⟩ := C47_keys E cfg hin A hA cs t1 u1 H1 ok inp
  obtain ⟨v2, s2, K2⟩ := C47_keys E cfg hin A hA cs t2 u2 H2 ((OkAll_same hb cs h).mp ok) inp
  obtain ⟨h', k, k1, k2⟩ := keys_same (E := E) hb cs h
  exact ⟨v1, v2, k, s1, s2, by rw [K1.log, k1, H1.log], by rw [K2.log, k2, H2.log], K1, K2, h'⟩

/-- ... whatever the timing of the two terminals. -/
theorem C66_timing (h : t1.Alike t2) (cs : List UInt8) (ok : t1.OkAll E A cs) (f1 f2 : Nat → Slot) (hf1 : Fair f1) (hf2 : Fair f2) :
    ∃ v1 v2 k N, v1.log = u1.log ++ k ∧ v2.log = u2.log ++ k ∧ ∀ n ≥ N, driveN E f1 u1 cs n = .ok (v1, []) ∧ driveN E f2 u2 cs n = .ok (v2, []) := by
  obtain ⟨v1, v2, k, s1, s2, l1, l2, K1, K2, -⟩ := C66_same E cfg hin A hA hb t1 t2 u1 u2 H1 H2 h cs ok []
  obtain ⟨N1, h1⟩ := C20_fair E u1 v1 cs (by simpa using s1) ⟨K1.waiting.shows.state, rfl⟩ K1.waiting.current f1 hf1
  obtain ⟨N2, h2⟩ := C20_fair E u2 v2 cs (by simpa using s2) ⟨K2.waiting.shows.state, rfl⟩ K2.waiting.current f2 hf2
  exact ⟨v1, v2, k, max N1 N2, l1, l2, fun n hn => ⟨h1 n (by omega), h2 n (by omega)⟩⟩

/-- It does not matter how a line has been typed: if the keys `ks1` and `ks2` (characters, erase keys, cursor keys) give the same line, all that follows is the same. -/
theorem C66_typed (hw : t1.world = t2.world) (hl : noticed t1.log = noticed t2.log) (ks1 ks2 : Str) (h1 : t1.ed.takesAll E.inSize ks1 = true)
    (h2 : t2.ed.takesAll E.inSize ks2 = true) (he : (t1.ed.keys E.inSize ks1).1 = (t2.ed.keys E.inSize ks2).1) (cs : List UInt8)
    (ok : (t1.keys E A ks1).OkAll E A cs) (inp : List UInt8) :
    ∃ w1 w2 v1 v2 k, Steps E u1 (ks1 ++ (cs ++ inp)) w1 (cs ++ inp) ∧ Steps E u2 (ks2 ++ (cs ++ inp)) w2 (cs ++ inp) ∧
      Steps E w1 (cs ++ inp) v1 inp ∧ Steps E w2 (cs ++ inp) v2 inp ∧ v1.log = w1.log ++ k ∧ v2.log = w2.log ++ k := by
  obtain ⟨o1, e1⟩ := keys_typed (E := E) (A := A) ks1 t1 h1
  obtain ⟨o2, e2⟩ := keys_typed (E := E) (A := A) ks2 t2 h2
  obtain ⟨w1, s1, K1⟩ := C47_keys E cfg hin A hA ks1 t1 u1 H1 o1 (cs ++ inp)
  obtain ⟨w2, s2, K2⟩ := C47_keys E cfg hin A hA ks2 t2 u2 H2 o2 (cs ++ inp)
  have h : (t1.keys E A ks1).Alike (t2.keys E A ks2) := by
    rw [e1, e2]
    exact ⟨hw, he, by simp only [noticed_append, noticed_keys, hl]⟩
  obtain ⟨v1, v2, k, r1, r2, l1, l2, -⟩ := C66_same E cfg hin A hA hb _ _ w1 w2 K1 K2 h cs ok inp
  exact ⟨w1, w2, v1, v2, k, s1, s2, r1, r2, l1, l2⟩

/-- Ctrl+C: whatever the two lines were, all that follows is the same. -/
theorem C66_ctrl_c (hw : t1.world = t2.world) (hl : noticed t1.log = noticed t2.log) (cs : List UInt8) (ok : (t1.key E A cEtx).OkAll E A cs) (inp : List UInt8) :
    ∃ v1 v2 k, Steps E u1 (cEtx :: (cs ++ inp)) v1 inp ∧ Steps E u2 (cEtx :: (cs ++ inp)) v2 inp ∧ v1.log = u1.log ++ k ∧ v2.log = u2.log ++ k := by
  have e : ∀ t : Term, t.key E A cEtx = ⟨t.world, {}, t.log ++ .inp cEtx :: outs (b!"^C" ++ crlf ++ t.world.prompt E)⟩ := fun t => by
    unfold Term.key
    rw [if_pos rfl]
    rfl
  obtain ⟨w1, s1, K1⟩ := key_sim cfg hin hA H1 (c := cEtx) (by unfold Term.Ok; rw [if_pos rfl]; trivial) (cs ++ inp)
  obtain ⟨w2, s2, K2⟩ := key_sim cfg hin hA H2 (c := cEtx) (by unfold Term.Ok; rw [if_pos rfl]; trivial) (cs ++ inp)
  have h : (t1.key E A cEtx).Alike (t2.key E A cEtx) := by
    rw [e, e, hw]
    exact ⟨rfl, rfl, noticed_more hl _⟩
  obtain ⟨v1, v2, k, r1, r2, l1, l2, -⟩ := C66_same E cfg hin A hA hb _ _ w1 w2 K1 K2 h cs ok inp
  refine ⟨v1, v2, .inp cEtx :: outs (b!"^C" ++ crlf ++ t1.world.prompt E) ++ k, s1.trans r1, s2.trans r2, ?_, ?_⟩
  · rw [l1, K1.log, e, H1.log, List.append_assoc]
  · rw [l2, K2.log, e, H2.log, hw, List.append_assoc]

end

/-! ### Examples -/

/-- The application of the examples of C47 counts how often its file has been read, but does not look at keys. -/
theorem pBlind : pA.Blind where
  hook := fun _ _ _ _ => rfl
  exec := fun _ _ _ _ _ => rfl
  get := fun id l l' h => by
    have : ∀ l, l.count (.getData 7) = (noticed l).count (.getData 7) := fun l => by
      unfold noticed
      rw [List.count_filter]
      rfl
    have : l.count (.getData 7) = l'.count (.getData 7) := by rw [this l, this l', h]
    unfold pA
    simp only
    rw [this]
  set := fun _ _ _ _ _ => rfl

/-- `cat data`, typed with a mistake and a cursor key, or without. -/
example (u1 u2 : Ush) (H1 : Shell pE (Term.start pE sHist) u1) (H2 : Shell pE (Term.start pE sHist) u2) :
    ∃ w1 w2 v1 v2 k, Steps pE u1 (b!"cax" ++ [cBs] ++ b!"t da" ++ [cEsc] ++ b!"[Ata" ++ (b!"\r\t" ++ [])) w1 (b!"\r\t" ++ []) ∧ Steps pE u2 (b!"cat data" ++ (b!"\r\t" ++ [])) w2 (b!"\r\t" ++ []) ∧
      Steps pE w1 (b!"\r\t" ++ []) v1 [] ∧ Steps pE w2 (b!"\r\t" ++ []) v2 [] ∧ v1.log = w1.log ++ k ∧ v2.log = w2.log ++ k :=
  C66_typed pE pConfig (by decide) pA pDescribes pBlind _ _ u1 u2 H1 H2 rfl rfl _ _ (by decide) (by decide) (by decide) b!"\r\t" (by decide +kernel) []

example : ∃ u1 u2, Shell pE (Term.start pE sHist) u1 ∧ Shell pE ((Term.start pE sHist).keys pE pA b!"ls /d") u2 ∧
    ∃ v1 v2 k, Steps pE u1 (cEtx :: (b!"cat data\r" ++ [])) v1 [] ∧ Steps pE u2 (cEtx :: (b!"cat data\r" ++ [])) v2 [] ∧ v1.log = u1.log ++ k ∧ v2.log = u2.log ++ k := by
  obtain ⟨u, v, -, s, H, l⟩ := C38_startup pE pCfg pConfig (List.replicate 32 1) (List.replicate 64 2) rfl rfl sHist pOk.1 pOk.2.1 b!"ls /d"
  have K : Shell pE (Term.start pE sHist) v := ⟨H, l⟩
  obtain ⟨w, s2, H2⟩ := C47_keys pE pConfig (by decide) pA pDescribes b!"ls /d" _ v K (by decide +kernel) []
  exact ⟨v, w, K, H2, C66_ctrl_c pE pConfig (by decide) pA pDescribes pBlind _ _ v w K H2 rfl (by decide +kernel) b!"cat data\r" (by decide +kernel) []⟩

end Ush.Props
