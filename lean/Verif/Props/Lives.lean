import Verif.Props.Later
import Verif.Props.Terminal
import Verif.Spec.Lives
/-!
# Commands that answer later, in the whole terminal (C64)

`Lives S E A t cs t'` (Spec/Lives.lean): the keys `cs` lead from the terminal `t` to `t'`; the commands in `S` start processes.
-/
namespace Ush.Props
open Spec
section
variable {E : Env} {A : App} {S : Nat → Prop} {t t' : Term} {u : Ush} {c : UInt8} {name : Str} {as : List Str} {l : List Event} {W : World}

theorem late_sim (cfg : Config E) (hA : A.DescribesBut E S) (H : Shell E t u) (hc : isEnter c = true) (he : t.ed.esc = .none) (hin : 2 ≤ E.inSize)
    (hw : words (sent E.inSize t.ed.line) = name :: as) (h : LateLine E A t c name as l W) (inp : List UInt8) :
    ∃ v, Steps E u (c :: inp) v inp ∧ Shell E ⟨W, {}, t.log ++ l⟩ v := by
  obtain ⟨hk, hr, ok, near, hf, hx, hs, hv, hT, ok2, hp⟩ := h
  have hen : c = cLf ∨ c = cCr := by
    unfold isEnter at hc
    simp at hc
    exact hc.symm
  rw [← H.log] at hk hr hs hp
  have Hn : Entered E t.world u t.ed c (name :: as) _ _ := ⟨H.waiting, he, hen, hin, hw, ⟨_, hA.hook _ _, hk, hr⟩, ok, by rintro _ ⟨⟩; exact near⟩
  rcases hp with ⟨p, T3, hp, rfl, hl⟩ | ⟨hp, rfl, rfl⟩
  · obtain ⟨v, s, H', hlog⟩ := C64_answer E cfg _ _ _ _ _ _ _ _ _ _ _ _ _ _ Hn hf hx hs hv hT ok2 p hp _ _ hl inp
    exact ⟨v, s, H', by rw [hlog, H.log]; simp⟩
  · obtain ⟨v, s, H', hlog⟩ := C64_none E cfg _ _ _ _ _ _ _ _ _ _ _ _ _ _ Hn hf hx hs hv hT ok2 hp inp
    exact ⟨v, s, H', by rw [hlog, H.log]; simp⟩

/-- Any keys, with commands that answer at once and commands that answer later: the shell does what the specified terminal does. -/
theorem C64_keys (E : Env) (cfg : Config E) (hin : 0 < E.inSize) (A : App) (S : Nat → Prop) (hA : A.DescribesBut E S) (cs : List UInt8) (t t' : Term) (u : Ush)
    (H : Shell E t u) (h : Lives S E A t cs t') (inp : List UInt8) : ∃ v, Steps E u (cs ++ inp) v inp ∧ Shell E t' v := by
  induction h generalizing u with
  | done => exact ⟨u, Steps.refl _ _ _, H⟩
  | key ok hs _ ih =>
    obtain ⟨v, s1, H1⟩ := key_sim_but cfg hin hA H ok hs _
    obtain ⟨w, s2, H2⟩ := ih v H1
    exact ⟨w, s1.trans s2, H2⟩
  | late hc he h2 hw hl _ ih =>
    obtain ⟨v, s1, H1⟩ := late_sim cfg hA H hc he h2 hw hl _
    obtain ⟨w, s2, H2⟩ := ih v H1
    exact ⟨w, s1.trans s2, H2⟩

/-- ... whatever the timing of the terminal. -/
theorem C64_timing (E : Env) (cfg : Config E) (hin : 0 < E.inSize) (A : App) (S : Nat → Prop) (hA : A.DescribesBut E S) (cs : List UInt8) (t t' : Term) (u : Ush)
    (H : Shell E t u) (h : Lives S E A t cs t') (f : Nat → Slot) (hf : Fair f) :
    ∃ v N, Shell E t' v ∧ ∀ n ≥ N, driveN E f u cs n = .ok (v, []) := by
  obtain ⟨v, s, H'⟩ := C64_keys E cfg hin A S hA cs t t' u H h []
  obtain ⟨N, h⟩ := C20_fair E u v cs (by simpa using s) ⟨H'.waiting.shows.state, rfl⟩ H'.waiting.current f hf
  exact ⟨v, N, H', h⟩

/-- The life of such a shell: `ush_init`, directory operations, keys with any timing. -/
theorem C64_life (E : Env) (hc : CfgOk E) (cfg : Config E) (A : App) (S : Nat → Prop) (hA : A.DescribesBut E S) (inBuf outBuf : List UInt8)
    (h1 : inBuf.length = E.inSize) (h2 : outBuf.length = E.outSize) (os : List FsOp) (hv : (initWorld E).ValidRun E os) (ok : (after E os).Ok E) (cs : List UInt8)
    (t : Term) (h : Lives S E A (Term.start E os) cs t) (f : Nat → Slot) (hf : Fair f) :
    ∃ u v N, run E (blank inBuf outBuf) (steps os) = .ok u ∧ Shell E t v ∧ ∀ n ≥ N, driveN E f u cs n = .ok (v, []) := by
  obtain ⟨u, v, e, s, H, l⟩ := C38_startup E hc cfg inBuf outBuf h1 h2 os hv ok (cs ++ [])
  obtain ⟨w, s2, H'⟩ := C64_keys E cfg hc.inSize A S hA cs (Term.start E os) t v ⟨H, l⟩ h []
  obtain ⟨N, h⟩ := C20_fair E u w cs (by simpa using s.trans s2) ⟨H'.waiting.shows.state, rfl⟩ H'.waiting.current f hf
  exact ⟨u, w, N, e, H', h⟩

end

/-- Keys other than Enter, before others. -/
theorem Lives_text {S : Nat → Prop} {E : Env} {A : App} (cs ds : List UInt8) (t t' : Term) (hc : ∀ c ∈ cs, isEnter c = false) (ok : t.OkAll E A cs)
    (h : Lives S E A (t.keys E A cs) ds t') : Lives S E A t (cs ++ ds) t' := by
  induction cs generalizing t with
  | nil => exact h
  | cons c cs ih =>
    exact .key ok.1 (fun h => absurd h (by rw [hc c (by simp)]; decide)) (ih _ (fun x hx => hc x (by simp [hx])) ok.2 h)

/-! ### Example -/

def lateA : App where
  get := fun id _ => if id = 7 then [0, 65, 255] else b!"on"
  set := fun id _ _ => if id = 8 then [.print b!"set"] else []

/-- All commands of the application start processes. -/
theorem lateDescribes : lateA.DescribesBut lateE (fun _ => True) where
  hook := fun _ _ => rfl
  exec := fun _ _ _ h => absurd trivial h
  get := fun _ _ _ _ => rfl
  set := fun id l d u _ => by
    show (if id = 8 then [Api.print (.str b!"set")] else []) = _
    unfold lateA
    simp only
    split <;> rfl

/-- `run` has been typed. -/
def lateT1 : Term := (Term.start lateE sHist).keys lateE lateA b!"run"

/-- ... and has answered. -/
def lateT2 : Term :=
  let W := ((after lateE sHist).step (.mount [b!"new"] 5 [])).1
  ⟨W, {}, lateT1.log ++ (.inp cLf :: outs (enterEcho cLf) ++ .exec (.user 1) [b!"run"] :: .proc 3 :: .proc 3 :: .ret .ok :: .proc 3 :: outs (b!"...late" ++ W.prompt lateE))⟩

theorem lateLine : ∃ l W, LateLine lateE lateA lateT1 cLf b!"run" [] l W ∧ lateT2 = ⟨W, {}, lateT1.log ++ l⟩ := by
  refine ⟨_, _, LateLine.mk (T := Talk.start lateT1.world cLf) (rs := []) (cs := [.printf b!"..."]) (by decide) rfl (by decide +kernel) (by decide +kernel) rfl rfl (fun _ _ => rfl) (by decide +kernel) rfl (by decide +kernel)
    (.inl ⟨3, _, rfl, rfl, .wait (cs := []) (late_says (x := .exec (.user 1) [b!"run"]) (by show ((_ ++ [_]) ++ []).getLast? = _; rw [List.append_nil, List.getLast?_concat]) rfl) (by decide) (by decide +kernel) (by decide +kernel)
      (.wait (cs := [.fs (.mount [b!"new"] 5 [])]) (late_says (x := .proc 3) (by show ((_ ++ []) ++ [_]).getLast? = _; rw [List.getLast?_concat]) rfl) (by decide) (by decide +kernel) (by decide +kernel)
        (.answer (cs := [.printf b!"late"]) (late_says (x := .ret .ok) (by show ((_ ++ [_]) ++ [_, _]).getLast? = _; simp; decide) rfl) (by decide) (by decide +kernel) (by decide +kernel)))⟩), rfl⟩

/-- `run` answers later; while its process is running, `pwd` is typed.  Whatever the timing, the answer of `run` comes first. -/
example (f : Nat → Slot) (hf : Fair f) : ∃ u t v N, run lateE (blank (List.replicate 32 1) (List.replicate 64 2)) (steps sHist) = .ok u ∧ Shell lateE t v ∧
    (∀ n ≥ N, driveN lateE f u b!"run\npwd\n" n = .ok (v, [])) ∧
      shown t.log = shown (Term.start lateE sHist).log ++ b!"run\n...late" ++ t.world.prompt lateE ++ b!"pwd\n/\r\n" ++ t.world.prompt lateE := by
  obtain ⟨l, W, hl, e⟩ := lateLine
  have h : Lives (fun _ => True) lateE lateA (Term.start lateE sHist) b!"run\npwd\n" (lateT2.keys lateE lateA b!"pwd\n") := by
    refine Lives_text b!"run" b!"\npwd\n" _ _ (by decide) (by decide +kernel) ?_
    refine .late (by decide) (by decide +kernel) (by decide) (by decide +kernel) hl ?_
    change Lives _ _ _ ⟨W, {}, lateT1.log ++ l⟩ _ _
    rw [← e]
    refine Lives_text b!"pwd" b!"\n" _ _ (by decide) (by decide +kernel) (.key (by decide +kernel) ?_ .done)
    intro _ _
    have : words (sent lateE.inSize (lateT2.keys lateE lateA b!"pwd").ed.line) = [b!"pwd"] := by decide +kernel
    rw [this]
    intro f id hf hx
    have hf' : (lateT2.keys lateE lateA b!"pwd").world.file? b!"pwd" = some f := hf
    have : ((lateT2.keys lateE lateA b!"pwd").world.file? b!"pwd").bind (·.exec) = some (.builtin .pwd) := by decide +kernel
    rw [hf', Option.bind_some, hx] at this
    cases this
  obtain ⟨u, v, N, e, H, k⟩ := C64_life lateE ⟨by decide, by decide, by decide, by decide, by decide⟩ lateConfig lateA _ lateDescribes (List.replicate 32 1)
    (List.replicate 64 2) rfl rfl sHist (by decide) (by decide) _ _ h f hf
  exact ⟨u, _, v, N, e, H, k, by decide +kernel⟩

end Ush.Props
