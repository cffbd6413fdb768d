import Verif.Proof.Calm
import Verif.Props.Printing
/-!
# ush_printf while somebody is typing (C58)
-/
namespace Ush.Props
open Spec

/-- A history that does not fault and in which the application keeps the rules. -/
structure Past (E : Env) (inBuf outBuf : List UInt8) (os : List Op) (u : Ush) : Prop where
  len : outBuf.length = E.outSize
  tidy : Tidy (os.map Op.call)
  polite : ∀ o ∈ os, o.Polite
  run : run E (blank inBuf outBuf) os = .ok u

/-- While the shell waits for a key, the output buffer is free except for at most three bytes: the echo of the last key. -/
theorem C58_sheet (E : Env) (cfg : Config E) (hE : EnvPolite E) (inBuf outBuf : List UInt8) (os : List Op) (u : Ush) (H : Past E inBuf outBuf os u)
    (hs : u.state = .readChar) : ∃ x : Str, x.length ≤ 3 ∧ sheet u = { text := x, nul := false, sent := x.length } := by
  have D : Drawn E u := run_drawn hE.toEnvTidy os ⟨H.len, fun h => by cases h⟩ H.tidy H.run
  have C : Calm u := run_calm hE os (Away.calm ⟨rfl, fun h => by cases h⟩) H.polite H.run
  obtain ⟨c1, c2⟩ := C.typing (by rw [hs]; rfl)
  by_cases hw : u.writeBuf = .outBuf
  · have d := D.sheet hw
    obtain ⟨-, w2, w3⟩ := d.write
    have hn : (sheet u).nul = false := by
      cases h : (sheet u).nul with
      | false => rfl
      | true =>
        have := d.full h
        have hb : (sheet u).bytes.length = (sheet u).text.length + 1 := by unfold Sheet.bytes; rw [h]; simp
        have := c2 hw
        have := cfg.outSize
        omega
    have hb : (sheet u).bytes.length = (sheet u).text.length := by unfold Sheet.bytes; rw [hn]; simp
    have := c2 hw
    have := d.le
    refine ⟨(sheet u).text, by omega, ?_⟩
    have hsent : (sheet u).sent = (sheet u).text.length := by omega
    have hfin : (sheet u).fin = false := by unfold sheet; split <;> rfl
    calc sheet u = ⟨(sheet u).text, (sheet u).nul, (sheet u).sent, (sheet u).fin⟩ := rfl
      _ = _ := by rw [hn, hsent, hfin]
  · exact ⟨[], by simp, by unfold sheet; rw [if_neg hw]; rfl⟩

/-- A message printed with `ush_printf` while somebody is typing: exactly its text appears, then a new prompt; the line typed so far is lost. -/
theorem C58_printf (E : Env) (cfg : Config E) (hin : 0 < E.inSize) (hE : EnvPolite E) (inBuf outBuf : List UInt8) (os : List Op) (u : Ush)
    (P : Past E inBuf outBuf os u) (W : World) (e : Editor) (H : Waiting E W u e) (s : Str) (hs : cNul ∉ s) (hl : s.length + 3 < E.outSize) (inp : List UInt8) :
    ∃ v w, runApi E u (.printf (.text s)) = .ok v ∧ v.log = u.log ∧ Steps E v inp w inp ∧ Waiting E W w {} ∧ w.log = u.log ++ outs (s ++ W.prompt E) := by
  obtain ⟨x, hx, hsh⟩ := C58_sheet E cfg hE inBuf outBuf os u P H.shows.state
  have g := C57_calls E cfg hin hE.toEnvTidy inBuf outBuf P.len os P.tidy u P.run W H.toHolds (.text s) [] ⟨trivial, fun _ _ _ => trivial⟩ inp
  rw [Sheet.run_printf, (C57_sheet E.outSize (sheet u) s (by rw [hsh]; show x.length < _; omega)).1 hs (by rw [hsh]; show x.length + _ < _; omega), hsh] at g
  obtain ⟨v, w, g1, g2, g3, g4, g5⟩ := g
  have g1 : (do let a ← runApi E u (.printf (.text s)); Except.ok a) = .ok v := g1
  refine ⟨v, w, by obtain ⟨a, h1, h2⟩ := M.bind_eq_ok.mp g1; cases h2; exact h1, by simpa [outs] using g4, g2, g3, ?_⟩
  rw [g5]
  simp [Sheet.bytes]

/-! ### Any mix of keys and calls -/

theorem Past.more {E : Env} {inBuf outBuf : List UInt8} {os : List Op} {u v : Ush} (P : Past E inBuf outBuf os u) (ps : List Op) (h1 : Tidy (ps.map Op.call))
    (h2 : ∀ o ∈ ps, o.Polite) (h3 : Ush.run E u ps = .ok v) : Past E inBuf outBuf (os ++ ps) v where
  len := P.len
  tidy := by rw [List.map_append]; exact tidy_append P.tidy h1
  polite := fun o ho => (List.mem_append.mp ho).elim (P.polite o) (h2 o)
  run := by rw [run_append, P.run]; exact h3

theorem Past.steps {E : Env} {inBuf outBuf : List UInt8} {os : List Op} {u v : Ush} {i r : List UInt8} (P : Past E inBuf outBuf os u) (h : Steps E u i v r) :
    ∃ ps, Past E inBuf outBuf ps v := by
  obtain ⟨n, h⟩ := h
  obtain ⟨ios, h⟩ := drive_run _ h
  refine ⟨_, P.more _ (tidy_services ios) (fun o ho => ?_) h⟩
  obtain ⟨i, -, rfl⟩ := List.mem_map.mp ho
  exact fun a h => nomatch h

theorem run_apis (E : Env) : ∀ (as : List Api) (u : Ush), run E u (as.map .api) = runApis E u as := by
  intro as
  induction as with
  | nil => intro u; rfl
  | cons a as ih =>
    intro u
    show (do let w ← runApi E u a; run E w (as.map .api)) = (do let w ← runApi E u a; runApis E w as)
    simp only [ih]

theorem Past.call {E : Env} {inBuf outBuf : List UInt8} {os : List Op} {u v : Ush} (P : Past E inBuf outBuf os u) (c : Call) (h : runApis E u c.apis = .ok v) :
    ∃ ps, Past E inBuf outBuf ps v := by
  refine ⟨_, P.more (c.apis.map .api) ?_ (fun o ho => ?_) (by rw [run_apis]; exact h)⟩
  · cases c with
    | fs o => cases o <;> trivial
    | «show» s => exact ⟨⟨_, _, rfl, trivial⟩, trivial⟩
    | _ => trivial
  · obtain ⟨a, ha, rfl⟩ := List.mem_map.mp ho
    rintro b hb s rfl
    cases hb
    cases c with
    | fs o => cases o <;> simp [Call.apis, FsOp.api] at ha
    | _ => simp [Call.apis] at ha

/-- Keys and calls of the application at the prompt, in any order, `ush_printf` included. -/
theorem C58_items (E : Env) (cfg : Config E) (hin : 0 < E.inSize) (A : App) (hA : A.Describes E) (hE : EnvPolite E) (inBuf outBuf : List UInt8) (is : List Item) :
    ∀ (t : Term) (os : List Op) (u : Ush), Past E inBuf outBuf os u → Shell E t u → t.ItemsOkN E A is → ∃ v, plays E u v is ∧ Shell E (t.items E A is) v := by
  induction is with
  | nil => intro t os u _ H _; exact ⟨u, rfl, H⟩
  | cons i is ih =>
    intro t os u P H ok
    cases i with
    | key c =>
      obtain ⟨v, s1, H1⟩ := key_sim cfg hin hA H ok.1 []
      obtain ⟨ps, P1⟩ := P.steps s1
      obtain ⟨w, s2, H2⟩ := ih _ ps v P1 H1 ok.2
      exact ⟨w, ⟨v, s1, H1.waiting.shows.state, s2⟩, H2⟩
    | call k =>
      have g : ∃ v x, runApis E u k.apis = .ok v ∧ Steps E v [] x [] ∧ Shell E (t.call E k) x := by
        cases k with
        | printf s =>
          obtain ⟨v, w, h1, -, h2, h3, h4⟩ := C58_printf E cfg hin hE inBuf outBuf os u P t.world t.ed H.waiting s ok.1.1 ok.1.2 []
          refine ⟨v, w, by simp [Call.apis, runApis, h1], h2, h3, ?_⟩
          rw [h4, H.log]
          simp [Term.call, tells, Talk.step, Talk.output]
        | _ => exact call_sim_term cfg hin H _ ok.1
      obtain ⟨v, x, e, s1, H1⟩ := g
      obtain ⟨ps, P1⟩ := P.call k e
      obtain ⟨qs, P2⟩ := P1.steps s1
      obtain ⟨w, s2, H2⟩ := ih _ qs x P2 H1 ok.2
      exact ⟨w, ⟨v, x, e, s1, H1.waiting.shows.state, s2⟩, H2⟩

/-- From `ush_init` on. -/
theorem C58_life (E : Env) (hc : CfgOk E) (cfg : Config E) (A : App) (hA : A.Describes E) (hE : EnvPolite E) (inBuf outBuf : List UInt8) (h1 : inBuf.length = E.inSize)
    (h2 : outBuf.length = E.outSize) (os : List FsOp) (hv : (initWorld E).ValidRun E os) (ok : (after E os).Ok E) (is : List Item)
    (hi : (Term.start E os).ItemsOkN E A is) :
    ∃ u v w, run E (blank inBuf outBuf) (steps os) = .ok u ∧ Steps E u [] v [] ∧ plays E v w is ∧ Shell E ((Term.start E os).items E A is) w := by
  obtain ⟨u, v, e, s, H, l⟩ := C38_startup E hc cfg inBuf outBuf h1 h2 os hv ok []
  have P : Past E inBuf outBuf (steps os) u := by
    refine ⟨h2, tidy_steps os, ?_, e⟩
    show ∀ o ∈ Op.init :: os.map (fun o => Op.api o.api), o.Polite
    intro o ho
    rcases List.mem_cons.mp ho with rfl | ho
    · exact fun a h => nomatch h
    · obtain ⟨f, -, rfl⟩ := List.mem_map.mp ho
      rintro a h s rfl
      cases f <;> cases h
  obtain ⟨ps, P1⟩ := P.steps s
  obtain ⟨w, s2, H2⟩ := C58_items E cfg hc.inSize A hA hE inBuf outBuf is (Term.start E os) ps v P1 ⟨H, l⟩ hi
  exact ⟨u, v, w, e, s, s2, H2⟩

instance (E : Env) (t : Term) (c : Call) : Decidable (t.NoteOk E c) := by
  unfold Term.NoteOk
  cases c <;> infer_instance

instance (E : Env) (A : App) (t : Term) (i : Item) : Decidable (t.ItemOkN E A i) := by
  cases i <;> (simp only [Term.ItemOkN]; infer_instance)

instance decItemsOkN (E : Env) (A : App) : (is : List Item) → (t : Term) → Decidable (t.ItemsOkN E A is)
  | [], _ => isTrue trivial
  | i :: is, t => by unfold Term.ItemsOkN; have := decItemsOkN E A is (t.item E A i); infer_instance

theorem pPolite : EnvPolite pE where
  toEnvTidy := pTidy
  hookP := fun h hh argv u a ha => by cases hh; cases ha
  execP := fun id argv u a ha s hs => by subst hs; simp [pE] at ha
  procP := fun id u a ha => by cases ha
  setP := fun id d u a ha s hs => by
    subst hs
    have ha : Api.setState s ∈ (if id = 8 then [Api.print (.str b!"set")] else []) := ha
    split at ha <;> simp at ha

/-- Messages while somebody types, erases and completes; afterwards the prompt is fresh. -/
def nItems : List Item := (b!"ls").map .key ++ [.key cBs, .call (.printf b!"alarm!\r\n")] ++ (b!"cd de\t").map .key ++ [.call (.printf b!"a")] ++ (b!"pwd\r").map .key ++
  [.call (.printf b!"b"), .call (.printf b!"c")]

example : (Term.start pE sHist).ItemsOkN pE pA nItems ∧
    shown ((Term.start pE sHist).items pE pA nItems).log = welcome ++ b!"[h /]$ ls\x08 \x08alarm!\r\n[h /]$ cd deva[h /]$ pwd\r\n/\r\n[h /]$ b[h /]$ c[h /]$ " := by
  constructor <;> decide +kernel

example : ∃ u v w, run pE (blank (List.replicate 32 1) (List.replicate 64 2)) (steps sHist) = .ok u ∧ Steps pE u [] v [] ∧ plays pE v w nItems ∧
    Shell pE ((Term.start pE sHist).items pE pA nItems) w :=
  C58_life pE pCfg pConfig pA pDescribes pPolite _ _ rfl rfl sHist pOk.1 pOk.2.1 nItems (by decide +kernel)

/-- What is shown after a history. -/
def shownBy (E : Env) (u : Ush) (os : List Op) : Option Str :=
  match run E u os with
  | .ok v => some (shown v.log)
  | .error _ => none

/-- The bound is exact: after the erase key, three bytes of the buffer are in use, and of a text of 61 bytes (the buffer has 64) 41 are shown, with a message; if no key has been
pressed, all are shown. -/
theorem C58_tight :
    let start := steps sHist ++ List.replicate 100 (.service ⟨none, true⟩)
    let text : Str := List.replicate 61 97
    shownBy pE (blank (List.replicate 32 1) (List.replicate 64 2)) (start ++ typing 10 [120, cBs] ++ .api (.printf (.text text)) :: List.replicate 150 (.service ⟨none, true⟩)) =
      some (welcome ++ b!"[h /]$ x\x08 \x08" ++ text.take 41 ++ b!"...overflow error\r\n" ++ [0] ++ b!"[h /]$ ") ∧
    shownBy pE (blank (List.replicate 32 1) (List.replicate 64 2)) (start ++ .api (.printf (.text text)) :: List.replicate 150 (.service ⟨none, true⟩)) =
      some (welcome ++ b!"[h /]$ " ++ text ++ b!"[h /]$ ") := by
  decide +kernel

end Ush.Props
