import Verif.Proof.Getter
import Verif.Props.Apps
/-!
# C79: getters that make library calls

`cat` reads the state of the shell after the getter has returned and goes back to that state when the data is printed (ush_cmd_cat.c:82-84).  A getter that prints has left the state
"printing" there: the shell prints the data, goes on printing, and never does anything else again.  `xxd` calls the getter before it sets up its process (ush_cmd_xxd.c:56-57): what
the getter prints is lost, and nothing else happens.
-/
namespace Ush.Props
open Spec

section
variable (E : Env) (G : Getters)

/-- Without calls in getters: the model of the other theorems. -/
theorem C79_same (hm : ∀ id, Mute G id) : (∀ io u, serviceG E G io u = service E io u) ∧ ∀ os u, runG E G u os = run E u os := by
  have srv : ∀ io u, serviceG E G io u = service E io u := by
    intro io u
    rcases serviceG_cases (E := E) io u with h | ⟨base, ext, hc, e1, e2⟩
    · exact h G
    · rw [e1, e2]
      rcases hc with ⟨id, -, hb, he⟩ | ⟨id, w, f, strs, -, hb, he⟩
      · rw [he, hb, hm id]; rfl
      · rw [he, hb, hm id]; rfl
  refine ⟨srv, fun os => ?_⟩
  induction os with
  | nil => intro u; rfl
  | cons o os ih =>
    intro u
    have : stepG E G u o = step E u o := by
      cases o with
      | service io => show (serviceG E G io u >>= _) = (service E io u >>= _); rw [srv]
      | _ => rfl
    rw [runG, run, this]
    cases step E u o with
    | error x => rfl
    | ok v => exact ih v

/-- As long as no getter with calls is called, nothing is different. -/
theorem C79_unheard (u v : Ush) (inp r : List UInt8) (ss : List Slot) (h : drive E u inp ss = .ok (v, r)) (l : List Event) (hl : v.log = u.log ++ l) (hu : Unheard G l) :
    driveG E G u inp ss = .ok (v, r) :=
  drive_unheard ss h hl hu

variable {id : Nat} {L1 L2 : List Event}

theorem utters_loud {G : Getters} {id : Nat} (h : Utters G id) : Loud G id := fun u => ⟨(h u).1, fun a ha => by
  obtain ⟨s, -, rfl | rfl⟩ := (h u).2 a ha <;> trivial⟩

/-- The first getter with calls is called by `cat`, and it prints.  `ss` is a timing for which the shell whose getters do not print gets beyond that point.  Then at some point `K` of
this timing, and for every continuation of it, the shell that prints has printed the data of that getter, as far as the terminal accepted it, and nothing else; it reads no further
key, and it is in the state "printing". -/
theorem C79_cat (loud : Loud G id) (u v : Ush) (inp r : List UInt8) (ss : List Slot) (h : drive E u inp ss = .ok (v, r)) (hl : v.log = u.log ++ (L1 ++ .getData id :: L2))
    (hu : Unheard G L1) (hx : ∀ strs, .exec (.builtin .xxd) strs ∉ L1) :
    ∃ x d q K, K ≤ ss.length ∧ x.log = u.log ++ L1 ∧ E.userGet id x = some d ∧ ∀ ss' z r', driveG E G u inp (ss.take K ++ ss') = .ok (z, r') →
      z.state = .writeChar ∧ r' = q ∧ z.log = u.log ++ (L1 ++ .getData id :: outs (d.take (ss'.countP (·.accept)))) := by
  obtain ⟨ss0, s, ss1, x, q, d, rfl, g1, g2, g3, -, g4, g5⟩ := first_get ss h hl hu hx
  refine ⟨x, d, q, ss0.length + 1, by simp, g2, g4, fun ss' z r' hz => ?_⟩
  have e : (ss0 ++ s :: ss1).take (ss0.length + 1) ++ ss' = ss0 ++ (s :: ss') := by
    rw [List.take_append]; simp
  rw [e, driveG_append, g1] at hz
  have hz : driveG E G x q (s :: ss') = .ok (z, r') := hz
  rw [driveG, g5] at hz
  obtain ⟨⟨y, q'⟩, hy, hz⟩ := M.bind_eq_ok.mp hz
  obtain ⟨w, hw, hy⟩ := M.bind_eq_ok.mp hy
  cases hy
  obtain ⟨k1, k2⟩ := prints_all _ (loud x).2 hw
  obtain ⟨t1, t2, t3⟩ := printsOn_ok rfl (k2 (.inl (loud x).1)) rfl rfl rfl hz
  refine ⟨t1, t2, ?_⟩
  rw [t3, catGot_log, k1]
  show x.log ++ [_] ++ _ = _
  rw [g2]; simp

/-- If it prints texts, nothing goes wrong on the way there: the shell is alive, and will print for ever. -/
theorem C79_utters (ut : Utters G id) (u v : Ush) (inp r : List UInt8) (ss : List Slot) (h : drive E u inp ss = .ok (v, r)) (hl : v.log = u.log ++ (L1 ++ .getData id :: L2))
    (hu : Unheard G L1) (hx : ∀ strs, .exec (.builtin .xxd) strs ∉ L1) :
    ∃ x d q K, K ≤ ss.length ∧ x.log = u.log ++ L1 ∧ E.userGet id x = some d ∧ ∀ ss', ∃ z, driveG E G u inp (ss.take K ++ ss') = .ok (z, q) ∧
      z.state = .writeChar ∧ z.log = u.log ++ (L1 ++ .getData id :: outs (d.take (ss'.countP (·.accept)))) := by
  obtain ⟨ss0, s, ss1, x, q, d, rfl, g1, g2, g3, g3', g4, g5⟩ := first_get ss h hl hu hx
  refine ⟨x, d, q, ss0.length + 1, by simp, g2, g4, fun ss' => ?_⟩
  have e : (ss0 ++ s :: ss1).take (ss0.length + 1) ++ ss' = ss0 ++ (s :: ss') := by
    rw [List.take_append]; simp
  obtain ⟨b, n, p, t, st, hw⟩ := utters_all (E := E) (G id x) (x.emit (.getData id)) (ut x).2
  obtain ⟨-, k2⟩ := prints_all _ (utters_loud ut x).2 hw
  have e2 : driveG E G u inp (ss0 ++ (s :: ss')) = driveG E G (catGot (redirect (x.emit (.getData id)) b n p t st) d) q ss' := by
    rw [driveG_append, g1]
    show driveG E G x q (s :: ss') = _
    rw [driveG, g5, hw]; rfl
  rw [e, e2, printsOn G d q ss' (catGot (redirect (x.emit (.getData id)) b n p t st) d) rfl (k2 (.inl (ut x).1)) rfl rfl g3']
  refine ⟨_, rfl, rfl, ?_⟩
  show x.log ++ [_] ++ outs (List.take _ (List.drop 0 d)) = _
  rw [g2]; simp

/-- A line with `xxd`, in the service call that calls the getter.  The getter prints texts.  Two service calls later the shell is as if it had printed nothing. -/
theorem C79_xxd (ut : Utters G id) (io : Io) (u v : Ush) (b : Bool) (h : service E io u = .ok (v, b)) (strs : List Str)
    (hl : v.log = u.log ++ (L1 ++ [.exec (.builtin .xxd) strs, .getData id])) (f : FileDesc) (hf : v.procFile = some f) (hq : f.process = some (.builtin .xxd)) :
    ∃ z, serviceG E G io u = .ok (z, true) ∧ z.log = v.log ∧ ∀ inp s1 s2 ss, driveG E G z inp (s1 :: s2 :: ss) = driveG E G v inp (s1 :: s2 :: ss) := by
  rcases step_cases h with ⟨-, l, e, hm⟩ | ⟨id', d, -, -, rfl, rfl, -⟩ | ⟨id', w, f', strs', ⟨l0, hw, -⟩, rfl, rfl, k⟩
  · rw [e] at hl
    exact absurd (by rw [List.append_cancel_left hl]; simp) (hm id)
  · have hl : (u.log ++ [.getData id'] : List Event) = _ := hl
    have := congrArg List.length (List.append_cancel_left hl)
    simp at this
  · have hid : id' = id := by
      rw [xxdGot_log] at hl
      have hl : (w.log ++ [.exec (.builtin .xxd) strs'] ++ [.getData id'] : List Event) = _ := hl
      have := congrArg List.getLast? hl
      simpa using this
    subst hid
    obtain ⟨b, n, p, t, st, ha⟩ := utters_all (E := E) (G id' (w.emit (.exec (.builtin .xxd) strs'))) ((w.emit (.exec (.builtin .xxd) strs')).emit (.getData id')) (ut _).2
    rw [k G, ha]
    generalize hg : E.userGet id' (w.emit (.exec (.builtin .xxd) strs')) = g at *
    have key : xxdGot (redirect ((w.emit (.exec (.builtin .xxd) strs')).emit (.getData id')) b n p t st) f' g =
        redirect (xxdGot ((w.emit (.exec (.builtin .xxd) strs')).emit (.getData id')) f' g) b n p t .processStart := by cases g <;> rfl
    refine ⟨_, rfl, by rw [xxdGot_log, xxdGot_log]; rfl, fun inp s1 s2 ss => ?_⟩
    rw [key]
    exact xxd_joins G (by cases g <;> rfl) hf hq b n p t inp s1 s2 ss

end

/-! ## From `ush_init` on, with any application -/

theorem accepts_grow (f : Nat → Slot) (hf : Fair f) (K : Nat) : ∀ m, ∃ N ≥ K, ∀ n ≥ N, m ≤ (((List.range n).map f).drop K).countP (·.accept) := by
  intro m
  induction m with
  | zero => exact ⟨K, Nat.le_refl _, fun _ _ => Nat.zero_le _⟩
  | succ m ih =>
    obtain ⟨N, hNK, hN⟩ := ih
    obtain ⟨i, hi, ha⟩ := hf.2 N
    refine ⟨i + 1, by omega, fun n hn => ?_⟩
    obtain ⟨j, rfl⟩ := Nat.exists_eq_add_of_le hn
    have e : ((List.range (i + 1 + j)).map f).drop K = (((List.range i).map f).drop K ++ [f i]) ++ ((List.range j).map fun k => f (i + 1 + k)) := by
      rw [List.range_add, List.range_succ]
      simp only [List.map_append, List.map_cons, List.map_nil, List.map_map]
      rw [List.drop_append_of_le_length (by simp; omega), List.drop_append_of_le_length (by simp; omega)]
      rfl
    have := hN i hi
    rw [e]
    simp only [List.countP_append, List.countP_singleton, ha, if_true]
    omega

theorem first_mem {α : Type} {a : α} : ∀ {l : List α}, a ∈ l → ∃ l1 l2, l = l1 ++ a :: l2 ∧ a ∉ l1 := by
  intro l h
  classical
  induction l with
  | nil => cases h
  | cons b l ih =>
    by_cases e : a = b
    · exact ⟨[], l, by rw [e]; rfl, by simp⟩
    · rcases List.mem_cons.mp h with h | h
      · exact absurd h e
      · obtain ⟨l1, l2, rfl, hn⟩ := ih h
        exact ⟨b :: l1, l2, rfl, by simp [e, hn]⟩

section
variable (E : Env) (cfg : Config E) (A : App) (hA : A.Describes E) (hg : ∀ id l, (A.get id l).length ≤ 16 ^ 8) (hc : CfgOk E)
variable (inBuf outBuf : List UInt8) (h1 : inBuf.length = E.inSize) (h2 : outBuf.length = E.outSize) (os : List FsOp)
variable (hv : (initWorld E).ValidRun E os) (hW : (after E os).Sound E) (cs : List UInt8) (ha : (Term.start E os).AppAll E A cs) (hn : (Term.start E os).NearAppAll E A cs)
variable (f : Nat → Slot) (hf : Fair f) (G : Getters)
include cfg hA hg hc h1 h2 hv hW ha hn hf

/-- If no getter with calls is called, the shell answers all of the keys as the specified terminal. -/
theorem C79_lives (hu : Unheard G ((Term.start E os).keys E A cs).log) :
    ∃ u v K, run E (blank inBuf outBuf) (steps os) = .ok u ∧ Shell E ((Term.start E os).keys E A cs) v ∧ ∀ n ≥ K, driveNG E G f u cs n = .ok (v, []) := by
  obtain ⟨u, e, k, -⟩ := C73_life E cfg A hA hg hc inBuf outBuf h1 h2 os hv hW cs ha f hf
  obtain ⟨v, K, H, hK⟩ := k hn
  refine ⟨u, v, K, e, H, fun n hn => ?_⟩
  obtain ⟨l, hl⟩ := drive_log _ (hK n hn)
  simp only at hl
  refine drive_unheard _ (hK n hn) hl.symm fun i hi => hu i ?_
  rw [← H.log, ← hl]; simp [hi]

/-- The first of them is called by `cat`, and prints: the data is printed, and then the shell does not answer any more. -/
theorem C79_life (id : Nat) (loud : Loud G id) (L1 L2 : List Event) (hl : ((Term.start E os).keys E A cs).log = L1 ++ .getData id :: L2) (hu : Unheard G L1)
    (hx : ∀ strs, .exec (.builtin .xxd) strs ∉ L1) :
    ∃ u K, run E (blank inBuf outBuf) (steps os) = .ok u ∧ ∀ n ≥ K, ∀ z r, driveNG E G f u cs n = .ok (z, r) → z.state = .writeChar ∧ z.log = L1 ++ .getData id :: outs (A.get id L1) := by
  obtain ⟨u, e, k, -⟩ := C73_life E cfg A hA hg hc inBuf outBuf h1 h2 os hv hW cs ha f hf
  obtain ⟨v, K, H, hK⟩ := k hn
  obtain ⟨u', e', -, eu⟩ := boot hc inBuf outBuf h1 h2 os hv
  rw [e] at e'; cases e'
  obtain ⟨l, hl'⟩ := drive_log _ (hK K (Nat.le_refl _))
  simp only at hl'
  have hlog := hl'
  rw [H.log, hl] at hlog
  obtain ⟨m, m1, m2⟩ := split_mute hlog (by intro i hi; rw [eu] at hi; simp at hi)
  subst m1 m2
  obtain ⟨x, d, q, K', hK', xl, xd, key⟩ := C79_cat E G loud u v cs [] _ (hK K (Nat.le_refl _)) (by rw [← hl']) hu.right (fun strs hm => hx strs (by simp [hm]))
  rw [hA.get id (u.log ++ m) x xl] at xd
  cases xd
  obtain ⟨N, hNK, hN⟩ := accepts_grow f hf K' (A.get id (u.log ++ m)).length
  simp only [List.length_map, List.length_range] at hK'
  refine ⟨u, max N K, e, fun n hn z r hz => ?_⟩
  have en : (List.range n).map f = ((List.range K).map f).take K' ++ ((List.range n).map f).drop K' := by
    rw [← List.map_take, List.take_range, Nat.min_eq_left hK']
    obtain ⟨j, rfl⟩ := Nat.exists_eq_add_of_le (show K' ≤ n by omega)
    rw [List.range_add, List.map_append, List.drop_left' (by simp)]
  unfold driveNG at hz
  rw [en] at hz
  obtain ⟨z1, -, z3⟩ := key _ z r hz
  refine ⟨z1, ?_⟩
  rw [z3, List.take_of_length_le (hN n (by omega))]; simp

/-- One getter makes calls: it prints texts.  The keys do not contain `xxd`.  The shell survives the keys exactly if this getter is not called. -/
theorem C79_alive (id : Nat) (ut : Utters G id) (hm : ∀ i, i ≠ id → Mute G i) (hx : ∀ strs, .exec (.builtin .xxd) strs ∉ ((Term.start E os).keys E A cs).log) :
    ∃ u, run E (blank inBuf outBuf) (steps os) = .ok u ∧
      ((∀ K, ∃ n ≥ K, ∃ v r, driveNG E G f u cs n = .ok (v, r) ∧ v.state = .readChar) ↔ .getData id ∉ ((Term.start E os).keys E A cs).log) := by
  by_cases h : .getData id ∈ ((Term.start E os).keys E A cs).log
  · obtain ⟨L1, L2, hl, hn'⟩ := first_mem h
    obtain ⟨u, K, e, k⟩ := C79_life E cfg A hA hg hc inBuf outBuf h1 h2 os hv hW cs ha hn f hf G id (utters_loud ut) L1 L2 hl
      (fun i hi => hm i fun e => hn' (e ▸ hi)) (fun strs hs => hx strs (by rw [hl]; simp [hs]))
    refine ⟨u, e, fun h => ?_, fun h' => absurd h h'⟩
    obtain ⟨n, hn, v, r, e, hs⟩ := h K
    rw [(k n hn v r e).1] at hs; cases hs
  · obtain ⟨u, v, K, e, H, k⟩ := C79_lives E cfg A hA hg hc inBuf outBuf h1 h2 os hv hW cs ha hn f hf G (fun i hi => hm i fun e => h (e ▸ hi))
    exact ⟨u, e, fun _ => h, fun _ K' => ⟨max K' K, Nat.le_max_left _ _, v, [], k _ (Nat.le_max_right _ _), H.waiting.shows.state⟩⟩

end

/-! ## Examples -/

/-- The device of C73; the getter of its file prints that it measures. -/
def plugG : Getters := fun id _ => if id = 1 then [.print (.str b!"measuring")] else []

theorem plugUtters : Utters plugG 1 := fun _ => ⟨by simp [plugG], fun a ha => ⟨b!"measuring", by decide, .inl (by simpa [plugG] using ha)⟩⟩

theorem plugMute (i : Nat) (h : i ≠ 1) : Mute plugG i := fun _ => by simp [plugG, h]

def isXxd : Event → Bool
  | .exec (.builtin .xxd) _ => true
  | _ => false

theorem no_xxd {l : List Event} (h : l.any isXxd = false) (strs : List Str) : .exec (.builtin .xxd) strs ∉ l := fun hm => by
  have := List.any_eq_false.mp h _ hm
  exact this rfl

/-- What is printed when the keys arrive one after the other and the terminal always accepts, after `n` service calls, and whether the shell waits for a key then. -/
def plugShows (cs : List UInt8) (n : Nat) : Option (Str × Bool) :=
  match run plugE (blank (List.replicate 32 0) (List.replicate 64 0)) (steps plugHist) with
  | .ok u => match driveNG plugE plugG (fun _ => ⟨true, true⟩) u cs n with
    | .ok (v, _) => some (v.log.filterMap (fun e => match e with | .out c => some c | _ => none), decide (v.state = .readChar))
    | _ => none
  | _ => none

/-- With every fair timing: `cat` of the plugged device kills the shell; with a file that is not there, it goes on. -/
theorem C79_plug (inBuf outBuf : List UInt8) (h1 : inBuf.length = 32) (h2 : outBuf.length = 64) (f : Nat → Slot) (hf : Fair f) :
    ∃ u, run plugE (blank inBuf outBuf) (steps plugHist) = .ok u ∧
      (¬ ∀ K, ∃ n ≥ K, ∃ v r, driveNG plugE plugG f u b!"plug\ncat /x/temp\npwd\n" n = .ok (v, r) ∧ v.state = .readChar) ∧
      ∀ K, ∃ n ≥ K, ∃ v r, driveNG plugE plugG f u b!"plug\ncat /x/tem\npwd\n" n = .ok (v, r) ∧ v.state = .readChar := by
  have hc : CfgOk plugE := ⟨by decide, by decide, by decide, by decide, by decide⟩
  have hP : after plugE plugHist ∈ plugWorlds := by decide
  have go := fun cs hn hx => C79_alive plugE plugConfig plugApp plugDescribes (fun _ _ => Nat.le_of_ble_eq_true rfl) hc inBuf outBuf h1 h2 plugHist (by decide)
    (plugKeeps.sound _ hP) cs (keeps_all plugKeeps cs _ hP) hn f hf plugG 1 plugUtters plugMute hx
  obtain ⟨u, e, k⟩ := go b!"plug\ncat /x/temp\npwd\n" (by decide +kernel) (no_xxd (by decide +kernel))
  obtain ⟨u', e', k'⟩ := go b!"plug\ncat /x/tem\npwd\n" (by decide +kernel) (no_xxd (by decide +kernel))
  rw [e] at e'; cases e'
  exact ⟨u, e, fun h => k.mp h (by decide +kernel), k'.mpr (by decide +kernel)⟩

/-- The shell that hangs has printed the data, the line after it is not read; with `xxd` the text of the getter is lost. -/
example : plugShows b!"plug\ncat /x/temp\npwd\n" 1000 = some (b!"uShell 0.1.0\r\n\x1b[35m[h /]$ \x1b[0mplug\nin\r\n\x1b[35m[h /]$ \x1b[0mcat /x/temp\n21", false) ∧
    plugShows b!"plug\nxxd /x/temp\n" 1000 = some (b!"uShell 0.1.0\r\n\x1b[35m[h /]$ \x1b[0mplug\nin\r\n\x1b[35m[h /]$ \x1b[0mxxd /x/temp\n" ++
      b!"00000000: 32 31                    21      \r\n\x1b[35m[h /]$ \x1b[0m", true) := by
  constructor <;> decide +kernel

/-- The device, `n` service calls after the start, without calls in its getter. -/
def plugAt (cs : List UInt8) (n : Nat) : M (Ush × Ush × List UInt8) := do
  let u ← run plugE (blank (List.replicate 32 0) (List.replicate 64 0)) (steps plugHist)
  let p ← drive plugE u cs ((List.range n).map fun _ => ⟨true, true⟩)
  return (u, p)

/-- The hypotheses of `C79_cat` and `C79_utters` are met. -/
example : ∃ u v inp r ss L1 L2, drive plugE u inp ss = .ok (v, r) ∧ v.log = u.log ++ (L1 ++ .getData 1 :: L2) ∧ Unheard plugG L1 ∧ ∀ strs, .exec (.builtin .xxd) strs ∉ L1 := by
  have h : (plugAt b!"plug\ncat /x/temp\n" 400).toOption.any (fun p => decide (.getData 1 ∈ p.2.1.log) && !p.1.log.any Event.isGet && !p.2.1.log.any isXxd) = true := by decide +kernel
  cases e : plugAt b!"plug\ncat /x/temp\n" 400 with
  | error x => rw [e] at h; cases h
  | ok p =>
    obtain ⟨u, v, r⟩ := p
    rw [e] at h
    simp only [Except.toOption, Option.any_some, Bool.and_eq_true, decide_eq_true_eq, Bool.not_eq_true'] at h
    obtain ⟨⟨h1, h2⟩, h3⟩ := h
    unfold plugAt at e
    obtain ⟨u', -, e⟩ := M.bind_eq_ok.mp e
    obtain ⟨p, hd, e⟩ := M.bind_eq_ok.mp e
    cases e
    obtain ⟨l, hl⟩ := drive_log _ hd
    simp only at hl
    have hm : .getData 1 ∈ l := by
      rw [← hl] at h1
      rcases List.mem_append.mp h1 with h | h
      · exact absurd rfl (List.any_eq_false.mp h2 _ h)
      · exact h
    obtain ⟨L1, L2, rfl, hn⟩ := first_mem hm
    exact ⟨_, _, _, _, _, L1, L2, hd, hl.symm, fun i hi => plugMute i fun e => hn (e ▸ hi), fun strs hx => no_xxd h3 strs (by rw [← hl]; simp [hx])⟩

/-- Those of `C79_xxd`, too. -/
example : ∃ u v b L1 strs f, service plugE ⟨none, true⟩ u = .ok (v, b) ∧ v.log = u.log ++ (L1 ++ [.exec (.builtin .xxd) strs, .getData 1]) ∧ v.procFile = some f ∧
    f.process = some (.builtin .xxd) := by
  have h : (plugAt b!"plug\nxxd /x/temp\n" 147 >>= fun p => service plugE ⟨none, true⟩ p.2.1 >>= fun q => pure (p.2.1, q)).toOption.any (fun p =>
      decide (p.2.1.log = p.1.log ++ ([.hook [b!"xxd", b!"/x/temp"]] ++ [.exec (.builtin .xxd) [b!"xxd", b!"/x/temp"], .getData 1])) &&
        p.2.1.procFile.any (fun f => decide (f.process = some (.builtin .xxd)))) = true := by decide +kernel
  cases e : plugAt b!"plug\nxxd /x/temp\n" 147 with
  | error x => rw [e] at h; cases h
  | ok p =>
    rw [e] at h
    simp only [M.ok_bind] at h
    cases e2 : service plugE ⟨none, true⟩ p.2.1 with
    | error x => rw [e2] at h; cases h
    | ok q =>
      rw [e2] at h
      simp only [M.ok_bind, M.pure_eq, Except.toOption, Option.any_some, Bool.and_eq_true, decide_eq_true_eq] at h
      obtain ⟨h1, h2⟩ := h
      cases e3 : q.1.procFile with
      | none => rw [e3] at h2; cases h2
      | some f =>
        rw [e3] at h2
        exact ⟨p.2.1, q.1, q.2, _, _, f, e2, h1, e3, by simpa using h2⟩

end Ush.Props
