import Verif.Props.Linux
/-!
# The files and commands of the example demo_linux (C54)
-/
namespace Ush.Props
open Spec

/-- `cat` of the file `p`, however it is named, asks its getter and prints the data; the prompt then shows the hostname as before. -/
theorem linux_cat (m : Machinery) (t : Term) (hW : linuxWorld.Moved t.world) (c : UInt8) (hc : isEnter c = true) (he : t.ed.esc = .none) (a : Str)
    (hw : words (sent 256 t.ed.line) = [b!"cat", a]) {q : Str × Option Cb × Option Nat × Option Nat} (hq : q ∈ linuxFiles) (ha : resolveText t.world.path a = q.1) {id : Nat}
    (hi : q.2.2.1 = some id) (h : Str) :
    ∃ l, linuxVars l = linuxVars t.log ∧ l = t.log ++ .inp c :: outs (enterEcho c) ++ [.exec (.builtin .cat) [b!"cat", a]] ∧
      (t.key ((linux m).named h) (linuxApp m) c).log = l ++ [.getData id] ++ outs ((linuxApp m).get id l ++ t.world.prompt ((linux m).named h)) := by
  obtain ⟨f, hf, -, hg, -⟩ := linux_found hW hq ha
  rw [hi] at hg
  have h1 : c ≠ cEtx := by rintro rfl; cases hc
  have h2 : c ≠ cTab := by rintro rfl; cases hc
  obtain ⟨g, hg1, hg2⟩ := linux_catCmd hW
  have er : ∀ l argv, (Talk.start t.world c).run ((linux m).named h) ((linuxApp m).hook l argv) = (Talk.start t.world c, []) := fun _ _ => rfl
  have e0 : ∀ argv, hookEvents ((linux m).named h) argv = [] := fun _ => rfl
  have e1 : (Talk.start t.world c).world = t.world := rfl
  unfold Term.key
  rw [if_neg h1, if_neg h2, hc, he]
  simp only [beq_self_eq_true, Bool.and_self, if_true, show ((linux m).named h).inSize = 256 from rfl, hw, lineAnswer, er, e0, e1, hg1, List.map_nil, List.append_nil, List.nil_append, fileAnswer, hg2, builtinAnswer,
    catError, hf, hg, reduceCtorEq, if_false, catAll, Option.bind_some, catLog, List.flatMap_cons, List.flatMap_nil, Term.add]
  refine ⟨t.log ++ .inp c :: outs (enterEcho c) ++ [.exec (.builtin .cat) [b!"cat", a]], ?_, rfl, ?_⟩
  rotate_left
  · have ho : ∀ a b : Str, outs (a ++ b) = outs a ++ outs b := fun a b => List.map_append
    simp only [List.append_assoc, List.cons_append, List.nil_append, ho]
  · rw [vars_deeds]
    simp only [deeds_append, deeds_inp, deeds_outs, deeds_exec, deeds_nil, List.append_nil]
    rw [vars_append, ← vars_deeds]
    cases linuxVars t.log <;> rfl

theorem linux_name (m : Machinery) (t : Term) {x : Str} (hx : linuxHost t.log = x) (c : UInt8) {es : List Event} {o : Str} (he : ∀ l, linuxVars l = linuxVars t.log → linuxVars (l ++ es) = linuxVars t.log)
    (h : (t.key (linux m) (linuxApp m) c).log = t.log ++ .inp c :: outs (enterEcho c) ++ es ++ outs o) : linuxHost.after (linux m) (linuxApp m) t c = x := by
  unfold Host.after
  rw [h, ← hx]
  unfold linuxHost linuxRead
  have h1 : linuxVars (t.log ++ .inp c :: outs (enterEcho c)) = linuxVars t.log := by
    rw [vars_deeds, deeds_append, deeds_inp, deeds_outs, List.append_nil, ← vars_deeds]
  have h2 := he _ h1
  rw [vars_deeds, deeds_append, deeds_outs, List.append_nil, ← vars_deeds, h2]

/-- The files of the example show the machine: the hostname, the memory, the non-volatile memory; and the data that do not change. -/
theorem C54_read (m : Machinery) (t : Term) (hW : linuxWorld.Moved t.world) (x : Machine) (hx : Shows t.log t.world.path (some x)) (c : UInt8) (hc : isEnter c = true)
    (he : t.ed.esc = .none) (a : Str) (hw : words (sent 256 t.ed.line) = [b!"cat", a]) (id : Nat) (d : Str)
    (h : (resolveText x.dir a, id, d) ∈ [(b!"/etc/hostname", 3, x.host), (b!"/dev/mem/ram", 6, x.ram), (b!"/dev/mem/eeprom", 7, x.eeprom),
      (b!"/readme.txt", 1, Machine.readme), (b!"/etc/config", 2, Machine.config), (b!"/dev/mem/rom", 8, (List.range 1024).map m.rom)]) :
    (t.keyH (linux m) linuxHost (linuxApp m) c).log = t.log ++ .inp c :: outs (enterEcho c) ++ [.exec (.builtin .cat) [b!"cat", a], .getData id] ++
      outs (d ++ t.world.prompt ((linux m).named x.host)) := by
  obtain ⟨e1, e2, e3, e4⟩ := hx.1 x rfl
  have key : ∃ q ∈ linuxFiles, resolveText x.dir a = q.1 ∧ q.2.2.1 = some id ∧ ∀ l, linuxVars l = linuxVars t.log → (linuxApp m).get id l = d := by
    have hr : ∀ (y : LinuxVars → Str) l, linuxVars l = linuxVars t.log → linuxRead y l = linuxRead y t.log := fun y l h => by unfold linuxRead; rw [h]
    simp only [List.mem_cons, List.not_mem_nil, or_false, Prod.mk.injEq] at h
    rcases h with ⟨h, rfl, rfl⟩ | ⟨h, rfl, rfl⟩ | ⟨h, rfl, rfl⟩ | ⟨h, rfl, rfl⟩ | ⟨h, rfl, rfl⟩ | ⟨h, e5, e6⟩
    · exact ⟨(b!"/etc/hostname", none, some 3, some 3), by decide, h, rfl, fun l h => (hr (·.host) l h).trans e1⟩
    · exact ⟨(b!"/dev/mem/ram", none, some 6, some 6), by decide, h, rfl, fun l h => (hr _ l h).trans e2⟩
    · exact ⟨(b!"/dev/mem/eeprom", none, some 7, some 7), by decide, h, rfl, fun l h => (hr _ l h).trans e3⟩
    · exact ⟨(b!"/readme.txt", none, some 1, none), by decide, h, rfl, fun l h => by simp only [linuxApp]; rfl⟩
    · exact ⟨(b!"/etc/config", none, some 2, none), by decide, h, rfl, fun l h => by simp only [linuxApp]; rfl⟩
    · refine ⟨(b!"/dev/mem/rom", none, some 8, none), by decide, h, by rw [e5], fun l h => ?_⟩
      rw [e5, e6]
      simp only [linuxApp, Machinery.romData]
  obtain ⟨q, hq, k1, k2, k3⟩ := key
  rw [← e4] at k1
  have hg : ∀ l, linuxVars l = linuxVars t.log → linuxVars (l ++ [.exec (.builtin .cat) [b!"cat", a], .getData id]) = linuxVars t.log := by
    intro l hl
    rw [vars_append, hl]
    cases linuxVars t.log <;> rfl
  have hn : linuxHost.after (linux m) (linuxApp m) t c = x.host := by
    obtain ⟨l, -, rfl, e⟩ := linux_cat m t hW c hc he a hw hq k1 k2 (linux m).hostname
    exact linux_name m t e1 c hg (o := (linuxApp m).get id (t.log ++ .inp c :: outs (enterEcho c) ++ [.exec (.builtin .cat) [b!"cat", a]]) ++ t.world.prompt (linux m)) (e.trans (by simp only [List.append_assoc, List.cons_append, List.nil_append]; rfl))
  obtain ⟨l, hl, hl', e⟩ := linux_cat m t hW c hc he a hw hq k1 k2 (linuxHost.after (linux m) (linuxApp m) t c)
  unfold Term.keyH
  rw [e, hn, k3 l hl, hl']
  simp

/-- `cat /dev/random` shows the four bytes of the next random number. -/
theorem C54_random (m : Machinery) (t : Term) (hW : linuxWorld.Moved t.world) (c : UInt8) (hc : isEnter c = true) (he : t.ed.esc = .none) (a : Str)
    (hw : words (sent 256 t.ed.line) = [b!"cat", a]) (ha : resolveText t.world.path a = b!"/dev/random") :
    ∃ l b0 b1 b2 b3, l = t.log ++ .inp c :: outs (enterEcho c) ++ [.exec (.builtin .cat) [b!"cat", a]] ∧
      (m.rand l).toNat = b0.toNat + 256 * (b1.toNat + 256 * (b2.toNat + 256 * b3.toNat)) ∧
      (t.keyH (linux m) linuxHost (linuxApp m) c).log = l ++ [.getData 5] ++ outs ([b0, b1, b2, b3] ++ t.world.prompt ((linux m).named (linuxHost t.log))) := by
  have hq : (b!"/dev/random", none, some 5, none) ∈ linuxFiles := by decide
  have hg : ∀ l, linuxVars l = linuxVars t.log → linuxVars (l ++ [.exec (.builtin .cat) [b!"cat", a], .getData 5]) = linuxVars t.log := by
    intro l hl
    rw [vars_append, hl]
    cases linuxVars t.log <;> rfl
  have hn : linuxHost.after (linux m) (linuxApp m) t c = linuxHost t.log := by
    obtain ⟨l, -, rfl, e⟩ := linux_cat m t hW c hc he a hw hq ha rfl (linux m).hostname
    exact linux_name m t rfl c hg (o := (linuxApp m).get 5 (t.log ++ .inp c :: outs (enterEcho c) ++ [.exec (.builtin .cat) [b!"cat", a]]) ++ t.world.prompt (linux m)) (e.trans (by simp only [List.append_assoc, List.cons_append, List.nil_append]; rfl))
  obtain ⟨l, -, hl, e⟩ := linux_cat m t hW c hc he a hw hq ha rfl (linuxHost.after (linux m) (linuxApp m) t c)
  refine ⟨l, (m.rand l).toUInt8, (m.rand l >>> 8).toUInt8, (m.rand l >>> 16).toUInt8, (m.rand l >>> 24).toUInt8, hl, ?_, ?_⟩
  rotate_left
  · unfold Term.keyH
    rw [e, hn]
    rfl
  · generalize m.rand l = r
    have := r.toNat_lt
    simp only [UInt32.toNat_toUInt8, UInt32.toNat_shiftRight, UInt32.reduceToNat, Nat.reduceMod, Nat.reducePow, Nat.shiftRight_eq_div_pow]
    omega

/-- A file that is executed by the application, which prints `o`. -/
theorem linux_exec (m : Machinery) (t : Term) (hW : linuxWorld.Moved t.world) (c : UInt8) (hc : isEnter c = true) (he : t.ed.esc = .none) (a : Str) (as : List Str)
    (hw : words (sent 256 t.ed.line) = a :: as) {q : Str × Option Cb × Option Nat × Option Nat} (hq : q ∈ linuxFiles) (ha : resolveText t.world.path a = q.1) {id : Nat}
    (hi : q.2.1 = some (.user id)) {l : List Event} (hl : l = t.log ++ .inp c :: outs (enterEcho c) ++ [.exec (.user id) (a :: as)]) {o : Str}
    (ho : ∀ h, (((Talk.start t.world c).run ((linux m).named h) ((linuxApp m).exec id l (a :: as))).1.world,
      ((Talk.start t.world c).run ((linux m).named h) ((linuxApp m).exec id l (a :: as))).1.output,
      ((Talk.start t.world c).run ((linux m).named h) ((linuxApp m).exec id l (a :: as))).2) = (t.world, o, [])) :
    (t.keyH (linux m) linuxHost (linuxApp m) c).log = l ++ outs (o ++ t.world.prompt ((linux m).named (linuxHost t.log))) := by
  obtain ⟨f, hf, hx, -, -⟩ := linux_found hW hq ha
  rw [hi] at hx
  have key : ∀ h, (t.key ((linux m).named h) (linuxApp m) c).log = l ++ outs (o ++ t.world.prompt ((linux m).named h)) := by
    intro h
    have h1 : c ≠ cEtx := by rintro rfl; cases hc
    have h2 : c ≠ cTab := by rintro rfl; cases hc
    have er : ∀ l argv, (Talk.start t.world c).run ((linux m).named h) ((linuxApp m).hook l argv) = (Talk.start t.world c, []) := fun _ _ => rfl
    have e0 : ∀ argv, hookEvents ((linux m).named h) argv = [] := fun _ => rfl
    have e1 : (Talk.start t.world c).world = t.world := rfl
    have o1 := congrArg (·.1) (ho h)
    have o2 := congrArg (·.2.1) (ho h)
    have o3 := congrArg (·.2.2) (ho h)
    rw [hl] at o1 o2 o3
    dsimp only at o1 o2 o3
    unfold Term.key
    rw [if_neg h1, if_neg h2, hc, he, show ((linux m).named h).inSize = 256 from rfl, hw, hl]
    simp only [beq_self_eq_true, Bool.and_self, if_true, lineAnswer, er, e0, e1, hf, List.map_nil, List.append_nil, List.nil_append, fileAnswer, hx, Term.add, o1, o2, o3, tells]
    simp only [List.append_assoc, List.cons_append, List.nil_append]
  have hg : ∀ k, linuxVars k = linuxVars t.log → linuxVars (k ++ [.exec (.user id) (a :: as)]) = linuxVars t.log := by
    intro k hk
    rw [vars_append, hk]
    cases linuxVars t.log <;> rfl
  have hn : linuxHost.after (linux m) (linuxApp m) t c = linuxHost t.log := linux_name m t rfl c hg (hl ▸ key (linux m).hostname)
  unfold Term.keyH
  rw [key, hn]

/-- `uptime` prints the number of seconds. -/
theorem C54_uptime (m : Machinery) (t : Term) (hW : linuxWorld.Moved t.world) (c : UInt8) (hc : isEnter c = true) (he : t.ed.esc = .none) (a : Str)
    (hw : words (sent 256 t.ed.line) = [a]) (ha : resolveText t.world.path a = b!"/bin/uptime") :
    ∃ l s, l = t.log ++ .inp c :: outs (enterEcho c) ++ [.exec (.user 2) [a]] ∧ Numeral s (m.time l).toNat ∧
      (t.keyH (linux m) linuxHost (linuxApp m) c).log = l ++ outs (b!"time: " ++ s ++ b!"s\r\n" ++ t.world.prompt ((linux m).named (linuxHost t.log))) := by
  refine ⟨_, _, rfl, decimal_numeral 19 _ (Nat.lt_of_lt_of_le (UInt64.toNat_lt _) (by decide)), ?_⟩
  refine linux_exec m t hW c hc he a [] hw (q := (b!"/bin/uptime", some (.user 2), none, none)) (by decide) ha rfl rfl fun h => ?_
  simp [linuxApp, Talk.run, Talk.step, Talk.start, Talk.output]

/-- `print` prints its argument. -/
theorem C54_print (m : Machinery) (t : Term) (hW : linuxWorld.Moved t.world) (c : UInt8) (hc : isEnter c = true) (he : t.ed.esc = .none) (a s : Str)
    (hw : words (sent 256 t.ed.line) = [a, s]) (hs : cNul ∉ s) (ha : resolveText t.world.path a = b!"/bin/print") :
    (t.keyH (linux m) linuxHost (linuxApp m) c).log = t.log ++ .inp c :: outs (enterEcho c) ++ [.exec (.user 3) [a, s]] ++
      outs (s ++ crlf ++ t.world.prompt ((linux m).named (linuxHost t.log))) := by
  refine linux_exec m t hW c hc he a [s] hw (q := (b!"/bin/print", some (.user 3), none, none)) (by decide) ha rfl rfl fun h => ?_
  have : s.takeWhile (· ≠ cNul) = s := List.takeWhile_eq_self_iff.mpr fun x hx => by simpa using fun e : x = cNul => hs (e ▸ hx)
  simp only [linuxApp, List.length_cons, List.length_nil, ne_eq, not_true_eq_false, if_false, Talk.run, Talk.step, Talk.start, Talk.output, List.append_nil,
    List.getElem?_cons_succ, List.getElem?_cons_zero, Option.getD_some, if_true]
  simp only [ne_eq] at this
  rw [this]

/-- With another number of arguments, both complain. -/
theorem C54_usage (m : Machinery) (t : Term) (hW : linuxWorld.Moved t.world) (c : UInt8) (hc : isEnter c = true) (he : t.ed.esc = .none) (a : Str) (as : List Str)
    (hw : words (sent 256 t.ed.line) = a :: as) (id : Nat)
    (ha : resolveText t.world.path a = b!"/bin/uptime" ∧ id = 2 ∧ as.length ≠ 0 ∨ resolveText t.world.path a = b!"/bin/print" ∧ id = 3 ∧ as.length ≠ 1) :
    (t.keyH (linux m) linuxHost (linuxApp m) c).log = t.log ++ .inp c :: outs (enterEcho c) ++ [.exec (.user id) (a :: as)] ++
      outs (b!"error: wrong arguments\r\n" ++ t.world.prompt ((linux m).named (linuxHost t.log))) := by
  rcases ha with ⟨ha, rfl, hn⟩ | ⟨ha, rfl, hn⟩
  · refine linux_exec m t hW c hc he a as hw (q := (b!"/bin/uptime", some (.user 2), none, none)) (by decide) ha rfl rfl fun h => ?_
    have : (a :: as).length ≠ 1 := by rw [List.length_cons]; omega
    simp only [linuxApp, if_pos this]
    rfl
  · refine linux_exec m t hW c hc he a as hw (q := (b!"/bin/print", some (.user 3), none, none)) (by decide) ha rfl rfl fun h => ?_
    have : (a :: as).length ≠ 2 := by rw [List.length_cons]; omega
    simp only [linuxApp, if_pos this]
    rfl

/-! ### Examples -/

/-- The example has been started, and a line has been typed. -/
def linuxTyped (m : Machinery) (s : Str) : Term := { Term.startH (linux m) linuxHost linuxSetup with ed := ⟨s, .none⟩ }

theorem typed_moved (m : Machinery) (s : Str) : linuxWorld.Moved (linuxTyped m s).world := linux_started m

theorem typed_shows (m : Machinery) (s : Str) : Shows (linuxTyped m s).log (linuxTyped m s).world.path (some {}) :=
  linux_shows m [] (Term.startH (linux m) linuxHost linuxSetup) (linux_started m) trivial (linux_starts m).1 (linux_starts m).2

/-- A clock and a source of random numbers for examples. -/
def slowMachinery : Machinery := { someMachinery with time := fun _ => 1234567890, rand := fun _ => 0x44434241 }

example : shown ((linuxTyped slowMachinery b!"bin/uptime").keyH (linux slowMachinery) linuxHost (linuxApp slowMachinery) cCr).log =
    b!"uShell 0.1.0\r\n\x1b[35m[host /]$ \x1b[0m\r\ntime: 1234567890s\r\n\x1b[35m[host /]$ \x1b[0m" ∧ Numeral b!"1234567890" 1234567890 := by
  obtain ⟨l, s, -, -, -⟩ := C54_uptime slowMachinery (linuxTyped slowMachinery b!"bin/uptime") (typed_moved _ _) cCr rfl rfl b!"bin/uptime" (by decide +kernel) (by decide +kernel)
  decide +kernel

/-- Every number of a clock is printed in the usual way, at the boundaries as well. -/
example : Numeral b!"0" 0 ∧ Numeral b!"10" 10 ∧ Numeral b!"18446744073709551615" (2 ^ 64 - 1) ∧ ¬ Numeral b!"0" 10 ∧ ¬ Numeral b!"010" 10 := by decide +kernel

example : shown ((linuxTyped slowMachinery b!"cat /dev/random").keyH (linux slowMachinery) linuxHost (linuxApp slowMachinery) cCr).log =
    b!"uShell 0.1.0\r\n\x1b[35m[host /]$ \x1b[0m\r\nABCD\x1b[35m[host /]$ \x1b[0m" := by
  obtain ⟨l, b0, b1, b2, b3, -, -, -⟩ := C54_random slowMachinery (linuxTyped slowMachinery b!"cat /dev/random") (typed_moved _ _) cCr rfl rfl b!"/dev/random" (by decide +kernel)
    (by decide +kernel)
  decide +kernel

example : shown ((linuxTyped slowMachinery b!"bin/print \"x y\"").keyH (linux slowMachinery) linuxHost (linuxApp slowMachinery) cCr).log =
    b!"uShell 0.1.0\r\n\x1b[35m[host /]$ \x1b[0m\r\nx y\r\n\x1b[35m[host /]$ \x1b[0m" := by
  rw [C54_print slowMachinery (linuxTyped slowMachinery b!"bin/print \"x y\"") (typed_moved _ _) cCr rfl rfl b!"bin/print" b!"x y" (by decide +kernel) (by decide)
    (by decide +kernel)]
  decide +kernel

example : shown ((linuxTyped slowMachinery b!"bin/print x y").keyH (linux slowMachinery) linuxHost (linuxApp slowMachinery) cCr).log =
    b!"uShell 0.1.0\r\n\x1b[35m[host /]$ \x1b[0m\r\nerror: wrong arguments\r\n\x1b[35m[host /]$ \x1b[0m" := by
  rw [C54_usage slowMachinery (linuxTyped slowMachinery b!"bin/print x y") (typed_moved _ _) cCr rfl rfl b!"bin/print" [b!"x", b!"y"] (by decide +kernel) 3
    (by decide +kernel)]
  decide +kernel

example : shown ((linuxTyped slowMachinery b!"cat etc/config").keyH (linux slowMachinery) linuxHost (linuxApp slowMachinery) cCr).log =
    b!"uShell 0.1.0\r\n\x1b[35m[host /]$ \x1b[0m\r\n# system configuration\r\nfreq = 16MHz\r\nram = 4kB\r\n\x1b[35m[host /]$ \x1b[0m" := by
  rw [C54_read slowMachinery (linuxTyped slowMachinery b!"cat etc/config") (typed_moved _ _) {} (typed_shows _ _)
    cCr rfl rfl b!"etc/config" (by decide +kernel) 2 Machine.config (.tail _ (.tail _ (.tail _ (.tail _ (.head _)))))]
  decide +kernel

/-! ### The end of the input

`read_char` (examples/demo_linux/interface.c:43-49) hands the result of `fgetc` to the shell: at the end of the input that is EOF, the byte 0xFF, again and again. -/

theorem key_eof {E : Env} {A : App} (t : Term) : ∃ l, (t.key E A 0xFF).log = t.log ++ .inp 0xFF :: l ∧ (l = [] ∨ l = [.out 0xFF]) ∧ (t.key E A 0xFF).world = t.world := by
  unfold Term.key
  rw [if_neg (by decide), if_neg (by decide), if_neg (by simp [show isEnter 0xFF = false by decide])]
  refine ⟨_, rfl, ?_, rfl⟩
  unfold Editor.key
  rw [if_neg (by decide), if_neg (by decide)]
  cases t.ed.esc
  · exact .inr rfl
  · exact .inl rfl
  · exact .inl rfl

/-- What is left of the input is its end. -/
theorem keysH_eof {E : Env} {host : Host} {A : App} {L N : Nat} (n : Nat) : ∀ t : Term, t.ShortAllH E host A L N (List.replicate n 0xFF) ∧ t.linesH E host A (List.replicate n 0xFF) = [] ∧
    (t.keysH E host A (List.replicate n 0xFF)).world = t.world ∧
    ∃ l, (t.keysH E host A (List.replicate n 0xFF)).log = t.log ++ l ∧ (∀ x ∈ l, x = .inp 0xFF ∨ x = .out 0xFF) ∧ l.count (.inp 0xFF) = n := by
  induction n with
  | zero => intro t; exact ⟨trivial, rfl, rfl, [], by simp [Term.keysH]⟩
  | succ n ih =>
    intro t
    obtain ⟨l, h1, h2, h3⟩ := key_eof (E := E.named (host.after E A t 0xFF)) (A := A) t
    obtain ⟨k1, k2, k3, l', k4, k5, k6⟩ := ih (t.keyH E host A 0xFF)
    rw [List.replicate_succ]
    refine ⟨⟨?_, k1⟩, ?_, k3.trans h3, .inp 0xFF :: l ++ l', ?_, ?_, ?_⟩
    · unfold Term.Short
      rw [if_neg (by decide), if_neg (by simp [show isEnter 0xFF = false by decide])]
      trivial
    · unfold Term.linesH
      rw [k2]
      rfl
    · show ((t.keyH E host A 0xFF).keysH E host A _).log = _
      rw [k4]
      unfold Term.keyH
      rw [h1]
      simp
    · intro x hx
      rcases List.mem_append.mp hx with hx | hx
      · rcases List.mem_cons.mp hx with rfl | hx
        · exact .inl rfl
        · rcases h2 with rfl | rfl
          · cases hx
          · exact .inr (List.mem_singleton.mp hx)
      · exact k5 x hx
    · rcases h2 with rfl | rfl <;> simp [k6]

theorem keysH_append {E : Env} {host : Host} {A : App} (cs ds : List UInt8) : ∀ t : Term, t.keysH E host A (cs ++ ds) = (t.keysH E host A cs).keysH E host A ds := by
  induction cs with
  | nil => intro t; rfl
  | cons c cs ih => intro t; exact ih _

theorem linesH_append {E : Env} {host : Host} {A : App} (cs ds : List UInt8) : ∀ t : Term, t.linesH E host A (cs ++ ds) = t.linesH E host A cs ++ (t.keysH E host A cs).linesH E host A ds := by
  induction cs with
  | nil => intro t; rfl
  | cons c cs ih => intro t; rw [List.cons_append]; simp only [Term.linesH, Term.keysH, ih, List.append_assoc]

theorem shortAllH_append {E : Env} {host : Host} {A : App} {L N : Nat} (cs ds : List UInt8) :
    ∀ t : Term, t.ShortAllH E host A L N cs → (t.keysH E host A cs).ShortAllH E host A L N ds → t.ShortAllH E host A L N (cs ++ ds) := by
  induction cs with
  | nil => intro t _ h; exact h
  | cons c cs ih => intro t h h'; exact ⟨h.1, ih _ h.2 h'⟩

/-- demo_linux when its input ends after the keys `cs`: however often the end is reported, nothing is executed any more, and no file is read or written.  At most, the byte is echoed. -/
theorem C54_eof (m : Machinery) (hm : m.null = some []) (inBuf outBuf : List UInt8) (h1 : inBuf.length = 256) (h2 : outBuf.length = 256) (cs : List UInt8)
    (hs : (Term.startH (linux m) linuxHost linuxSetup).ShortAllH (linux m) linuxHost (linuxApp m) 247 10 cs) (n : Nat) (f : Nat → Slot) (hf : Fair f) :
    ∃ u v K l, run (linux m) (blank inBuf outBuf) (steps linuxSetup) = .ok u ∧ (∀ k ≥ K, driveNH (linux m) linuxHost f u (cs ++ List.replicate n 0xFF) k = .ok (v, [])) ∧
      v.state = .readChar ∧ v.log = ((Term.startH (linux m) linuxHost linuxSetup).keysH (linux m) linuxHost (linuxApp m) cs).log ++ l ∧
      (∀ x ∈ l, x = .inp 0xFF ∨ x = .out 0xFF) ∧ l.count (.inp 0xFF) = n ∧
      Shows v.log ((Term.startH (linux m) linuxHost linuxSetup).keysH (linux m) linuxHost (linuxApp m) cs).world.path
        (Machine.run {} ((Term.startH (linux m) linuxHost linuxSetup).linesH (linux m) linuxHost (linuxApp m) cs)) := by
  obtain ⟨k1, k2, k3, l, k4, k5, k6⟩ := keysH_eof (E := linux m) (host := linuxHost) (A := linuxApp m) (L := 247) (N := 10) n
    ((Term.startH (linux m) linuxHost linuxSetup).keysH (linux m) linuxHost (linuxApp m) cs)
  obtain ⟨u, v, K, e, h, S, hM⟩ := C54_linux m hm inBuf outBuf h1 h2 (cs ++ List.replicate n 0xFF) (shortAllH_append cs _ _ hs k1) f hf
  rw [keysH_append] at S hM
  rw [linesH_append, k2, List.append_nil, k3] at hM
  exact ⟨u, v, K, l, e, h, S.waiting.shows.state, S.log.trans k4, k5, k6, hM⟩

/-- The input ends in the middle of a line, after an ESC: three times the end of the input, of which two are echoed. -/
example : ∃ u v K, run linux0 (blank (List.replicate 256 1) (List.replicate 256 2)) (steps linuxSetup) = .ok u ∧
    (∀ k ≥ K, driveNH linux0 linuxHost (fun n => if n % 2 = 0 then ⟨true, false⟩ else ⟨false, true⟩) u (linuxKeys ++ b!"ls\x1b" ++ List.replicate 3 0xFF) k = .ok (v, [])) ∧
    linuxHost v.log = b!"box" := by
  have hs : linuxTerm.ShortAllH linux0 linuxHost linuxApp0 247 10 (linuxKeys ++ b!"ls\x1b") := by decide +kernel
  obtain ⟨u, v, K, l, e, h, -, -, -, -, hM⟩ := C54_eof someMachinery rfl (List.replicate 256 1) (List.replicate 256 2) List.length_replicate List.length_replicate _ hs 3
    (fun n => if n % 2 = 0 then ⟨true, false⟩ else ⟨false, true⟩)
    ⟨fun n => ⟨2 * n, by omega, by simp⟩, fun n => ⟨2 * n + 1, by omega, by simp [show (2 * n + 1) % 2 = 1 by omega]⟩⟩
  have hr : Machine.run {} (linuxTerm.linesH linux0 linuxHost linuxApp0 (linuxKeys ++ b!"ls\x1b")) = Machine.run {} (linuxTerm.linesH linux0 linuxHost linuxApp0 linuxKeys) := by decide +kernel
  exact ⟨u, v, K, e, h, (hM.1 _ (hr.trans linuxKeys_ok.2.2)).1⟩

example : shown (linuxTerm.keysH linux0 linuxHost linuxApp0 (b!"ls\x1b" ++ List.replicate 3 0xFF)).log = shown linuxTerm.log ++ b!"ls" ++ [0xFF, 0xFF] := by decide +kernel

end Ush.Props
