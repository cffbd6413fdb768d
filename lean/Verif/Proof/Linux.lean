import Verif.Spec.Linux
import Verif.Model.Linux
import Verif.Proof.Deeds
import Verif.Proof.Demo
import Verif.Proof.HostTerm
/-! # The example demo_linux: lemmas -/
namespace Ush
open Spec

/-! ### The world after a line -/

/-- The world after a line, where the command `id` of the application changes it by `g id` and nothing else does. -/
def Spec.World.goes (g : Nat → World → World) (V : World) : List Str → World
  | [] => V
  | name :: as =>
    match (V.file? name).bind (·.exec) with
    | some (.user id) => g id V
    | some (.builtin .cd) =>
      match as with
      | [a] => (V.cd a).getD V
      | _ => V
    | _ => V

section
variable {E : Env} {A : App} {V : World}

theorem builtin_goes (c : UInt8) (l : List Event) (b : Builtin) (as : List Str) (hs : ∀ id l d, ((Talk.start V c).run E (A.set id l d)).1.world = V) :
    (builtinAnswer E A (Talk.start V c) l b as).2 = if b = .cd then (match as with | [a] => (V.cd a).getD V | _ => V) else V := by
  have e : (Talk.start V c).world = V := rfl
  cases b with
  | pwd => rcases as with _ | ⟨a, as⟩ <;> rfl
  | cd =>
    rcases as with _ | ⟨a, _ | ⟨a', as⟩⟩
    · rfl
    · simp only [builtinAnswer, if_true, e]
      cases V.cd a <;> rfl
    · rfl
  | cat =>
    rcases as with _ | ⟨a, as⟩ <;> simp only [builtinAnswer, reduceCtorEq, if_false]
    · rfl
    · split <;> rfl
  | xxd =>
    rcases as with _ | ⟨a, _ | ⟨a', as⟩⟩ <;> simp only [builtinAnswer, reduceCtorEq, if_false]
    · rfl
    · split
      · rfl
      · split <;> rfl
    · rfl
  | ls =>
    rcases as with _ | ⟨a, _ | ⟨a', as⟩⟩ <;> simp only [builtinAnswer, reduceCtorEq, if_false]
    · split <;> rfl
    · split <;> rfl
    · rfl
  | help =>
    rcases as with _ | ⟨a, _ | ⟨a', as⟩⟩ <;> simp only [builtinAnswer, reduceCtorEq, if_false]
    · rfl
    · split
      · rfl
      · split <;> rfl
    · rfl
  | echo =>
    rcases as with _ | ⟨a, _ | ⟨s, _ | ⟨t, _ | ⟨z, as⟩⟩⟩⟩ <;> simp only [builtinAnswer, reduceCtorEq, if_false]
    · rfl
    · rfl
    · rfl
    · split
      · rfl
      · split
        · rfl
        · split
          · rfl
          · exact hs _ _ _
    · rfl

theorem line_goes (g : Nat → World → World) (c : UInt8) (l : List Event) (argv : List Str) (hh : ∀ l argv, A.hook l argv = [])
    (hx : ∀ id l argv, ((Talk.start V c).run E (A.exec id l argv)).1.world = g id V) (hs : ∀ id l d, ((Talk.start V c).run E (A.set id l d)).1.world = V) :
    (lineAnswer E A V c l argv).2 = V.goes g argv := by
  rcases argv with _ | ⟨name, as⟩
  · rfl
  · have e : (Talk.start V c).world = V := rfl
    simp only [lineAnswer, hh, Talk.run, World.goes, e]
    cases hf : V.file? name with
    | none => rfl
    | some f =>
      simp only [Option.bind_some, fileAnswer]
      cases f.exec with
      | none => rfl
      | some cb =>
        cases cb with
        | user id => simp only [hx]
        | builtin b =>
          simp only [builtin_goes (V := V) c _ b as hs]
          cases b <;> rfl

end

/-! ### The application -/

def linuxApp (m : Machinery) : App where
  exec := fun id l argv =>
    match id with
    | 1 => [.reset]
    | 2 => if argv.length ≠ 1 then [.printStatus .cmdWrongArguments] else [.printf (b!"time: " ++ decimal 20 (m.time l).toNat ++ b!"s\r\n")]
    | _ => if argv.length ≠ 2 then [.printStatus .cmdWrongArguments] else [.print ((argv[1]?.getD []).takeWhile (· ≠ cNul))]
  get := fun id l =>
    match id with
    | 1 => readmeData
    | 2 => configData
    | 3 => linuxHost l
    | 4 => []
    | 5 => intBytes (m.rand l)
    | 6 => linuxRead (·.ram) l
    | 7 => linuxRead (·.eeprom) l
    | _ => m.romData

theorem linux_describes (m : Machinery) (hm : m.null = some []) : (linuxApp m).Describes (linux m) where
  hook := fun _ _ => rfl
  exec := fun id l argv u h => by
    simp only [linux, Env.equip, linuxApp, h]
    split
    · rfl
    · split <;> rfl
    · split
      · split <;> first | rfl | simp_all
      · split <;> first | rfl | simp_all
  get := fun id l u h => by
    match id with
    | 0 => simp only [linux, Env.equip, linuxApp]
    | 1 => simp only [linux, Env.equip, linuxApp]
    | 2 => simp only [linux, Env.equip, linuxApp]
    | 3 => simp only [linux, Env.equip, linuxApp, h]
    | 4 => simp only [linux, Env.equip, linuxApp]; exact hm
    | 5 => simp only [linux, Env.equip, linuxApp, h]
    | 6 => simp only [linux, Env.equip, linuxApp, h]
    | 7 => simp only [linux, Env.equip, linuxApp, h]
    | _ + 8 => simp only [linux, Env.equip, linuxApp]
  set := fun _ _ _ _ _ => rfl

/-- A machine for examples. -/
def someMachinery : Machinery := ⟨fun l => UInt64.ofNat (l.count (.exec (.user 2) [b!"/bin/uptime"])), fun l => UInt32.ofNat l.length, fun i => UInt8.ofNat (7 * i), some []⟩

section
variable (E : Env) (x : Nat → List Str → Ush → List Api) (g : Nat → Ush → Option Str)

theorem after_equip (os : List FsOp) : after (E.equip x g) os = after E os := rfl

theorem validRun_equip : ∀ (os : List FsOp) (W : World), W.ValidRun (E.equip x g) os = W.ValidRun E os := by
  intro os
  induction os with
  | nil => intro W; rfl
  | cons o os ih =>
    intro W
    simp only [World.ValidRun, ih]
    rfl

theorem valid_equip {os : List FsOp} (h : (initWorld E).ValidRun E os) : (initWorld (E.equip x g)).ValidRun (E.equip x g) os := by
  rw [validRun_equip]
  exact h

variable {E}

theorem Ok.equip {W : World} (H : W.Ok E) : W.Ok (E.equip x g) := ⟨H.cwd, H.names, H.treeTexts, H.cmdTexts⟩

theorem Fits.equip {W : World} {L : Nat} (H : W.Fits E L) : W.Fits (E.equip x g) L := ⟨H.files, H.paths, H.line⟩

theorem Plain.equip {W : World} {N : Nat} (H : W.Plain E N) : W.Plain (E.equip x g) N := ⟨H.files, H.dirs, H.paths⟩

theorem Roomy.equip (H : Roomy E) : Roomy (E.equip x g) := ⟨H.inSize, H.offset, H.cols, H.hex⟩

theorem CfgOk.equip (H : CfgOk E) : CfgOk (E.equip x g) := ⟨H.inSize, H.outSize, H.pathMax, H.nodes, H.commands⟩

theorem Config.equip (H : Config E) : Config (E.equip x g) :=
  ⟨H.outSize, ⟨H.texts.1, H.texts.styleReset, H.texts.green, H.texts.yellow, H.texts.magenta, H.texts.status⟩⟩

end

/-- The world of the example. -/
abbrev linuxWorld : World := after linuxCfg linuxSetup

theorem linux_after (m : Machinery) : after (linux m) linuxSetup = linuxWorld := after_equip _ _ _ _

theorem decimal_length : ∀ k n, (decimal k n).length ≤ k := by
  intro k
  induction k with
  | zero => intro n; simp [decimal]
  | succ k ih =>
    intro n
    unfold decimal
    have := ih (n / 10)
    split
    · simp
    · simp; omega

theorem decimal_nul : ∀ k n, cNul ∉ decimal k n := by
  intro k
  induction k with
  | zero => intro n; simp [decimal]
  | succ k ih =>
    intro n
    unfold decimal
    have h1 := ih (n / 10)
    have h2 : cNul ≠ 48 + UInt8.ofNat (n % 10) := by
      have : n % 10 < 10 := Nat.mod_lt _ (by decide)
      generalize n % 10 = r at this
      revert r
      decide
    split <;> simp [h1, h2]

theorem decimal_digit (n : Nat) : b!"0"[0] ≤ 48 + UInt8.ofNat (n % 10) ∧ (48 + UInt8.ofNat (n % 10) : UInt8) ≤ b!"9"[0] ∧ (48 + UInt8.ofNat (n % 10) : UInt8).toNat = 48 + n % 10 := by
  have : n % 10 < 10 := Nat.mod_lt _ (by decide)
  generalize n % 10 = r at this
  revert r
  decide

theorem decimal_numeral : ∀ k n, n < 10 ^ (k + 1) → Numeral (decimal (k + 1) n) n := by
  intro k
  induction k with
  | zero =>
    intro n h
    replace h : n < 10 := h
    revert n
    decide
  | succ k ih =>
    intro n h
    obtain ⟨d1, d2, d3⟩ := decimal_digit n
    unfold decimal
    split
    · rename_i hn
      clear ih d1 d2 d3 h
      revert n
      decide
    · rename_i hn
      have h1 : n / 10 < 10 ^ (k + 1) := by rw [Nat.div_lt_iff_lt_mul (by decide)]; exact h
      obtain ⟨k1, k2, k3, k4⟩ := ih (n / 10) h1
      refine ⟨by simp, ?_, ?_, ?_⟩
      · intro c hc
        rcases List.mem_append.mp hc with hc | hc
        · exact k2 c hc
        · cases List.mem_singleton.mp hc
          exact ⟨d1, d2⟩
      · intro hh
        rw [List.head?_append_of_ne_nil _ k1] at hh
        have := k3 hh
        rw [this] at k4
        have : (0 : Nat) = n / 10 := k4
        omega
      · rw [List.foldl_append, k4]
        show 10 * (n / 10) + ((48 + UInt8.ofNat (n % 10) : UInt8).toNat - 48) = n
        rw [d3]
        omega

theorem chats_printf (E : Env) (W : World) (s : Str) (h : cNul ∉ s) (hl : s.length + 2 < E.outSize) : Chats E W [.printf s] := by
  intro V c hW
  refine ⟨⟨⟨h, ?_⟩, trivial⟩, hW⟩
  have : (enterEcho c).length ≤ 2 := by
    unfold enterEcho
    split <;> simp
  show (enterEcho c).length + s.length < E.outSize
  omega

theorem chats_reset (E : Env) (W : World) (h : W.tree.find [] ≠ none) : Chats E W [.reset] := by
  intro V c hW
  refine ⟨⟨by show V.tree.find [] ≠ none; rw [hW.1]; exact h, trivial⟩, ?_⟩
  obtain ⟨m, hm⟩ := Option.ne_none_iff_exists'.mp h
  refine ⟨hW.1, hW.2.1, m, mem_dirs_of_tree (List.mem_of_find?_eq_some hm), ?_⟩
  show V.tree.find [] = some m
  rw [hW.1]; exact hm

/-! ### The variables -/

theorem takeWhile_nul (s : Str) : cNul ∉ s.takeWhile (· ≠ cNul) := by
  intro h
  have := List.mem_takeWhile_imp h
  simp at this

/-- Sizes of the variables. -/
structure LinuxVars.Good (s : LinuxVars) : Prop where
  host : cNul ∉ s.host
  hostLen : s.host.length ≤ 16
  ram : s.ram.length = 256
  eeprom : s.eeprom.length = 32

theorem memcpy_ok {m d r : Str} (h : memcpy m d = .ok r) : r.length = m.length := by
  unfold memcpy at h
  split at h
  · cases h; simp; omega
  · cases h

theorem step_good {s s' : LinuxVars} {e : Event} (g : s.Good) (h : s.step e = .ok s') : s'.Good := by
  unfold LinuxVars.step at h
  split at h
  · cases h; exact ⟨g.host, g.hostLen, g.ram, g.eeprom⟩
  · cases h
    exact ⟨fun h => takeWhile_nul _ (List.mem_of_mem_take h), List.length_take_le _ _, g.ram, g.eeprom⟩
  · obtain ⟨r, h1, h2⟩ := M.bind_eq_ok.mp h
    cases h2
    exact ⟨g.host, g.hostLen, by rw [memcpy_ok h1, g.ram], g.eeprom⟩
  · obtain ⟨r, h1, h2⟩ := M.bind_eq_ok.mp h
    cases h2
    exact ⟨g.host, g.hostLen, g.ram, by rw [memcpy_ok h1, g.eeprom]⟩
  · cases h; exact g

theorem fold_good : ∀ (l : List Event) (s s' : LinuxVars), s.Good → l.foldlM LinuxVars.step s = .ok s' → s'.Good := by
  intro l
  induction l with
  | nil => intro s s' g h; cases h; exact g
  | cons e l ih =>
    intro s s' g h
    rw [List.foldlM_cons] at h
    obtain ⟨r, h1, h2⟩ := M.bind_eq_ok.mp h
    exact ih r s' (step_good g h1) h2

theorem vars_good {l : List Event} {s : LinuxVars} (h : linuxVars l = .ok s) : s.Good :=
  fold_good l {} s ⟨by decide, by decide, List.length_replicate, List.length_replicate⟩ h

theorem vars_append (a b : List Event) : linuxVars (a ++ b) = linuxVars a >>= fun s => b.foldlM LinuxVars.step s := List.foldlM_append

/-- Only deeds change the variables. -/
theorem fold_deeds : ∀ (l : List Event) (s : LinuxVars), l.foldlM LinuxVars.step s = (deeds l).foldlM LinuxVars.step s := by
  intro l
  induction l with
  | nil => intro s; rfl
  | cons e l ih =>
    intro s
    unfold deeds
    rw [List.foldlM_cons, List.filter_cons]
    cases he : isDeed e with
    | true =>
      rw [if_pos rfl, List.foldlM_cons]
      congr 1
      funext s
      exact ih s
    | false =>
      rw [if_neg (by simp)]
      have : s.step e = .ok s := by cases e <;> first | rfl | cases he
      rw [this, M.ok_bind]
      exact ih s

theorem vars_deeds (l : List Event) : linuxVars l = linuxVars (deeds l) := fold_deeds l {}

theorem linuxHost_ok : linuxHost.Ok where
  text := fun l => by
    unfold linuxHost linuxRead
    split
    · rename_i s h; exact (vars_good h).host
    · simp
  quiet := fun l c => by
    have : linuxVars (l ++ [.out c]) = linuxVars l := by
      rw [vars_deeds, deeds_append, vars_deeds l]
      show linuxVars (deeds l ++ []) = _
      rw [List.append_nil]
    unfold linuxHost linuxRead
    rw [this]

theorem linux_tame (m : Machinery) : (linuxApp m).Tame (linux m) linuxWorld where
  hook := fun _ _ => rfl
  exec := fun id l argv => by
    simp only [linuxApp]
    split
    · exact chats_reset _ _ (by decide)
    · split
      · exact chats_status _ _ _
      · refine chats_printf _ _ _ ?_ ?_
        · simp only [List.mem_append, not_or]
          exact ⟨⟨by decide, decimal_nul _ _⟩, by decide⟩
        · have := decimal_length 20 (m.time l).toNat
          show _ < 256
          simp
          omega
    · split
      · exact chats_status _ _ _
      · exact chats_print _ _ _ (takeWhile_nul _)
  get := fun id l => by
    have hr : ∀ (x : LinuxVars → Str) (n : Nat), (∀ s : LinuxVars, s.Good → (x s).length ≤ 256) → (linuxRead x l).length ≤ 16 ^ 8 := by
      intro x n h
      unfold linuxRead
      split
      · rename_i s hs
        exact Nat.le_trans (h s (vars_good hs)) (by decide)
      · simp
    simp only [linuxApp]
    split
    · decide
    · decide
    · exact hr _ 0 (fun s g => Nat.le_trans g.hostLen (by decide))
    · decide
    · simp [intBytes]
    · exact hr _ 0 (fun s g => by rw [g.ram])
    · exact hr _ 0 (fun s g => by rw [g.eeprom]; decide)
    · simp [Machinery.romData]
  set := fun _ _ _ => chats_nil _ _

/-! ### Files and commands -/

def linuxCmds : List (Str × Cb) :=
  [(b!"reset", .user 1), (b!"help", .builtin .help), (b!"ls", .builtin .ls), (b!"cd", .builtin .cd), (b!"pwd", .builtin .pwd), (b!"cat", .builtin .cat),
   (b!"xxd", .builtin .xxd), (b!"echo", .builtin .echo)]

/-- Path, what it executes, its getter and its setter. -/
def linuxFiles : List (Str × Option Cb × Option Nat × Option Nat) :=
  [(b!"/readme.txt", none, some 1, none), (b!"/etc/config", none, some 2, none), (b!"/etc/hostname", none, some 3, some 3), (b!"/dev/null", none, some 4, some 4),
   (b!"/dev/random", none, some 5, none), (b!"/dev/bus/spi", none, none, none), (b!"/dev/bus/uart", none, none, none), (b!"/dev/mem/ram", none, some 6, some 6),
   (b!"/dev/mem/eeprom", none, some 7, some 7), (b!"/dev/mem/rom", none, some 8, none), (b!"/bin/uptime", some (.user 2), none, none),
   (b!"/bin/print", some (.user 3), none, none)]

theorem linux_cmd : ∀ f ∈ linuxWorld.groups.files, ∃ p ∈ linuxCmds, f.name = p.1 ∧ f.exec = some p.2 ∧ f.setData = none := by decide

theorem linux_cmd' : ∀ p ∈ linuxCmds, ∃ f ∈ linuxWorld.groups.files, f.name = p.1 := by decide

theorem linux_file : ∀ m ∈ linuxWorld.tree, ∀ f ∈ m.files, ∃ p ∈ linuxFiles, render (m.path ++ [f.name]) = p.1 ∧ f.exec = p.2.1 ∧ f.getData = p.2.2.1 ∧
    f.setData = p.2.2.2 := by decide +kernel

theorem linux_file' : ∀ p ∈ linuxFiles, ∃ m ∈ linuxWorld.tree, ∃ f ∈ m.files, render (m.path ++ [f.name]) = p.1 := by decide +kernel

/-- No command is a path of a file. -/
theorem linux_apart : ∀ m ∈ linuxWorld.tree, ∀ p ∈ linuxCmds, ∀ q ∈ linuxFiles, resolveText m.path p.1 ≠ q.1 := by decide +kernel

section
variable {V : World}

theorem linux_lookup (h : linuxWorld.Moved V) {name : Str} {f : FileDesc} (hf : V.file? name = some f) :
    (∃ p ∈ linuxCmds, name = p.1 ∧ f.exec = some p.2 ∧ f.setData = none ∧ ∀ q ∈ linuxFiles, resolveText V.path name ≠ q.1) ∨
      ((∀ p ∈ linuxCmds, name ≠ p.1) ∧ ∃ p ∈ linuxFiles, resolveText V.path name = p.1 ∧ f.exec = p.2.1 ∧ f.getData = p.2.2.1 ∧ f.setData = p.2.2.2) := by
  obtain ⟨m, hm, hp⟩ := Moved_path h
  rcases file?_cases hf with ⟨h1, h2⟩ | ⟨h1, m', hm', h2, h3⟩
  · rw [h.2.1] at h1
    obtain ⟨p, hp', k1, k2, k3⟩ := linux_cmd f h1
    refine .inl ⟨p, hp', by rw [← h2, k1], k2, k3, ?_⟩
    rw [← h2, k1, hp]
    exact linux_apart m hm p hp'
  · rw [h.1] at hm'
    obtain ⟨p, hp', k1, k2, k3⟩ := linux_file m' hm' f h2
    refine .inr ⟨?_, p, hp', by rw [← h3, k1], k2, k3⟩
    intro q hq he
    obtain ⟨g, hg, hgn⟩ := linux_cmd' q hq
    rw [← h.2.1] at hg
    exact h1 g hg (by rw [hgn, he])

theorem linux_missing (h : linuxWorld.Moved V) {name : Str} (hf : V.file? name = none) :
    (∀ p ∈ linuxCmds, name ≠ p.1) ∧ ∀ q ∈ linuxFiles, resolveText V.path name ≠ q.1 := by
  obtain ⟨h1, h2⟩ := file?_none hf
  rw [h.2.1] at h1
  rw [h.1] at h2
  constructor
  · intro q hq he
    obtain ⟨g, hg, hgn⟩ := linux_cmd' q hq
    exact h1 g hg (by rw [hgn, he])
  · intro q hq he
    obtain ⟨m, hm, f, hf, e⟩ := linux_file' q hq
    exact h2 m hm f hf (by rw [e, he])

/-- A path of a file names it. -/
theorem linux_found (h : linuxWorld.Moved V) {name : Str} {q : Str × Option Cb × Option Nat × Option Nat} (hq : q ∈ linuxFiles) (hn : resolveText V.path name = q.1) :
    ∃ f, V.file? name = some f ∧ f.exec = q.2.1 ∧ f.getData = q.2.2.1 ∧ f.setData = q.2.2.2 := by
  cases hf : V.file? name with
  | none => exact absurd hn ((linux_missing h hf).2 q hq)
  | some f =>
    rcases linux_lookup h hf with ⟨p, hp, k1, k2, k3, k4⟩ | ⟨k1, p, hp, k2, k3⟩
    · exact absurd hn (k4 q hq)
    · have : ∀ p ∈ linuxFiles, ∀ q ∈ linuxFiles, p.1 = q.1 → p = q := by decide
      have := this p hp q hq (by rw [← k2, hn])
      subst this
      exact ⟨f, rfl, k3⟩

/-- The command `cat`. -/
theorem linux_catCmd (h : linuxWorld.Moved V) : ∃ g, V.file? b!"cat" = some g ∧ g.exec = some (.builtin .cat) := by
  unfold World.file?
  rw [h.2.1]
  exact ⟨_, rfl, rfl⟩

theorem linux_dir? (h : linuxWorld.Moved V) (a : Str) : (V.dir? a).map Mount.path = Machine.dirs.find? (fun p => render p == resolveText V.path a) := by
  unfold World.dir?
  rw [h.1]
  generalize resolveText V.path a = q
  have key : ∀ t : Tree, (t.findText q).map Mount.path = (t.map Mount.path).find? (fun p => render p == q) := by
    intro t
    unfold Tree.findText
    rw [List.find?_map]
    rfl
  have ht : linuxWorld.tree.map Mount.path = [[b!"bin"], [b!"dev", b!"mem"], [b!"dev", b!"bus"], [b!"dev"], [b!"etc"], []] := by decide
  rw [key, ht]
  by_cases hq : q ∈ Machine.dirs.map render
  · clear key ht
    have : ∀ q ∈ Machine.dirs.map render, [[b!"bin"], [b!"dev", b!"mem"], [b!"dev", b!"bus"], [b!"dev"], [b!"etc"], []].find? (fun p => render p == q) =
        Machine.dirs.find? (fun p => render p == q) := by decide
    exact this q hq
  · have e1 : ∀ l : List (List Str), (∀ p ∈ l, p ∈ Machine.dirs) → l.find? (fun p => render p == q) = none := by
      intro l hl
      rw [List.find?_eq_none]
      intro p hp he
      exact hq (List.mem_map.mpr ⟨p, hl p hp, by simpa using he⟩)
    rw [e1 _ (by decide), e1 _ (fun p h => h)]

end

/-! ### One line -/

/-- The variables and the directory are those of the machine `x`. -/
structure Agrees (s : LinuxVars) (V : World) (x : Machine) : Prop where
  dir : V.path = x.dir
  host : s.host = x.host
  ram : s.ram = x.ram
  eeprom : s.eeprom = x.eeprom

/-- Effect of the commands of the application on the working directory. -/
def linuxGo (id : Nat) (V : World) : World := if id = 1 then { V with cwd := V.tree.find [] } else V

theorem echo_other (x : Machine) (a : Str) {p : Str} (h1 : p ≠ b!"/etc/hostname") (h2 : p ≠ b!"/dev/mem/ram") (h3 : p ≠ b!"/dev/mem/eeprom") : x.echo a p = some x := by
  unfold Machine.echo
  rw [if_neg h1, if_neg h2, if_neg h3]

theorem memcpy_spec (m d : Str) : memcpy m d = match overwrite m d with | some r => .ok r | none => .error .oob := by
  unfold memcpy overwrite
  split <;> rfl

theorem fold_one (s : LinuxVars) (e : Event) : List.foldlM LinuxVars.step s [e] = s.step e := by
  rw [List.foldlM_cons]
  cases s.step e <;> rfl

/-- What happened to the variables is what happens to the machine. -/
def Follows (V : World) : M LinuxVars → Option Machine → Prop
  | .ok s, some x => Agrees s V x
  | .error f, none => f = .oob
  | _, _ => False

theorem linux_echo {V : World} {s : LinuxVars} {x : Machine} (h : linuxWorld.Moved V) (ag : Agrees s V x) (a t : Str) (hs : s.arg = a) :
    Follows V ((V.written [a, b!">", t]).foldlM LinuxVars.step s) (x.echo a (resolveText V.path t)) := by
  have hw : V.written [a, b!">", t] = match (V.file? t).bind (·.setData) with | some id => [.setData id (decodeSpec a)] | none => [] := by
    simp only [World.written, if_true]
    cases (V.file? t).bind (·.setData) <;> rfl
  rw [hw]
  have far : (∀ q ∈ linuxFiles, resolveText V.path t ≠ q.1) → x.echo a (resolveText V.path t) = some x := fun k =>
    echo_other x a (k (b!"/etc/hostname", none, some 3, some 3) (by decide)) (k (b!"/dev/mem/ram", none, some 6, some 6) (by decide))
      (k (b!"/dev/mem/eeprom", none, some 7, some 7) (by decide))
  cases hf : V.file? t with
  | none => rw [far (linux_missing h hf).2]; exact ag
  | some f =>
    rcases linux_lookup h hf with ⟨p, hp, k1, k2, k3, k⟩ | ⟨k1, p, hp, k2, k3, k4, k5⟩
    · rw [far k]
      simp only [Option.bind_some, k3]
      exact ag
    · simp only [Option.bind_some, k5, k2]
      simp only [linuxFiles, List.mem_cons, List.not_mem_nil, or_false] at hp
      rcases hp with rfl | rfl | rfl | rfl | rfl | rfl | rfl | rfl | rfl | rfl | rfl | rfl
      · exact ag
      · exact ag
      · show Follows V (List.foldlM _ _ [_]) (some _)
        rw [fold_one]
        exact ⟨ag.dir, by subst hs; rfl, ag.ram, ag.eeprom⟩
      · exact ag
      · exact ag
      · exact ag
      · exact ag
      · show Follows V (List.foldlM _ _ [_]) ((overwrite x.ram _).map _)
        rw [fold_one]
        show Follows V (memcpy s.ram (decodeSpec a) >>= fun r => .ok { s with ram := r }) _
        rw [memcpy_spec, ag.ram]
        cases overwrite x.ram (decodeSpec a) with
        | none => rfl
        | some r => exact ⟨ag.dir, ag.host, rfl, ag.eeprom⟩
      · show Follows V (List.foldlM _ _ [_]) ((overwrite x.eeprom _).map _)
        rw [fold_one]
        show Follows V (memcpy s.eeprom (decodeSpec a) >>= fun r => .ok { s with eeprom := r }) _
        rw [memcpy_spec, ag.eeprom]
        cases overwrite x.eeprom (decodeSpec a) with
        | none => rfl
        | some r => exact ⟨ag.dir, ag.host, ag.ram, rfl⟩
      · exact ag
      · exact ag
      · exact ag

/-- A line does to the variables and the directory what it does to the machine. -/
theorem linux_line {V : World} {s : LinuxVars} {x : Machine} (h : linuxWorld.Moved V) (ag : Agrees s V x) (argv : List Str) :
    Follows (V.goes linuxGo argv) ((V.did argv).foldlM LinuxVars.step s) (x.line argv) := by
  rcases argv with _ | ⟨name, as⟩
  · exact ag
  · simp only [World.goes, World.did, Machine.line]
    have other : (∀ p ∈ linuxCmds, name ≠ p.1) → name ≠ b!"cd" ∧ name ≠ b!"reset" ∧ name ≠ b!"echo" := fun k =>
      ⟨k (b!"cd", .builtin .cd) (by decide), k (b!"reset", .user 1) (by decide), k (b!"echo", .builtin .echo) (by decide)⟩
    cases hf : V.file? name with
    | none =>
      obtain ⟨o1, o2, o3⟩ := other (linux_missing h hf).1
      rw [if_neg o1, if_neg o2, if_neg o3]
      exact ag
    | some f =>
      rcases linux_lookup h hf with ⟨p, hp, k1, k2, k3, k⟩ | ⟨k1, p, hp, k2, k3, k4, k5⟩
      · simp only [Option.bind_some, k2]
        subst k1
        simp only [linuxCmds, List.mem_cons, List.not_mem_nil, or_false] at hp
        rcases hp with rfl | rfl | rfl | rfl | rfl | rfl | rfl | rfl
        · rw [if_neg (by decide), if_pos rfl, if_neg (by decide), fold_one]
          refine ⟨?_, ag.host, ag.ram, ag.eeprom⟩
          show World.path { V with cwd := V.tree.find [] } = []
          have : ((linuxWorld.tree.find []).map Mount.path).getD [] = [] := by decide
          unfold World.path
          rw [h.1]
          exact this
        · exact ag
        · exact ag
        · rw [if_pos rfl, if_neg (by decide), fold_one]
          rcases as with _ | ⟨a, _ | ⟨a', as⟩⟩
          · exact ag
          · refine ⟨?_, ?_, ?_, ?_⟩
            · have hd := linux_dir? h a
              show ((V.cd a).getD V).path = (if a = [] then x else _).dir
              unfold World.cd
              split
              · exact ag.dir
              · rw [ag.dir] at hd
                rw [← hd]
                cases V.dir? a with
                | none => exact ag.dir
                | some m => rfl
            · show s.host = (if a = [] then x else _).host
              split <;> exact ag.host
            · show s.ram = (if a = [] then x else _).ram
              split <;> exact ag.ram
            · show s.eeprom = (if a = [] then x else _).eeprom
              split <;> exact ag.eeprom
          · exact ag
        · exact ag
        · exact ag
        · exact ag
        · rw [if_pos rfl, if_neg (by decide), if_neg (by decide), if_pos rfl, List.foldlM_cons]
          have ag' : Agrees { s with arg := ((b!"echo" :: as)[1]?.getD []) } V x := ⟨ag.dir, ag.host, ag.ram, ag.eeprom⟩
          show Follows V ((V.written as).foldlM LinuxVars.step { s with arg := ((b!"echo" :: as)[1]?.getD []) }) _
          rcases as with _ | ⟨a, _ | ⟨s', _ | ⟨t, _ | ⟨z, as⟩⟩⟩⟩
          · exact ag'
          · exact ag'
          · exact ag'
          · by_cases hs : s' = b!">"
            · subst hs
              simp only [if_true]
              rw [← ag.dir]
              exact linux_echo h ag' a t rfl
            · simp only [if_neg hs]
              have : V.written [a, s', t] = [] := by simp [World.written, hs]
              rw [this]
              exact ag'
          · exact ag'
      · obtain ⟨o1, o2, o3⟩ := other k1
        rw [if_neg o1, if_neg o2, if_neg o3]
        simp only [Option.bind_some, k3]
        simp only [linuxFiles, List.mem_cons, List.not_mem_nil, or_false] at hp
        rcases hp with rfl | rfl | rfl | rfl | rfl | rfl | rfl | rfl | rfl | rfl | rfl | rfl <;> exact ag

/-! ### Keys -/

theorem key_world (E : Env) (A : App) (t : Term) (c : UInt8) : (t.key E A c).world =
    if isEnter c && t.ed.esc == .none then (lineAnswer E A t.world c (t.log ++ .inp c :: outs (enterEcho c)) (words (sent E.inSize t.ed.line))).2 else t.world := by
  unfold Term.key
  by_cases h1 : c = cEtx
  · subst h1; rfl
  · rw [if_neg h1]
    by_cases h2 : c = cTab
    · subst h2
      rw [if_pos rfl]
      split <;> rfl
    · rw [if_neg h2]
      cases h3 : isEnter c && t.ed.esc == .none <;> rfl

theorem key_log (E : Env) (A : App) (t : Term) (c : UInt8) : t.log <+: (t.key E A c).log := by
  unfold Term.key Term.add
  repeat' split
  all_goals exact List.prefix_append _ _

/-- A key does to the variables and the directory what it does to the machine. -/
theorem linux_key (m : Machinery) {t : Term} (h : linuxWorld.Moved t.world) {x : Machine} (ag : Follows t.world (linuxVars t.log) (some x)) (c : UInt8) :
    Follows (t.keyH (linux m) linuxHost (linuxApp m) c).world (linuxVars (t.keyH (linux m) linuxHost (linuxApp m) c).log)
      (if isEnter c && t.ed.esc == .none then x.line (words (sent 256 t.ed.line)) else some x) := by
  unfold Term.keyH
  generalize linuxHost.after (linux m) (linuxApp m) t c = hn
  cases hv : linuxVars t.log with
  | error f => rw [hv] at ag; exact ag.elim
  | ok s =>
    rw [hv] at ag
    have ag : Agrees s t.world x := ag
    rw [vars_deeds, deeds_key (fun _ _ _ _ => rfl), vars_append, ← vars_deeds, hv, M.ok_bind, key_world]
    cases isEnter c && t.ed.esc == .none with
    | false => exact ag
    | true =>
      simp only [if_true]
      rw [line_goes linuxGo _ _ _ (fun _ _ => rfl) ?_ (fun _ _ _ => rfl)]
      · exact linux_line h ag _
      · intro id l argv
        simp only [linuxApp, linuxGo]
        split
        · rfl
        · split <;> rfl
        · rename_i h1 h2
          have e : (if id = 1 then ({ t.world with cwd := t.world.tree.find [] } : World) else t.world) = t.world := if_neg h1
          rw [e]
          split <;> rfl

/-- After an overflow there is nothing more to say. -/
theorem linux_lost (m : Machinery) (t : Term) (c : UInt8) (h : linuxVars t.log = .error .oob) :
    linuxVars (t.keyH (linux m) linuxHost (linuxApp m) c).log = .error .oob := by
  obtain ⟨l, hl⟩ := key_log ((linux m).named (linuxHost.after (linux m) (linuxApp m) t c)) (linuxApp m) t c
  show linuxVars (t.key ((linux m).named _) _ c).log = _
  rw [← hl, vars_append, h]
  rfl

section
variable {E : Env} {A : App} {L N : Nat} {W : World} {host : Host}

theorem Roomy.named (R : Roomy E) (h : Str) : Roomy (E.named h) := ⟨R.inSize, R.offset, R.cols, R.hex⟩

theorem Fits.named (F : W.Fits E L) (h : Str) : W.Fits (E.named h) L := ⟨F.files, F.paths, F.line⟩

theorem Plain.named (P : W.Plain E N) (h : Str) : W.Plain (E.named h) N := ⟨P.files, P.dirs, P.paths⟩

theorem Chats.named {cs : List Call} (H : Chats E W cs) (h : Str) : Chats (E.named h) W cs := by
  intro V c hV
  rw [Props.valid_talk, Props.run_talk]
  exact H V c hV

theorem Tame.named (H : A.Tame E W) (h : Str) : A.Tame (E.named h) W :=
  ⟨H.hook, fun id l argv => Chats.named (H.exec id l argv) h, H.get, fun id l d => Chats.named (H.set id l d) h⟩

theorem tame_keyH (R : Roomy E) (fit : W.Fits E L) (ok : W.Ok E) (P : W.Plain E N) (hA : A.Tame E W) {t : Term} {c : UInt8} (h : W.Moved t.world)
    (hs : t.Short E L N c) : t.Ok E A c ∧ W.Moved (t.keyH E host A c).world :=
  ⟨(tame_key R fit ok P hA h hs).1, (tame_key (E := E.named (host.after E A t c)) (Roomy.named R _) (Fits.named fit _) (Props.World.Ok.named ok _) (Plain.named P _) (Tame.named hA _) h hs).2⟩

theorem tame_keysH (R : Roomy E) (fit : W.Fits E L) (ok : W.Ok E) (P : W.Plain E N) (hA : A.Tame E W) : ∀ (cs : List UInt8) (t : Term), W.Moved t.world →
    t.ShortAllH E host A L N cs → t.OkAllH E host A cs ∧ W.Moved (t.keysH E host A cs).world := by
  intro cs
  induction cs with
  | nil => intro t h _; exact ⟨trivial, h⟩
  | cons c cs ih =>
    intro t h hs
    obtain ⟨h1, h2⟩ := tame_keyH R fit ok P hA h hs.1
    obtain ⟨h3, h4⟩ := ih _ h2 hs.2
    exact ⟨⟨h1, h3⟩, h4⟩

end
end Ush
