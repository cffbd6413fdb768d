import Verif.Props.Apps
/-!
# Claim C75: `help`, `ls` and `xxd` with any output buffer

The rows of these commands are put together in the output buffer, without a check of its size.  Here: they work exactly if the rows fit, for every size.  C73 has the same for
sequences of keys.
-/
namespace Ush.Props
open Spec

/-- The line has been entered, and the shell never waits for a key again. -/
def Ends (E : Env) (u : Ush) (c : UInt8) : Prop := ∀ inp, ∃ v, Steps E u (c :: inp) v inp ∧ Never E v inp

/-- No answer. -/
theorem Ends.no_reply {E : Env} {argv : List Str} {rs : List Status} {l : List Event} {W' : World} {u : Ush} {c : UInt8} (h : Ends E u c) : ¬ Replies E u c argv rs l W' := by
  intro r
  obtain ⟨v, s, hn⟩ := h []
  obtain ⟨w, s', hw, -⟩ := r []
  obtain ⟨n, hs'⟩ := s'
  exact ((Never.before s hn n hs').2 rfl) hw.shows.state

theorem _root_.Ush.Entered.ends {E : Env} {W : World} {u : Ush} {e : Editor} {c : UInt8} {T : Talk} {rs : List Status} {name : Str} {f : FileDesc} (cfg : Config E)
    {as : List Str} {cb : Cb} (h : Entered E W u e c (name :: as) T rs) (hf : T.world.file? name = some f) (hx : f.exec = some cb)
    (D : ∀ w v l0 i, Called E T w v f cb (name :: as) l0 → v.log ++ [.exec cb (name :: as)] = atExec E u c (name :: as) rs cb → Dead E w i) : Ends E u c := by
  intro inp
  obtain ⟨cs, hh, hv, hr⟩ := h.hook
  obtain ⟨w, v, r, s1, s2, s3, T1, hl, hs⟩ := enter_hook cfg h.waiting c inp h.esc h.enter h.inSize h.words hh hv (by rw [hr]; exact h.ok) (by rw [hr]; exact h.near name rfl)
  rw [hr] at hs T1 hl
  simp only [hf, hx] at hs
  have C : Called E T w v f cb (name :: as) (hookEvents E (name :: as) ++ rs.map .ret) :=
    ⟨s1, s2, s3, hs, by rw [hl, List.append_assoc], T1.talks, T1.args, h.ok, by have := h.inSize; omega⟩
  exact Dead.after r (D w v _ inp C (by rw [hl, r.log]; rfl))

section
variable (E : Env) (cfg : Config E) (W : World) (u : Ush) (e : Editor) (c : UInt8) (T : Talk) (rs : List Status) (name : Str) (f : FileDesc)
include cfg

/-- `help`. -/
theorem C75_help (h : Entered E W u e c [name] T rs) (hf : T.world.file? name = some f) (hx : f.exec = some (.builtin .help)) (hp : f.process = some (.builtin .help)) :
    (helpFits E T.world → Replies E u c [name] rs (.exec (.builtin .help) [name] :: outs (T.world.groups.files.flatMap (fileRow E) ++ T.world.prompt E)) T.world) ∧
    (¬ helpFits E T.world → Ends E u c) :=
  ⟨fun fit => C33_help E cfg W u e c T rs name f h hf hx hp fit, fun far => h.ends cfg hf hx fun _ _ _ i C _ => C.help_far cfg hp i far⟩

/-- `ls`. -/
theorem C75_ls (h : Entered E W u e c [name] T rs) (hf : T.world.file? name = some f) (hx : f.exec = some (.builtin .ls)) (hp : f.process = some (.builtin .ls))
    (m : Mount) (hm : T.world.cwd = some m) :
    (lsFits E m → Replies E u c [name] rs (.exec (.builtin .ls) [name] :: outs (lsText E T.world.tree m ++ T.world.prompt E)) T.world) ∧
    (¬ lsFits E m → Ends E u c) :=
  ⟨fun fit => C32_ls E cfg W u e c T rs name f h hf hx hp m hm fit, fun far => h.ends cfg hf hx fun _ _ _ i C _ => C.ls_far cfg hp i hm far⟩

/-- `ls` with a directory. -/
theorem C75_ls_path (a : Str) (hr : T.world.Room E a) (h : Entered E W u e c [name, a] T rs) (hf : T.world.file? name = some f) (hx : f.exec = some (.builtin .ls))
    (hp : f.process = some (.builtin .ls)) (m : Mount) (hm : T.world.dir? a = some m) :
    (lsFits E m → Replies E u c [name, a] rs (.exec (.builtin .ls) [name, a] :: outs (lsText E T.world.tree m ++ T.world.prompt E)) T.world) ∧
    (¬ lsFits E m → Ends E u c) :=
  ⟨fun fit => C32_ls_path E cfg W u e c T rs name f a hr h hf hx hp m hm fit, fun far => h.ends cfg hf hx fun _ _ _ i C _ => C.ls_dir_far cfg hr hp i hm far⟩

/-- `xxd`. -/
theorem C75_xxd (a : Str) (hn : T.world.Near E a) (h : Entered E W u e c [name, a] T rs) (hf : T.world.file? name = some f) (hx : f.exec = some (.builtin .xxd))
    (hp : f.process = some (.builtin .xxd)) (g : FileDesc) (id : Nat) (d : Str) (hg : T.world.file? a = some g) (hgd : g.getData = some id)
    (hd : Gets E (atExec E u c [name, a] rs (.builtin .xxd)) id d) (hlen : d.length ≤ 16 ^ 8) :
    (xxdFits E d → Replies E u c [name, a] rs (.exec (.builtin .xxd) [name, a] :: .getData id :: outs (xxdText E.xxdColumns d ++ T.world.prompt E)) T.world) ∧
    (¬ xxdFits E d → Ends E u c) :=
  ⟨fun fit => C31_xxd E cfg W u e c T rs name f a hn h hf hx hp g id d hg hgd hd hlen fit.2.2 fit.1 fit.2.1,
    fun far => h.ends cfg hf hx fun _ _ _ i C hl => C.xxd_far hn hp i hg hgd (by rw [hl]; exact hd) far⟩

end

/-! ## What fits -/

/-- A row with a description needs room for the aligned name, the colour and the dash; one without for the name. -/
theorem C75_row (E : Env) (g : FileDesc) :
    (rowHead E g).length = if g.description.isSome then max E.alignSpace g.name.length + 3 + E.colorYellow.length else g.name.length := by
  unfold rowHead padRight
  cases g.description with
  | none => rfl
  | some d => simp; omega

/-- A directory without files can always be listed. -/
theorem C75_ls_empty (E : Env) (m : Mount) (h : m.files = []) : lsFits E m := by
  unfold lsFits; rw [h]; simp

/-- The built-in commands alone. -/
theorem C75_help_builtin (E : Env) (h4 : 4 ≤ E.alignSpace) (hon : E.commandsOn = true) (hne : builtinTable E ≠ []) :
    helpFits E (initWorld E) ↔ E.alignSpace + 3 + E.colorYellow.length < E.outSize := by
  have key : ∀ g ∈ builtinCommands, g.description.isSome = true ∧ g.name.length ≤ 4 := by decide
  have len : ∀ g ∈ builtinTable E, (rowHead E g).length = E.alignSpace + 3 + E.colorYellow.length := by
    intro g hg
    obtain ⟨k1, k2⟩ := key g (List.mem_of_mem_filter hg)
    rw [C75_row, if_pos k1]
    omega
  have files : (initWorld E).groups.files = builtinTable E := by simp [initWorld, hon, Groups.files]
  unfold helpFits
  rw [files]
  constructor
  · intro h
    obtain ⟨g, hg⟩ := List.exists_mem_of_ne_nil _ hne
    rw [← len g hg]
    exact h g hg
  · intro h g hg
    rw [len g hg]
    exact h

/-- With the colours and the alignment as they come, `help` needs 25 bytes, and `xxd` with its 8 columns 26. -/
example (E : Env) (h1 : E.alignSpace = 16) (h2 : E.colorYellow = [27] ++ b!"[33m") (h3 : E.xxdColumns = 8) (hon : E.commandsOn = true) (hne : builtinTable E ≠ []) (d : Str) :
    (helpFits E (initWorld E) ↔ 25 ≤ E.outSize) ∧ (xxdFits E d ↔ 26 ≤ E.outSize) := by
  constructor
  · rw [C75_help_builtin E (by omega) hon hne, h1, h2]
    simp; omega
  · unfold xxdFits
    rw [h3]
    simp; omega

/-! ## A small device

An output buffer of 12 bytes, and 3 columns for `xxd`. -/

def tinyE : Env := { sE0 with outSize := 12, xxdColumns := 3, userExec := fun _ _ _ => [], userGet := fun _ _ => some b!"21" }

def tinyApp : App where
  get _ _ := b!"21"

def tinyHist : List FsOp :=
  [.mount [] 1 [{ name := b!"temp", getData := some 1 }], .mount [b!"d"] 2 [{ name := b!"a", getData := some 1 }, { name := b!"temperature1", getData := some 1 }], .mount [b!"e"] 3 []]

abbrev tinyW : World := after tinyE tinyHist

def tinyWorlds : List World := tinyW.tree.map fun m => { tinyW with cwd := some m }

theorem tinyDescribes : tinyApp.Describes tinyE :=
  ⟨fun _ _ => rfl, fun _ _ _ _ _ => rfl, fun _ _ _ _ => rfl, fun _ _ _ _ _ => rfl⟩

theorem tinyConfig : Config tinyE := ⟨by decide, ⟨by decide, by decide, by decide, by decide, by decide, statusString_nul _ (by decide)⟩⟩

theorem tinyKeeps : tinyApp.Keeps tinyE (· ∈ tinyWorlds) where
  sound W h := by
    have k1 : ∀ W ∈ tinyWorlds, W.Ok tinyE := by decide
    have k2 : ∀ W ∈ tinyWorlds, ∀ f ∈ W.files, Proper f := by decide
    exact ⟨k1 W h, k2 W h⟩
  flat W h := by
    have k : ∀ W ∈ tinyWorlds, W.Usual [] := by unfold World.Usual; decide
    exact C69_flat W (k W h)
  files := by decide
  dirs := by decide
  cd := by decide
  hook W h c l argv := ⟨trivial, h⟩
  exec W h c l argv id l' argv' := ⟨trivial, h⟩
  set W h c l argv id l' d := ⟨trivial, h⟩

/-- There is such a device in which Enter is pressed with the line `cs`. -/
theorem tinyEntered (cs : Str) (hcs : ∀ c ∈ cs, isText c = true ∧ isErase c = false) (hl : cs.length < 31) (argv : List Str)
    (hw : words cs = argv) (hn : ∀ name ∈ argv.head?, tinyW.Near tinyE name) : ∃ u, Entered tinyE tinyW u ⟨cs, .none⟩ cLf argv (Talk.start tinyW cLf) [] := by
  have ok : tinyW.Ok tinyE := by decide
  obtain ⟨u, H⟩ := boot_waiting (E := tinyE) ⟨by decide, by decide, by decide, by decide, by decide⟩ tinyConfig tinyHist (by decide) ok
  have hin : tinyE.inSize = 32 := rfl
  obtain ⟨v, H⟩ := typed tinyConfig H cs hcs (by omega)
  exact ⟨v, { waiting := H, esc := rfl, enter := Or.inl rfl, inSize := by rw [hin]; omega, words := (congrArg words (sent_fit (by simp [hin]; omega))).trans hw, hook := ⟨[], rfl, trivial, rfl⟩, ok := ok, near := hn }⟩

example : ∃ u, Ends tinyE u cLf := by
  obtain ⟨u, H⟩ := tinyEntered b!"help" (by decide) (by decide) [b!"help"] (by decide) (by decide)
  exact ⟨u, (C75_help tinyE tinyConfig _ _ _ _ _ _ _ _ H rfl rfl rfl).2 (by decide)⟩

example : ∃ u m, tinyW.cwd = some m ∧ Replies tinyE u cLf [b!"ls"] [] (.exec (.builtin .ls) [b!"ls"] :: outs (lsText tinyE tinyW.tree m ++ tinyW.prompt tinyE)) tinyW := by
  obtain ⟨u, H⟩ := tinyEntered b!"ls" (by decide) (by decide) [b!"ls"] (by decide) (by decide)
  exact ⟨u, _, rfl, (C75_ls tinyE tinyConfig _ _ _ _ _ _ _ _ H rfl rfl rfl _ rfl).1 (by decide)⟩

example : ∃ u, Ends tinyE u cLf ∧ Entered tinyE tinyW u ⟨b!"ls d", .none⟩ cLf [b!"ls", b!"d"] (Talk.start tinyW cLf) [] := by
  obtain ⟨u, H⟩ := tinyEntered b!"ls d" (by decide) (by decide) [b!"ls", b!"d"] (by decide) (by decide)
  exact ⟨u, (C75_ls_path tinyE tinyConfig _ _ _ _ _ _ _ _ b!"d" (by decide) H rfl rfl rfl _ rfl).2 (by decide), H⟩

example : ∃ u, Replies tinyE u cLf [b!"xxd", b!"temp"] [] (.exec (.builtin .xxd) [b!"xxd", b!"temp"] :: .getData 1 :: outs (xxdText 3 b!"21" ++ tinyW.prompt tinyE)) tinyW := by
  obtain ⟨u, H⟩ := tinyEntered b!"xxd temp" (by decide) (by decide) [b!"xxd", b!"temp"] (by decide) (by decide)
  exact ⟨u, (C75_xxd tinyE tinyConfig _ _ _ _ _ _ _ _ b!"temp" (by decide) H rfl rfl rfl _ 1 b!"21" rfl rfl (fun _ _ => rfl) (by decide)).1 (by decide)⟩

/-- `ls` and `xxd` are fine as long as the names are short; `help` is not. -/
theorem tinyNear : (Term.start tinyE tinyHist).NearAppAll tinyE tinyApp (b!"ls\nls e\nxxd temp\ncd d\nxxd temperature1\nhelp ls\n") ∧
    ¬ (Term.start tinyE tinyHist).NearAppAll tinyE tinyApp (b!"help\n") ∧
    ¬ (Term.start tinyE tinyHist).NearAppAll tinyE tinyApp (b!"ls d\n") ∧
    ¬ (Term.start tinyE tinyHist).NearAppAll tinyE tinyApp (b!"cd d\nls\n") := by
  refine ⟨?_, ?_, ?_, ?_⟩ <;> decide +kernel

/-- All keys, all timings. -/
theorem C75_small (inBuf outBuf : List UInt8) (h1 : inBuf.length = 32) (h2 : outBuf.length = 12) (cs : List UInt8) (f : Nat → Slot) (hf : Fair f) :
    ∃ u, run tinyE (blank inBuf outBuf) (steps tinyHist) = .ok u ∧
      ((∀ K, ∃ n ≥ K, ∃ v r, driveN tinyE f u cs n = .ok (v, r) ∧ v.state = .readChar) ↔ (Term.start tinyE tinyHist).NearAppAll tinyE tinyApp cs) :=
  C73_keeps tinyE tinyConfig tinyApp tinyDescribes (fun _ _ => Nat.le_of_ble_eq_true rfl) _ tinyKeeps ⟨by decide, by decide, by decide, by decide, by decide⟩ inBuf outBuf h1 h2 tinyHist (by decide) (by decide) cs f hf

end Ush.Props
