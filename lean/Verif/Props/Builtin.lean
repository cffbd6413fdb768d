import Verif.Proof.Ls
import Verif.Proof.Xxd
import Verif.Props.Samples
/-!
# Properties of the built-in commands

`Entered E W u e c argv T rs`: the shell waits for input, Enter `c` is pressed with a line whose words are `argv`; the general
hook (any hook, none included) makes some valid calls, after which the talk is `T`.
`Replies E u c argv rs l W'`: then, in a run of service calls that consumes only the Enter key, the shell logs the echo of Enter,
the call of the hook and its statuses `rs`, and `l`; and it waits again with an empty line, in the world `W'`.

The name of the command may be any word that finds a file with the built-in callback, also one which the application has
mounted somewhere.

`W.Room E a`: the text with which the search for `a` begins fits into a buffer for paths; `W.Near E a`: this, or `a` is the
name of a command.  Without that the C code writes beyond the end of an array on the stack (`C23_false_path`).
-/
namespace Ush.Props
open Spec

variable (E : Env) (cfg : Config E) (W : World) (u : Ush) (e : Editor) (c : UInt8) (T : Talk) (rs : List Status)
  (name : Str) (f : FileDesc)

/-- Text of a status, new line, prompt. -/
abbrev complains (E : Env) (T : Talk) (s : Status) : List Event := outs (statusString E.tr s ++ crlf ++ T.world.prompt E)

/-! ## C36 pwd -/

include cfg

/-- `pwd` prints the path of the working directory. -/
theorem C36_pwd (h : Entered E W u e c [name] T rs) (hf : T.world.file? name = some f) (hx : f.exec = some (.builtin .pwd)) :
    Replies E u c [name] rs (.exec (.builtin .pwd) [name] :: outs (render T.world.path ++ crlf ++ T.world.prompt E)) T.world :=
  h.reply cfg hf hx (serves_pwd cfg _ name)

/-- With arguments it only complains. -/
theorem C36_wrong_arguments (as : List Str) (has : as ≠ []) (h : Entered E W u e c (name :: as) T rs) (hf : T.world.file? name = some f)
    (hx : f.exec = some (.builtin .pwd)) :
    Replies E u c (name :: as) rs (.exec (.builtin .pwd) (name :: as) :: complains E T .cmdWrongArguments) T.world :=
  h.reply cfg hf hx (serves_pwd_bad cfg _ (by cases as <;> simp at has ⊢))

omit cfg in
/-- After a successful `cd a` the working directory has the path to which `a` resolves. -/
theorem C36_after_cd (W W' : World) (a : Str) (h : W.cd a = some W') : render W'.path = resolveText W.path a := by
  unfold World.cd at h
  split at h
  · cases h
  · cases hm : W.dir? a with
    | none => rw [hm] at h; cases h
    | some m =>
      rw [hm] at h
      cases h
      have := List.find?_some hm
      simpa [World.path] using this

example : ∃ u, Replies sE1 u cLf [b!"pwd"] [] (.exec (.builtin .pwd) [b!"pwd"] :: outs (b!"/\r\n" ++ sW.prompt sE1)) sW := by
  obtain ⟨u, H⟩ := sEntered b!"pwd" (by decide) (by decide) [b!"pwd"] (by decide) (by decide)
  exact ⟨u, C36_pwd sE1 sConfig1 _ _ _ _ _ _ _ _ H rfl rfl⟩

example : ∃ W', sW.cd b!"dev/bus/.." = some W' ∧ render W'.path = b!"/dev" := ⟨_, rfl, by decide⟩

/-! ## C09 the command cd -/

/-- `cd a` with a directory that is mounted: the working directory is the one `a` names; nothing is printed but the prompt
(and what the hook has printed before). -/
theorem C09_cd (a : Str) (hr : a ≠ [] → T.world.Room E a) (h : Entered E W u e c [name, a] T rs) (hf : T.world.file? name = some f) (hx : f.exec = some (.builtin .cd))
    (W' : World) (hW : T.world.cd a = some W') :
    Replies E u c [name, a] rs (.exec (.builtin .cd) [name, a] :: outs (T.output ++ W'.prompt E)) W' :=
  h.reply cfg hf hx (serves_cd cfg _ name a hr W' hW)

/-- `cd a` with anything else: nothing changes. -/
theorem C09_cd_missing (a : Str) (hr : a ≠ [] → T.world.Room E a) (h : Entered E W u e c [name, a] T rs) (hf : T.world.file? name = some f) (hx : f.exec = some (.builtin .cd))
    (hW : T.world.cd a = none) :
    Replies E u c [name, a] rs (.exec (.builtin .cd) [name, a] :: complains E T .nodeNotFound) T.world :=
  h.reply cfg hf hx (serves_cd_fail cfg _ name a hr hW)

theorem C09_cd_wrong_arguments (as : List Str) (has : as.length ≠ 1) (h : Entered E W u e c (name :: as) T rs) (hf : T.world.file? name = some f)
    (hx : f.exec = some (.builtin .cd)) :
    Replies E u c (name :: as) rs (.exec (.builtin .cd) (name :: as) :: complains E T .cmdWrongArguments) T.world :=
  h.reply cfg hf hx (serves_cd_bad cfg _ (by simpa using has))

example : ∃ u W', W'.path = [b!"dev", b!"bus"] ∧
    Replies sE1 u cLf [b!"cd", b!"dev/bus"] [] (.exec (.builtin .cd) [b!"cd", b!"dev/bus"] :: outs (W'.prompt sE1)) W' := by
  obtain ⟨u, H⟩ := sEntered b!"cd dev/bus" (by decide) (by decide) [b!"cd", b!"dev/bus"] (by decide) (by decide)
  exact ⟨u, _, rfl, C09_cd sE1 sConfig1 _ _ _ _ _ _ _ _ _ (by decide) H rfl rfl _ rfl⟩

/-! ## C30 cat -/

instance decCatNear (E : Env) (W : World) : (as : List Str) → Decidable (W.CatNear E as)
  | [] => isTrue trivial
  | a :: as => by unfold World.CatNear; have := decCatNear E W as; infer_instance

/-- `cat f1 .. fn`: the getters are called in order, each once; the bytes they return are printed verbatim, then the prompt. -/
theorem C30_cat (as : List Str) (has : as ≠ []) (hn : T.world.CatNear E as) (h : Entered E W u e c (name :: as) T rs) (hf : T.world.file? name = some f)
    (hx : f.exec = some (.builtin .cat)) (hp : f.process = some (.builtin .cat)) (ds : List (Nat × Str))
    (hr : CatReads E T.world (atExec E u c (name :: as) rs (.builtin .cat)) as ds) :
    Replies E u c (name :: as) rs (.exec (.builtin .cat) (name :: as) :: (ds.flatMap (fun d => .getData d.1 :: outs d.2) ++ outs (T.world.prompt E))) T.world :=
  h.reply cfg hf hx (serves_cat cfg _ name as hn has hp ds hr)

/-- If an argument names no file, or a file without getter, only the error (of the first such argument) is printed. -/
theorem C30_error (as : List Str) (s : Status) (hs : catError T.world as = some s) (hn : T.world.CatNear E as) (h : Entered E W u e c (name :: as) T rs)
    (hf : T.world.file? name = some f) (hx : f.exec = some (.builtin .cat)) :
    Replies E u c (name :: as) rs (.exec (.builtin .cat) (name :: as) :: complains E T s) T.world :=
  h.reply cfg hf hx (serves_cat_error cfg _ name as hn s hs)

example : ∃ u, Replies sE1 u cLf [b!"cat", b!"data", b!"say"] [] (.exec (.builtin .cat) [b!"cat", b!"data", b!"say"] :: complains sE1 (Talk.start sW cLf) .fileNotReadable) sW := by
  obtain ⟨u, H⟩ := sEntered b!"cat data say" (by decide) (by decide) [b!"cat", b!"data", b!"say"] (by decide) (by decide)
  exact ⟨u, C30_error sE1 sConfig1 _ _ _ _ _ _ _ _ [b!"data", b!"say"] .fileNotReadable (by decide) (by decide) H rfl rfl⟩

theorem C30_no_arguments (h : Entered E W u e c [name] T rs) (hf : T.world.file? name = some f) (hx : f.exec = some (.builtin .cat)) :
    Replies E u c [name] rs (.exec (.builtin .cat) [name] :: complains E T .cmdWrongArguments) T.world :=
  h.reply cfg hf hx (serves_cat_bad cfg _ (by simp))

omit cfg in
/-- Either every argument is readable, or `C30_error` applies. -/
theorem C30_cases (W : World) (as : List Str) : catError W as = none ↔ ∀ a ∈ as, ∃ f, W.file? a = some f ∧ f.getData ≠ none := by
  induction as with
  | nil => simp [catError]
  | cons a as ih =>
    unfold catError
    cases h : W.file? a with
    | none => simp [h]
    | some g =>
      simp only [List.mem_cons, forall_eq_or_imp, h]
      by_cases hg : g.getData = none
      · simp [hg]
      · rw [if_neg hg, ih]
        simp [hg]

example : ∃ u, Replies sE1 u cLf [b!"cat", b!"data", b!"/dev/led", b!"data"] [] (.exec (.builtin .cat) [b!"cat", b!"data", b!"/dev/led", b!"data"] ::
    (.getData 7 :: outs [0, 65, 255]) ++ (.getData 8 :: outs b!"on") ++ (.getData 7 :: outs [0, 65, 255]) ++ outs (sW.prompt sE1)) sW := by
  obtain ⟨u, H⟩ := sEntered b!"cat data /dev/led data" (by decide) (by decide) [b!"cat", b!"data", b!"/dev/led", b!"data"] (by decide) (by decide)
  refine ⟨u, ?_⟩
  have := C30_cat sE1 sConfig1 _ _ _ _ _ _ _ _ [b!"data", b!"/dev/led", b!"data"] (by simp) (by decide) H rfl rfl rfl [(7, [0, 65, 255]), (8, b!"on"), (7, [0, 65, 255])]
    ⟨⟨_, rfl, rfl⟩, fun _ _ => rfl, ⟨_, rfl, rfl⟩, fun _ _ => rfl, ⟨_, rfl, rfl⟩, fun _ _ => rfl, trivial⟩
  exact this

example : catError sW [b!"data", b!"run", b!"nothing"] = some .fileNotReadable ∧ catError sW [b!"data", b!"nothing"] = some .fileNotFound := by decide

/-! ## C31 xxd -/

/-- `xxd a` for a file with a getter: the getter is called once; the dump of its bytes is printed. -/
theorem C31_xxd (a : Str) (hn : T.world.Near E a) (h : Entered E W u e c [name, a] T rs) (hf : T.world.file? name = some f) (hx : f.exec = some (.builtin .xxd))
    (hp : f.process = some (.builtin .xxd)) (g : FileDesc) (id : Nat) (d : Str) (hg : T.world.file? a = some g) (hgd : g.getData = some id)
    (hd : Gets E (atExec E u c [name, a] rs (.builtin .xxd)) id d) (hlen : d.length ≤ 16 ^ 8)
    (hcols : 0 < E.xxdColumns ∨ d = []) (hout1 : 10 < E.outSize) (hout2 : 3 * E.xxdColumns + 1 < E.outSize) :
    Replies E u c [name, a] rs (.exec (.builtin .xxd) [name, a] :: .getData id :: outs (xxdText E.xxdColumns d ++ T.world.prompt E)) T.world :=
  h.reply cfg hf hx (serves_xxd cfg _ name a hn hp ⟨hout1, hout2⟩ hg hgd hd hcols hlen)

omit cfg in
/-- The dump contains every byte once and in order: the contents can be read off the hexadecimal columns. -/
theorem C31_complete (cols : Nat) (hc : 0 < cols) (d : Str) : readDump cols (d.length + 1) (xxdText cols d) = d :=
  readDump_rows cols hc _ 0 d _ (by omega) (by omega)

omit cfg in

example : readDump 8 12 (xxdText 8 b!"hello world") = b!"hello world" := C31_complete 8 (by decide) b!"hello world"

omit cfg in
/-- An empty file gives one blank row. -/
theorem C31_empty (cols : Nat) : xxdText cols [] = b!"00000000: " ++ List.replicate (4 * cols + 1) cSpace ++ crlf := by
  have h1 : ∀ n, hexCols n [] = List.replicate (3 * n) cSpace := by
    intro n
    induction n with
    | zero => rfl
    | succ n ih =>
      rw [hexCols, ih, show 3 * (n + 1) = 3 + 3 * n by omega, List.replicate_add]
      rfl
  have h2 : ∀ n, textCols n [] = List.replicate n cSpace := by
    intro n
    induction n with
    | zero => rfl
    | succ n ih => rw [textCols, ih]; rfl
  simp only [xxdText, xxdRows, xxdRow, List.length_nil, List.take_nil, h1, h2, Nat.zero_le, if_true, List.append_nil, hexFixed_zero]
  rw [show 4 * cols + 1 = 3 * cols + (1 + cols) by omega, List.replicate_add, List.replicate_add]
  simp

theorem C31_missing (a : Str) (hn : T.world.Near E a) (h : Entered E W u e c [name, a] T rs) (hf : T.world.file? name = some f) (hx : f.exec = some (.builtin .xxd))
    (hg : T.world.file? a = none) :
    Replies E u c [name, a] rs (.exec (.builtin .xxd) [name, a] :: complains E T .fileNotFound) T.world :=
  h.reply cfg hf hx (serves_xxd_missing cfg _ name a hn hg)

theorem C31_unreadable (a : Str) (hn : T.world.Near E a) (h : Entered E W u e c [name, a] T rs) (hf : T.world.file? name = some f) (hx : f.exec = some (.builtin .xxd))
    (g : FileDesc) (hg : T.world.file? a = some g) (hgd : g.getData = none) :
    Replies E u c [name, a] rs (.exec (.builtin .xxd) [name, a] :: complains E T .fileNotReadable) T.world :=
  h.reply cfg hf hx (serves_xxd_unreadable cfg _ name a hn hg hgd)

theorem C31_wrong_arguments (as : List Str) (has : as.length ≠ 1) (h : Entered E W u e c (name :: as) T rs) (hf : T.world.file? name = some f)
    (hx : f.exec = some (.builtin .xxd)) :
    Replies E u c (name :: as) rs (.exec (.builtin .xxd) (name :: as) :: complains E T .cmdWrongArguments) T.world :=
  h.reply cfg hf hx (serves_xxd_bad cfg _ (by simpa using has))

example : ∃ u, Replies sE1 u cLf [b!"xxd", b!"data"] [] (.exec (.builtin .xxd) [b!"xxd", b!"data"] :: .getData 7 ::
    outs (b!"00000000: 00 41 FF " ++ List.replicate 15 cSpace ++ b!" .A.     \r\n" ++ sW.prompt sE1)) sW := by
  obtain ⟨u, H⟩ := sEntered b!"xxd data" (by decide) (by decide) [b!"xxd", b!"data"] (by decide) (by decide)
  refine ⟨u, ?_⟩
  have := C31_xxd sE1 sConfig1 _ _ _ _ _ _ _ _ _ (by decide) H rfl rfl rfl _ 7 [0, 65, 255] rfl rfl (fun _ _ => rfl) (by decide) (by decide) (by decide) (by decide)
  have e : xxdText sE1.xxdColumns [0, 65, 255] = b!"00000000: 00 41 FF " ++ List.replicate 15 cSpace ++ b!" .A.     \r\n" := by decide
  rw [e] at this
  exact this

example : xxdText 2 b!"Hello" = b!"00000000: 48 65  He\r\n00000002: 6C 6C  ll\r\n00000004: 6F     o \r\n" := by decide

/-! ## C32 ls -/

/-- `ls` lists the working directory. -/
theorem C32_ls (h : Entered E W u e c [name] T rs) (hf : T.world.file? name = some f) (hx : f.exec = some (.builtin .ls))
    (hp : f.process = some (.builtin .ls)) (m : Mount) (hm : T.world.cwd = some m)
    (hfit : ∀ g ∈ m.files, 7 ≤ E.outSize ∧ (rowHead E g).length < E.outSize) :
    Replies E u c [name] rs (.exec (.builtin .ls) [name] :: outs (lsText E T.world.tree m ++ T.world.prompt E)) T.world :=
  h.reply cfg hf hx (serves_ls cfg _ name hp hm hfit)

/-- `ls a` lists the directory `a`. -/
theorem C32_ls_path (a : Str) (hr : T.world.Room E a) (h : Entered E W u e c [name, a] T rs) (hf : T.world.file? name = some f) (hx : f.exec = some (.builtin .ls))
    (hp : f.process = some (.builtin .ls)) (m : Mount) (hm : T.world.dir? a = some m)
    (hfit : ∀ g ∈ m.files, 7 ≤ E.outSize ∧ (rowHead E g).length < E.outSize) :
    Replies E u c [name, a] rs (.exec (.builtin .ls) [name, a] :: outs (lsText E T.world.tree m ++ T.world.prompt E)) T.world :=
  h.reply cfg hf hx (serves_ls_dir cfg _ name a hr hp hm hfit)

example : ∃ u m, sW.dir? b!"dev" = some m ∧ m.files.length = 1 ∧
    Replies sE1 u cLf [b!"ls", b!"dev"] [] (.exec (.builtin .ls) [b!"ls", b!"dev"] :: outs (lsText sE1 sW.tree m ++ sW.prompt sE1)) sW := by
  obtain ⟨u, H⟩ := sEntered b!"ls dev" (by decide) (by decide) [b!"ls", b!"dev"] (by decide) (by decide)
  exact ⟨u, ⟨[b!"dev"], 2, [{ name := b!"led", description := some b!"a led", getData := some 8, setData := some 8 }]⟩, by decide, by decide,
    C32_ls_path sE1 sConfig1 _ _ _ _ _ _ _ _ b!"dev" (by decide) H rfl rfl rfl _ (by decide) (by decide)⟩

theorem C32_missing (a : Str) (hr : T.world.Room E a) (h : Entered E W u e c [name, a] T rs) (hf : T.world.file? name = some f) (hx : f.exec = some (.builtin .ls))
    (hm : T.world.dir? a = none) :
    Replies E u c [name, a] rs (.exec (.builtin .ls) [name, a] :: complains E T .nodeNotFound) T.world :=
  h.reply cfg hf hx (serves_ls_missing cfg _ name a hr hm)

example : ∃ u, Replies sE1 u cLf [b!"ls", b!"led"] [] (.exec (.builtin .ls) [b!"ls", b!"led"] :: complains sE1 (Talk.start sW cLf) .nodeNotFound) sW := by
  obtain ⟨u, H⟩ := sEntered b!"ls led" (by decide) (by decide) [b!"ls", b!"led"] (by decide) (by decide)
  exact ⟨u, C32_missing sE1 sConfig1 _ _ _ _ _ _ _ _ b!"led" (by decide) H rfl rfl (by decide)⟩

theorem C32_wrong_arguments (as : List Str) (has : 2 ≤ as.length) (h : Entered E W u e c (name :: as) T rs) (hf : T.world.file? name = some f)
    (hx : f.exec = some (.builtin .ls)) :
    Replies E u c (name :: as) rs (.exec (.builtin .ls) (name :: as) :: complains E T .cmdWrongArguments) T.world :=
  h.reply cfg hf hx (serves_ls_bad cfg _ (by rw [List.length_cons]; omega))

/-- Configuration without colours, to have readable texts. -/
def plainE : Env := { sE1 with colorGreen := [], colorYellow := [], styleReset := [] }

example : ∃ u, Replies sE1 u cLf [b!"ls"] [] (.exec (.builtin .ls) [b!"ls"] :: outs (lsText sE1 sW.tree ⟨[], 1,
    [{ name := b!"say", exec := some (.user 2) }, { name := b!"data", getData := some 7, setData := some 7 }]⟩ ++ sW.prompt sE1)) sW := by
  obtain ⟨u, H⟩ := sEntered b!"ls" (by decide) (by decide) [b!"ls"] (by decide) (by decide)
  exact ⟨u, C32_ls sE1 sConfig1 _ _ _ _ _ _ _ _ H rfl rfl rfl _ rfl (by decide)⟩

example : (sW.dir? b!"dev").map (lsText plainE sW.tree) = some (b!"d---- .\r\nd---- ..\r\nd---- bus/\r\n-rw-- led" ++ List.replicate 14 cSpace ++ b!"- a led\r\n") := by
  decide

/-! ## C33 help -/

/-- `help` lists all files of all command groups, newest group first. -/
theorem C33_help (h : Entered E W u e c [name] T rs) (hf : T.world.file? name = some f) (hx : f.exec = some (.builtin .help))
    (hp : f.process = some (.builtin .help)) (hfit : ∀ g ∈ T.world.groups.files, (rowHead E g).length < E.outSize) :
    Replies E u c [name] rs (.exec (.builtin .help) [name] :: outs (T.world.groups.files.flatMap (fileRow E) ++ T.world.prompt E)) T.world :=
  h.reply cfg hf hx (serves_help cfg _ name hp hfit)

theorem C33_help_file (a : Str) (hn : T.world.Near E a) (h : Entered E W u e c [name, a] T rs) (hf : T.world.file? name = some f) (hx : f.exec = some (.builtin .help))
    (g : FileDesc) (hg : T.world.file? a = some g) (x : Str) (hh : g.help = some x) :
    Replies E u c [name, a] rs (.exec (.builtin .help) [name, a] :: outs (x ++ T.world.prompt E)) T.world :=
  h.reply cfg hf hx (serves_help_file cfg _ name a hn hg hh)

theorem C33_no_help (a : Str) (hn : T.world.Near E a) (h : Entered E W u e c [name, a] T rs) (hf : T.world.file? name = some f) (hx : f.exec = some (.builtin .help))
    (g : FileDesc) (hg : T.world.file? a = some g) (hh : g.help = none) :
    Replies E u c [name, a] rs (.exec (.builtin .help) [name, a] :: complains E T .fileNoHelp) T.world :=
  h.reply cfg hf hx (serves_help_none cfg _ name a hn hg hh)

theorem C33_missing (a : Str) (hn : T.world.Near E a) (h : Entered E W u e c [name, a] T rs) (hf : T.world.file? name = some f) (hx : f.exec = some (.builtin .help))
    (hg : T.world.file? a = none) :
    Replies E u c [name, a] rs (.exec (.builtin .help) [name, a] :: complains E T .fileNotFound) T.world :=
  h.reply cfg hf hx (serves_help_missing cfg _ name a hn hg)

theorem C33_wrong_arguments (as : List Str) (has : 2 ≤ as.length) (h : Entered E W u e c (name :: as) T rs) (hf : T.world.file? name = some f)
    (hx : f.exec = some (.builtin .help)) :
    Replies E u c (name :: as) rs (.exec (.builtin .help) (name :: as) :: complains E T .cmdWrongArguments) T.world :=
  h.reply cfg hf hx (serves_help_bad cfg _ (by rw [List.length_cons]; omega))

set_option maxRecDepth 4000 in
example : ∃ u, Replies sE1 u cLf [b!"help"] [] (.exec (.builtin .help) [b!"help"] :: outs (b!"run\r\nnoexec\r\n" ++
    builtinCommands.flatMap (fileRow sE1) ++ sW.prompt sE1)) sW := by
  obtain ⟨u, H⟩ := sEntered b!"help" (by decide) (by decide) [b!"help"] (by decide) (by decide)
  have := C33_help sE1 sConfig1 _ _ _ _ _ _ _ _ H rfl rfl rfl (by decide)
  rw [show (Talk.start sW cLf).world.groups.files.flatMap (fileRow sE1) = b!"run\r\nnoexec\r\n" ++ builtinCommands.flatMap (fileRow sE1) by decide] at this
  exact ⟨u, this⟩

example : ∃ u, Replies sE1 u cLf [b!"help", b!"run"] [] (.exec (.builtin .help) [b!"help", b!"run"] :: outs (b!"runs\r\n" ++ sW.prompt sE1)) sW := by
  obtain ⟨u, H⟩ := sEntered b!"help run" (by decide) (by decide) [b!"help", b!"run"] (by decide) (by decide)
  exact ⟨u, C33_help_file sE1 sConfig1 _ _ _ _ _ _ _ _ _ (by decide) H rfl rfl _ rfl _ rfl⟩

set_option maxRecDepth 4000 in
example : builtinCommands.flatMap (fileRow { plainE with alignSpace := 5 }) = b!"help  - list available commands\r\n" ++
    b!"ls    - list directory content\r\n" ++ b!"cd    - change current directory\r\n" ++ b!"pwd   - print current directory\r\n" ++
    b!"cat   - print files content\r\n" ++ b!"xxd   - dump file hex content\r\n" ++ b!"echo  - print string to file\r\n" := by
  decide

/-! ## C34 echo -/

/-- `echo s` prints the bytes at the place of the argument after decoding, up to the first NUL, and a new line. -/
theorem C34_echo (a : Str) (h : Entered E W u e c [name, a] T rs) (hf : T.world.file? name = some f) (hx : f.exec = some (.builtin .echo)) :
    Replies E u c [name, a] rs (.exec (.builtin .echo) [name, a] :: outs (echoPrints a ++ crlf ++ T.world.prompt E)) T.world :=
  h.reply cfg hf hx (serves_echo cfg _ name a)

example : ∃ u, Replies sE1 u cLf [b!"echo", b!"\\x41"] [] (.exec (.builtin .echo) [b!"echo", b!"\\x41"] :: outs (b!"Ax41" ++ crlf ++ sW.prompt sE1)) sW := by
  obtain ⟨u, H⟩ := sEntered b!"echo \\x41" (by decide) (by decide) [b!"echo", b!"\\x41"] (by decide) (by decide)
  have e : echoPrints b!"\\x41" = b!"Ax41" := by decide
  have h := C34_echo sE1 sConfig1 _ _ _ _ _ _ _ _ b!"\\x41" H rfl rfl
  rw [e] at h
  exact ⟨u, h⟩

/-- If the argument contains no backslash, that is the argument (which is its own decoded form).

Missing from the full statement (the decoded form is printed for every argument): arguments with a backslash, see `C34_false`. -/
theorem C34_echo_partial (a : Str) (hb : cBackslash ∉ a) (h : Entered E W u e c [name, a] T rs) (hf : T.world.file? name = some f)
    (hx : f.exec = some (.builtin .echo)) :
    decodeSpec a = a ∧
    Replies E u c [name, a] rs (.exec (.builtin .echo) [name, a] :: outs (decodeSpec a ++ crlf ++ T.world.prompt E)) T.world := by
  have hd : decodeSpec a = a := by
    clear h
    induction a with
    | nil => rfl
    | cons x a ih =>
      simp only [List.mem_cons, not_or] at hb
      rw [decodeSpec_lit x a (fun e => hb.1 e.symm), ih hb.2]
  have hn : cNul ∉ a := by
    exact cut_nul _ a (by rw [show cut (lex .gap false (sent E.inSize e.line)) = [name, a] from h.words]; simp)
  have he : echoPrints a = decodeSpec a := by
    unfold echoPrints
    rw [hd, List.drop_of_length_le (Nat.le_refl _), List.append_nil]
    exact List.takeWhile_eq_self_iff.mpr (fun x hx => by simpa using fun e : x = cNul => hn (e ▸ hx))
  refine ⟨hd, ?_⟩
  rw [← he]
  exact C34_echo E cfg W u e c T rs name f a h hf hx

omit cfg in
/-- `echo \x41` prints `Ax41`, not `A`: the decoded bytes are not terminated. -/
theorem C34_false : ∃ u, Entered sE1 sW u ⟨b!"echo \\x41", .none⟩ cLf [b!"echo", b!"\\x41"] (Talk.start sW cLf) [] ∧ decodeSpec b!"\\x41" = b!"A" ∧
    Replies sE1 u cLf [b!"echo", b!"\\x41"] [] (.exec (.builtin .echo) [b!"echo", b!"\\x41"] :: outs (b!"Ax41\r\n" ++ sW.prompt sE1)) sW := by
  obtain ⟨u, H⟩ := sEntered b!"echo \\x41" (by decide) (by decide) [b!"echo", b!"\\x41"] (by decide) (by decide)
  have := C34_echo sE1 sConfig1 _ _ _ _ _ _ _ _ _ H rfl rfl
  rw [show echoPrints b!"\\x41" = b!"Ax41" by decide] at this
  exact ⟨u, H, by decide, this⟩

/-- `echo` alone prints a new line. -/
theorem C34_nothing (h : Entered E W u e c [name] T rs) (hf : T.world.file? name = some f) (hx : f.exec = some (.builtin .echo)) :
    Replies E u c [name] rs (.exec (.builtin .echo) [name] :: outs (crlf ++ T.world.prompt E)) T.world :=
  h.reply cfg hf hx (serves_echo_nothing cfg _ name)

/-- Two arguments, or more than three, are wrong. -/
theorem C34_wrong_arguments (as : List Str) (has : as.length ≠ 0 ∧ as.length ≠ 1 ∧ as.length ≠ 3) (h : Entered E W u e c (name :: as) T rs)
    (hf : T.world.file? name = some f) (hx : f.exec = some (.builtin .echo)) :
    Replies E u c (name :: as) rs (.exec (.builtin .echo) (name :: as) :: complains E T .cmdWrongArguments) T.world :=
  h.reply cfg hf hx (serves_echo_bad cfg _ (by rw [List.length_cons]; omega))

example : ∃ u, Replies sE1 u cLf [b!"echo", b!"a b"] [] (.exec (.builtin .echo) [b!"echo", b!"a b"] :: outs (b!"a b\r\n" ++ sW.prompt sE1)) sW := by
  obtain ⟨u, H⟩ := sEntered b!"echo \"a b\"" (by decide) (by decide) [b!"echo", b!"a b"] (by decide) (by decide)
  exact ⟨u, (C34_echo_partial sE1 sConfig1 _ _ _ _ _ _ _ _ _ (by decide) H rfl rfl).2⟩

/-! ## C35 echo to a file -/

/-- `echo s > f`: the setter is called exactly once, with exactly the decoded bytes of `s`; then what the hook and the setter have
printed (nothing, if they do not print) and the prompt. -/
theorem C35_write (a t : Str) (hn : T.world.Near E t) (h : Entered E W u e c [name, a, b!">", t] T rs) (hf : T.world.file? name = some f)
    (hx : f.exec = some (.builtin .echo)) (g : FileDesc) (id : Nat) (hg : T.world.file? t = some g) (hs : g.setData = some id) (cs : List Call)
    (hc : Says (atExec E u c [name, a, b!">", t] rs (.builtin .echo)) (E.userSet id (decodeSpec a)) cs) (hv : T.ValidRun E cs)
    (T2 : Talk) (rs2 : List Status) (hT : T.run E cs = (T2, rs2)) (ok : T2.world.Ok E) :
    Replies E u c [name, a, b!">", t] rs (.exec (.builtin .echo) [name, a, b!">", t] :: .setData id (decodeSpec a) ::
      (rs2.map .ret ++ outs (T2.output ++ T2.world.prompt E))) T2.world := by
  have := serves_echo_write (f := f) cfg (atExec E u c [name, a, b!">", t] rs (.builtin .echo)) name a t hn hg hs hc hv (by rw [hT]; exact ok)
  rw [hT] at this
  exact h.reply cfg hf hx this

theorem C35_missing (a t : Str) (hn : T.world.Near E t) (h : Entered E W u e c [name, a, b!">", t] T rs) (hf : T.world.file? name = some f)
    (hx : f.exec = some (.builtin .echo)) (hg : T.world.file? t = none) :
    Replies E u c [name, a, b!">", t] rs (.exec (.builtin .echo) [name, a, b!">", t] :: complains E T .fileNotFound) T.world :=
  h.reply cfg hf hx (serves_echo_missing cfg _ name a t hn hg)

theorem C35_not_writable (a t : Str) (hn : T.world.Near E t) (h : Entered E W u e c [name, a, b!">", t] T rs) (hf : T.world.file? name = some f)
    (hx : f.exec = some (.builtin .echo)) (g : FileDesc) (hg : T.world.file? t = some g) (hs : g.setData = none) :
    Replies E u c [name, a, b!">", t] rs (.exec (.builtin .echo) [name, a, b!">", t] :: complains E T .fileNotWritable) T.world :=
  h.reply cfg hf hx (serves_echo_readonly cfg _ name a t hn hg hs)

theorem C35_syntax (a s t : Str) (hs : s ≠ b!">") (h : Entered E W u e c [name, a, s, t] T rs) (hf : T.world.file? name = some f)
    (hx : f.exec = some (.builtin .echo)) :
    Replies E u c [name, a, s, t] rs (.exec (.builtin .echo) [name, a, s, t] :: complains E T .cmdWrongArguments) T.world :=
  h.reply cfg hf hx (serves_echo_syntax cfg _ name a s t hs)

example : ∃ u, Replies sE1 u cLf [b!"echo", b!"\\x00z", b!">", b!"/data"] [] (.exec (.builtin .echo) [b!"echo", b!"\\x00z", b!">", b!"/data"] ::
    .setData 7 [0, 122] :: outs (sW.prompt sE1)) sW := by
  obtain ⟨u, H⟩ := sEntered b!"echo \\x00z > /data" (by decide) (by decide) [b!"echo", b!"\\x00z", b!">", b!"/data"] (by decide) (by decide)
  exact ⟨u, C35_write sE1 sConfig1 _ _ _ _ _ _ _ _ _ _ (by decide) H rfl rfl _ 7 rfl rfl [] (fun _ _ => rfl) trivial _ _ rfl sW_ok1⟩

example : ∃ u, Replies sE1 u cLf [b!"echo", b!"x", b!">", b!"dev/led"] [] (.exec (.builtin .echo) [b!"echo", b!"x", b!">", b!"dev/led"] ::
    .setData 8 b!"x" :: outs (b!"set\r\n" ++ sW.prompt sE1)) sW := by
  obtain ⟨u, H⟩ := sEntered b!"echo x > dev/led" (by decide) (by decide) [b!"echo", b!"x", b!">", b!"dev/led"] (by decide) (by decide)
  exact ⟨u, C35_write sE1 sConfig1 _ _ _ _ _ _ _ _ _ _ (by decide) H rfl rfl _ 8 rfl rfl [.print b!"set"] (fun _ _ => rfl) ⟨by decide, trivial⟩ _ _ rfl sW_ok1⟩

end Ush.Props
