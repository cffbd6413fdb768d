import Verif.Props.Samples
/-!
# Start-up, prompt, reset and the print functions (C25, C37, C38, C42)

`Holds E W u` says that the shell object `u` represents the directories, commands and working directory `W` and that its
buffers have the configured sizes; nothing is said about what it is doing.  `Waiting E W u e` says in addition that it
waits for a key with the line editor in state `e`.  `C38_startup` shows that these states are reached.
-/
namespace Ush.Props
open Spec

/-! ## C38 Start-up -/

/-- After `ush_init` on a zeroed object with any buffers and any valid history of mounts and command registrations after
which there is a working directory, the shell prints the banner and the prompt and waits with an empty line. -/
theorem C38_startup (E : Env) (hc : CfgOk E) (cfg : Config E) (inBuf outBuf : List UInt8) (h1 : inBuf.length = E.inSize)
    (h2 : outBuf.length = E.outSize) (os : List FsOp) (hv : (initWorld E).ValidRun E os) (ok : (after E os).Ok E) (inp : List UInt8) :
    ∃ u v, run E (blank inBuf outBuf) (steps os) = .ok u ∧ Steps E u inp v inp ∧ Waiting E (after E os) v {} ∧
      v.log = ((initWorld E).run os).2.map .ret ++ outs (welcome ++ (after E os).prompt E) := by
  obtain ⟨u, e, B, l⟩ := boot hc inBuf outBuf h1 h2 os hv
  obtain ⟨v, r, H⟩ := B.done cfg ok hc.inSize inp
  exact ⟨u, v, e, r.steps, H, by rw [r.log, l]; rfl⟩

theorem find_named {l : List FileDesc} (hd : (l.map (·.name)).Nodup) {f : FileDesc} (hf : f ∈ l) :
    l.find? (fun f' => f'.name == f.name) = some f := by
  induction l with
  | nil => cases hf
  | cons g l ih =>
    rw [List.map_cons, List.nodup_cons] at hd
    rw [List.find?_cons]
    rcases List.mem_cons.mp hf with rfl | hf
    · simp
    · have : (g.name == f.name) = false := by
        rw [beq_eq_false_iff_ne]
        exact fun h => hd.1 (by rw [h]; exact List.mem_map_of_mem (f := fun x : FileDesc => x.name) hf)
      rw [this]
      exact ih hd.2 hf

theorem builtin_found (E : Env) (f : FileDesc) (hf : f ∈ builtinCommands) (hon : E.has f = true) :
    (builtinTable E).find? (fun f' => f'.name == f.name) = some f :=
  find_named (((List.filter_sublist (l := builtinCommands)).map _).nodup (by decide)) (List.mem_filter.mpr ⟨hf, hon⟩)

/-- The enabled built-in commands are found under their names, as long as the application neither removes the group nor registers
commands with the same names. -/
theorem C38_builtins (E : Env) (W : World) (u : Ush) (e : Editor) (H : Waiting E W u e) (gs : Groups)
    (hg : W.groups = gs ++ [⟨0, builtinTable E⟩]) (f : FileDesc) (hf : f ∈ builtinCommands) (hon : E.has f = true) (hn : ∀ g ∈ gs, ∀ f' ∈ g.files, f'.name ≠ f.name) : fileFindByName E u f.name = .ok (some f) := by
  have hnul : cNul ∉ f.name := (H.ok.cmdTexts ⟨0, builtinTable E⟩ (by simp [hg]) f (List.mem_filter.mpr ⟨hf, hon⟩)).name
  rw [H.find hnul (.inl (by
    rw [hg]
    simp only [Groups.files, List.flatMap_append, List.map_append, List.flatMap_cons, List.flatMap_nil, List.append_nil, List.mem_append]
    exact .inr (List.mem_map_of_mem (f := (·.name)) (List.mem_filter.mpr ⟨hf, hon⟩))))]
  have h1 : W.groups.files.find? (fun f' => f'.name == f.name) = some f := by
    unfold Groups.files
    rw [hg, List.flatMap_append, List.find?_append]
    have : (List.flatMap Group.files gs).find? (fun f' => f'.name == f.name) = none := by
      rw [List.find?_eq_none]
      intro x hx
      obtain ⟨g, hg, hx⟩ := List.mem_flatMap.mp hx
      simpa using hn g hg x hx
    rw [this]
    simp only [List.flatMap_cons, List.flatMap_nil, List.append_nil, Option.none_or]
    exact builtin_found E f hf hon
  rw [World.file?, h1]
  rfl

example : ∃ u, Waiting sE sW u {} ∧ ∀ f ∈ builtinCommands, fileFindByName sE u f.name = .ok (some f) := by
  obtain ⟨u, H⟩ := sWaiting
  exact ⟨u, H, fun f hf => C38_builtins sE sW u {} H [⟨4, [{ name := b!"run", exec := some (.user 1), help := some b!"runs\r\n" }, { name := b!"noexec" }]⟩]
    (by decide) f hf (by revert f hf; decide) (by revert f hf; decide)⟩

/-- Names, descriptions and usages of the built-in commands. -/
theorem C38_texts : builtinCommands.map (fun f => (f.name, f.description, f.help)) =
    [(b!"help", some b!"list available commands", some b!"usage: help [file]\r\n"),
     (b!"ls", some b!"list directory content", some b!"usage: ls [path]\r\n"),
     (b!"cd", some b!"change current directory", some b!"usage: cd <path>\r\n"),
     (b!"pwd", some b!"print current directory", some b!"usage: pwd\r\n"),
     (b!"cat", some b!"print files content", some b!"usage: cat <files...>\r\n"),
     (b!"xxd", some b!"dump file hex content", some b!"usage: xxd <file>\r\n"),
     (b!"echo", some b!"print string to file", some b!"usage: echo <string> > <file>\r\n       echo [string]\r\n       * can be ascii-hex encoded string with \\xNN format.\r\n")] := by
  decide

/-- Their functions: the command called `ls` is the built-in command `ls`, and so on; `help`, `ls`, `cat` and `xxd` have process functions.  None of them can be
read or written as a file. -/
theorem C38_functions : builtinCommands.map (fun f => (f.name, f.exec, f.process, f.getData, f.setData)) =
    [(b!"help", some (.builtin .help), some (.builtin .help), none, none), (b!"ls", some (.builtin .ls), some (.builtin .ls), none, none),
     (b!"cd", some (.builtin .cd), none, none, none), (b!"pwd", some (.builtin .pwd), none, none, none),
     (b!"cat", some (.builtin .cat), some (.builtin .cat), none, none), (b!"xxd", some (.builtin .xxd), some (.builtin .xxd), none, none),
     (b!"echo", some (.builtin .echo), none, none, none)] := by
  decide

/-- The bytes behind the names used in the specifications. -/
theorem C42_bytes : crlf = [0x0D, 0x0A] ∧ cNul = 0 ∧ cEtx = 3 ∧ cBs = 8 ∧ cTab = 9 ∧ cLf = 0x0A ∧ cCr = 0x0D ∧ cEsc = 0x1B ∧ cSpace = 0x20 ∧ cQuote = 0x22 ∧ cSlash = 0x2F ∧
    cBackslash = 0x5C ∧ cX = 0x78 ∧ cDel = 0x7F ∧ b!"az AZ/09\r\n" = [0x61, 0x7A, 0x20, 0x41, 0x5A, 0x2F, 0x30, 0x39, 0x0D, 0x0A] := by
  decide

example : CfgOk sE ∧ Config sE ∧ (initWorld sE).ValidRun sE sHist ∧ sW.Ok sE ∧ sW.prompt sE = [27] ++ b!"[35m[h /]$ " ++ [27] ++ b!"[0m" :=
  ⟨sCfg.1, sConfig.1, sHist_valid.1, sW_ok.1, by decide⟩

example : ∃ u, Waiting sE sW u {} ∧ sW.groups = [⟨4, [{ name := b!"run", exec := some (.user 1), help := some b!"runs\r\n" }, { name := b!"noexec" }]⟩] ++ [⟨0, builtinCommands⟩] := by
  obtain ⟨u, H⟩ := sWaiting
  exact ⟨u, H, by decide⟩

/-! ## C25 Prompt -/

/-- Whenever the shell gets ready for a new command it prints the prompt and then waits with an empty line. -/
theorem C25_prompt (E : Env) (cfg : Config E) (hin : 0 < E.inSize) (W : World) (u : Ush) (H : Holds E W u) (hs : u.state = .resetPrompt) (inp : List UInt8) :
    ∃ v, Steps E u inp v inp ∧ v.log = u.log ++ outs (promptText E W.path) ∧ Waiting E W v {} := by
  obtain ⟨v, r, h⟩ := done_resetPrompt cfg H hin inp hs
  exact ⟨v, r.steps, r.log, h⟩

example : promptText sE [b!"dev", b!"bus"] = [27] ++ b!"[35m[h bus]$ " ++ [27] ++ b!"[0m" := by decide

example : ∃ u, Holds sE sW u ∧ u.state = .resetPrompt := by
  obtain ⟨u, H⟩ := sWaiting
  exact ⟨{ u with state := .resetPrompt }, H.toHolds.same ⟨rfl, rfl, rfl, rfl⟩ ⟨H.sized.inLen, H.sized.outLen⟩, rfl⟩

/-! ## C37 ush_reset -/

/-- `ush_reset`, whatever the shell is doing, whatever its working directory is. -/
theorem C37_reset (E : Env) (cfg : Config E) (hin : 0 < E.inSize) (W : World) (u : Ush) (hz : Sized E u) (hr : WInv E u W)
    (ok : World.Ok E { W with cwd := W.tree.find [] }) (inp : List UInt8) :
    ∃ v w, runApi E u .reset = .ok v ∧ Steps E v inp w inp ∧ Waiting E { W with cwd := W.tree.find [] } w {} ∧
      w.log = u.log ++ outs (welcome ++ promptText E []) := by
  obtain ⟨m, hm⟩ := Option.ne_none_iff_exists'.mp ok.cwd
  have hm' : W.tree.find [] = some m := hm
  have hmem := (find_eq_some hr.tree.nodupPath).mp hm'
  have hroot : u.root = some m.id := by rw [hr.tree.root, hm']; rfl
  let v : Ush := writePointerBin { u with current := u.root } (.str banner) banner.length .resetPrompt
  have e : runApi E u .reset = .ok v := by
    show ushReset u = _
    unfold ushReset
    rw [writePointer_str _ _ _ (by decide)]
  have B : Booted E { W with cwd := W.tree.find [] } v := by
    refine ⟨hr.move rfl rfl rfl ?_, ⟨hz.inLen, hz.outLen⟩, rfl, rfl, rfl, rfl, rfl⟩
    intro m' h
    rw [show W.tree.find [] = some m' from h] at hm'
    cases hm'
    exact ⟨hmem.1, hroot⟩
  obtain ⟨w, r, H⟩ := B.done cfg ok hin inp
  have hp : World.prompt E { W with cwd := W.tree.find [] } = promptText E [] := by
    have : m.path = [] := hmem.2
    simp [World.prompt, World.path, hm', this]
  exact ⟨v, w, e, r.steps, H, by rw [r.log, hp]; rfl⟩

example : ∃ u, Sized sE u ∧ WInv sE u sW ∧ World.Ok sE { sW with cwd := sW.tree.find [] } ∧ sW.tree.find [] ≠ none := by
  obtain ⟨u, H⟩ := sWaiting
  exact ⟨u, H.sized, H.rep, by decide, by decide⟩

/-! ## C42 Print primitives, from every state -/

/-- `ush_print`. -/
theorem C42_print (E : Env) (cfg : Config E) (hin : 0 < E.inSize) (W : World) (u : Ush) (H : Holds E W u) (s : Str) (hs : cNul ∉ s) (inp : List UInt8) :
    ∃ v w, runApi E u (.print (.str s)) = .ok v ∧ Steps E v inp w inp ∧ Waiting E W w {} ∧ w.log = u.log ++ outs (s ++ crlf ++ W.prompt E) := by
  let v : Ush := writePointerBin u (.str s) s.length .reset
  have e : runApi E u (.print (.str s)) = .ok v := writePointer_str u s .reset hs
  have H1 : Holds E W (said u (.str s) s .reset) := H.same ⟨rfl, rfl, rfl, rfl⟩ ⟨H.sized.inLen, H.sized.outLen⟩
  have r1 : Run E v inp (said u (.str s) s .reset) inp (outs s) := ⟨Steps.say inp u (.str s) s .reset H.current (Readable.str u s), rfl⟩
  obtain ⟨w, r, h⟩ := Done.after r1 (done_reset cfg H1 hin inp rfl)
  exact ⟨v, w, e, r.steps, h, by rw [r.log]; simp [v, writePointerBin]⟩

example : ∃ u v w, Waiting sE sW u {} ∧ runApi sE u (.print (.str b!"hi")) = .ok v ∧ Steps sE v b!"ls" w b!"ls" ∧ w.log = u.log ++ outs (b!"hi" ++ crlf ++ sW.prompt sE) := by
  obtain ⟨u, H⟩ := sWaiting
  obtain ⟨v, w, h1, h2, -, h3⟩ := C42_print sE sConfig.1 (by decide) sW u H.toHolds b!"hi" (by decide) b!"ls"
  exact ⟨u, v, w, H, h1, h2, h3⟩

/-- `ush_print_no_newline`. -/
theorem C42_print_no_newline (E : Env) (cfg : Config E) (hin : 0 < E.inSize) (W : World) (u : Ush) (H : Holds E W u) (s : Str) (hs : cNul ∉ s) (inp : List UInt8) :
    ∃ v w, runApi E u (.printNoNewline (.str s)) = .ok v ∧ Steps E v inp w inp ∧ Waiting E W w {} ∧ w.log = u.log ++ outs (s ++ W.prompt E) := by
  let v : Ush := writePointerBin u (.str s) s.length .resetPrompt
  have e : runApi E u (.printNoNewline (.str s)) = .ok v := writePointer_str u s .resetPrompt hs
  have H1 : Holds E W (said u (.str s) s .resetPrompt) := H.same ⟨rfl, rfl, rfl, rfl⟩ ⟨H.sized.inLen, H.sized.outLen⟩
  have r1 : Run E v inp (said u (.str s) s .resetPrompt) inp (outs s) := ⟨Steps.say inp u (.str s) s .resetPrompt H.current (Readable.str u s), rfl⟩
  obtain ⟨w, r, h⟩ := Done.after r1 (done_resetPrompt cfg H1 hin inp rfl)
  exact ⟨v, w, e, r.steps, h, by rw [r.log]; simp [v, writePointerBin]⟩

example : ∃ u v w, Waiting sE sW u {} ∧ runApi sE u (.printNoNewline (.str b!"hi ")) = .ok v ∧ Steps sE v [] w [] ∧ w.log = u.log ++ outs (b!"hi " ++ sW.prompt sE) := by
  obtain ⟨u, H⟩ := sWaiting
  obtain ⟨v, w, h1, h2, -, h3⟩ := C42_print_no_newline sE sConfig.1 (by decide) sW u H.toHolds b!"hi " (by decide) []
  exact ⟨u, v, w, H, h1, h2, h3⟩

/-- `ush_print_status`. -/
theorem C42_print_status (E : Env) (cfg : Config E) (hin : 0 < E.inSize) (W : World) (u : Ush) (H : Holds E W u) (s : Status) (inp : List UInt8) :
    ∃ v w, runApi E u (.printStatus s) = .ok v ∧ Steps E v inp w inp ∧ Waiting E W w {} ∧
      w.log = u.log ++ outs (statusString E.tr s ++ crlf ++ W.prompt E) :=
  C42_print E cfg hin W u H _ (cfg.texts.status s) inp

/-- `ush_flush`, when the output buffer holds the C string `s`. -/
theorem C42_flush (E : Env) (cfg : Config E) (hin : 0 < E.inSize) (W : World) (u : Ush) (H : Holds E W u) (s t : Str) (hs : cNul ∉ s)
    (hb : u.outBuf = s ++ cNul :: t) (inp : List UInt8) :
    ∃ v w, runApi E u .flush = .ok v ∧ Steps E v inp w inp ∧ Waiting E W w {} ∧ w.log = u.log ++ outs (s ++ W.prompt E) := by
  let v : Ush := writePointerBin u .outBuf s.length .resetPrompt
  have e : runApi E u .flush = .ok v :=
    writePointer_of .resetPrompt (by simp) (by show cstrAt u.outBuf 0 = _; rw [hb]; exact cstrAt_zero s t hs)
  have H1 : Holds E W (said u .outBuf s .resetPrompt) := H.same ⟨rfl, rfl, rfl, rfl⟩ ⟨H.sized.inLen, H.sized.outLen⟩
  have r1 : Run E v inp (said u .outBuf s .resetPrompt) inp (outs s) :=
    ⟨Steps.say inp u .outBuf s .resetPrompt H.current (Readable.out u s _ hb), rfl⟩
  obtain ⟨w, r, h⟩ := Done.after r1 (done_resetPrompt cfg H1 hin inp rfl)
  exact ⟨v, w, e, r.steps, h, by rw [r.log]; simp [v, writePointerBin]⟩

example : ∃ u, Holds sE sW u ∧ u.state = .processService ∧ ∃ t, u.outBuf = b!"abc" ++ cNul :: t := by
  obtain ⟨u, H⟩ := sWaiting
  exact ⟨{ u with state := .processService, outBuf := b!"abc" ++ cNul :: List.replicate 60 7 },
    H.toHolds.same ⟨rfl, rfl, rfl, rfl⟩ ⟨H.sized.inLen, rfl⟩, rfl, _, rfl⟩

end Ush.Props
