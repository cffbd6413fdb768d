import Verif.Props.Samples
/-!
# Line editing, tokenisation and dispatch (C13 – C19, C26)

`Waiting E W u e`: the shell `u` represents the world `W` and waits for a key with the line editor in state `e`.  Such
states are reached from start-up (`C38_startup`), and every theorem here leads to such a state again.
-/
namespace Ush.Props
open Spec

/-! ## C15 Line editing -/

/-- Typing any keys other than Ctrl+C, TAB, Enter and ESC: the line becomes the typed text, with erase keys applied, as
long as it fits. -/
theorem C15_line (E : Env) (cfg : Config E) (W : World) (u : Ush) (line : Str) (H : Waiting E W u ⟨line, .none⟩) (cs : Str)
    (ht : ∀ c ∈ cs, isText c = true) (hf : ∀ p, p <+: cs → (edit line p).length < E.inSize) (inp : List UInt8) :
    ∃ v, Steps E u (cs ++ inp) v inp ∧ Waiting E W v ⟨edit line cs, .none⟩ := by
  obtain ⟨h1, h2⟩ := keys_edit E.inSize cs line ht hf
  obtain ⟨v, r, h⟩ := H.keys cfg cs inp h1
  rw [h2] at h
  exact ⟨v, r.steps, h⟩

/-- What is in the line is in the input buffer, from its beginning, terminated by NUL. -/
theorem C15_buffer (E : Env) (W : World) (u : Ush) (e : Editor) (H : Waiting E W u e) : ∃ rest, u.inBuf = e.line ++ cNul :: rest :=
  H.shows.buf

example : ∃ u, Waiting sE sW u ⟨b!"ca", .none⟩ ∧ (∀ c ∈ ([cBs, cBs, cDel] ++ b!"pwt" ++ [cBs] ++ b!"d"), isText c = true) ∧
    edit b!"ca" ([cBs, cBs, cDel] ++ b!"pwt" ++ [cBs] ++ b!"d") = b!"pwd" := by
  obtain ⟨u, H⟩ := sTyped b!"ca" (by decide) (by decide)
  exact ⟨u, H, by decide, by decide⟩

/-! ## C26 Dispatch -/

/-- An empty line (no words): only a new prompt. -/
theorem C26_empty (E : Env) (cfg : Config E) (W : World) (u : Ush) (e : Editor) (H : Waiting E W u e) (hesc : e.esc = .none)
    (c : UInt8) (hen : c = cLf ∨ c = cCr) (hin : 2 ≤ E.inSize) (hw : words (sent E.inSize e.line) = []) (inp : List UInt8) :
    ∃ v, Steps E u (c :: inp) v inp ∧ Waiting E W v {} ∧ v.log = u.log ++ .inp c :: outs (enterEcho c ++ W.prompt E) := by
  have A : Answers E W [] (outs (W.prompt E)) W := by
    refine answers_of cfg ?_
    intro w w' nl i s1 s2 s3 s4 s5 P hin
    rw [parseFinish_empty P] at s4
    exact done_quiet (l := []) cfg i s3 hin s1 s2 s4 P.state (by simp [s5]) P.toHolds
  obtain ⟨v, r, h⟩ := A u e c inp H hesc hen hin hw
  exact ⟨v, r.steps, h, by rw [r.log]; simp⟩

example : ∃ u, Waiting sE sW u ⟨b!"   ", .none⟩ ∧ words b!"   " = [] := by
  obtain ⟨u, H⟩ := sTyped b!"   " (by decide) (by decide)
  exact ⟨u, H, by decide⟩

/-- A name that is not found, after the hook has made any valid calls `cs`: the hook is called once, then 'syntax error' is
printed; no file callback runs. -/
theorem C26_unknown (E : Env) (cfg : Config E) (W : World) (u : Ush) (e : Editor) (H : Waiting E W u e) (hesc : e.esc = .none)
    (c : UInt8) (hen : c = cLf ∨ c = cCr) (hin : 2 ≤ E.inSize)
    (name : Str) (as : List Str) (hw : words (sent E.inSize e.line) = name :: as) (cs : List Call)
    (hh : HookSays E (u.log ++ .inp c :: outs (enterEcho c)) (name :: as) cs) (hv : (Talk.start W c).ValidRun E cs)
    (ok : ((Talk.start W c).run E cs).1.world.Ok E)
    (hn : ((Talk.start W c).run E cs).1.world.Near E name) (hf : ((Talk.start W c).run E cs).1.world.file? name = none) (inp : List UInt8) :
    ∃ v, Steps E u (c :: inp) v inp ∧ Waiting E ((Talk.start W c).run E cs).1.world v {} ∧
      v.log = u.log ++ .inp c :: outs (enterEcho c) ++ hookEvents E (name :: as) ++ ((Talk.start W c).run E cs).2.map .ret ++
        outs (statusString E.tr .cmdSyntaxError ++ crlf ++ ((Talk.start W c).run E cs).1.world.prompt E) := by
  obtain ⟨w, v, r, s1, s2, s3, T, hl, hs⟩ := enter_hook cfg H c inp hesc hen hin hw hh hv ok hn
  rw [hf] at hs
  obtain ⟨x, r2, h⟩ := Done.after r (done_status cfg .cmdSyntaxError inp s3 (by omega) s1 s2 hs (by rw [hl, List.append_assoc]) (T.talks.holds ok))
  exact ⟨x, r2.steps, h, by rw [r2.log]; simp⟩

example : ∃ u, Waiting sE sW u ⟨b!"foo 1", .none⟩ ∧ words b!"foo 1" = [b!"foo", b!"1"] ∧
    HookSays sE (u.log ++ .inp cCr :: outs (enterEcho cCr)) [b!"foo", b!"1"] [.printf b!"?"] ∧
    (Talk.start sW cCr).ValidRun sE [.printf b!"?"] ∧ ((Talk.start sW cCr).run sE [.printf b!"?"]).1.world.Ok sE ∧
    ((Talk.start sW cCr).run sE [.printf b!"?"]).1.world.Near sE b!"foo" ∧
    ((Talk.start sW cCr).run sE [.printf b!"?"]).1.world.file? b!"foo" = none := by
  obtain ⟨u, H⟩ := sTyped b!"foo 1" (by decide) (by decide)
  exact ⟨u, H, by decide, fun _ _ => rfl, by decide, sW_ok.1, by decide, by decide⟩

/-- A file without execute callback. -/
theorem C26_not_executable (E : Env) (cfg : Config E) (W : World) (u : Ush) (e : Editor) (H : Waiting E W u e) (hesc : e.esc = .none)
    (c : UInt8) (hen : c = cLf ∨ c = cCr) (hin : 2 ≤ E.inSize)
    (name : Str) (as : List Str) (hw : words (sent E.inSize e.line) = name :: as) (cs : List Call)
    (hh : HookSays E (u.log ++ .inp c :: outs (enterEcho c)) (name :: as) cs) (hv : (Talk.start W c).ValidRun E cs)
    (ok : ((Talk.start W c).run E cs).1.world.Ok E)
    (hn : ((Talk.start W c).run E cs).1.world.Near E name) (f : FileDesc) (hf : ((Talk.start W c).run E cs).1.world.file? name = some f)
    (hx : f.exec = none) (inp : List UInt8) :
    ∃ v, Steps E u (c :: inp) v inp ∧ Waiting E ((Talk.start W c).run E cs).1.world v {} ∧
      v.log = u.log ++ .inp c :: outs (enterEcho c) ++ hookEvents E (name :: as) ++ ((Talk.start W c).run E cs).2.map .ret ++
        outs (statusString E.tr .fileNotExecutable ++ crlf ++ ((Talk.start W c).run E cs).1.world.prompt E) := by
  obtain ⟨w, v, r, s1, s2, s3, T, hl, hs⟩ := enter_hook cfg H c inp hesc hen hin hw hh hv ok hn
  rw [hf] at hs
  simp only [hx] at hs
  obtain ⟨x, r2, h⟩ := Done.after r (done_status cfg .fileNotExecutable inp s3 (by omega) s1 s2 hs (by rw [hl, List.append_assoc]) (T.talks.holds ok))
  exact ⟨x, r2.steps, h, by rw [r2.log]; simp⟩

example : ∃ u, Waiting sE sW u ⟨b!"dev/led 1", .none⟩ ∧ words b!"dev/led 1" = [b!"dev/led", b!"1"] ∧
    HookSays sE (u.log ++ .inp cCr :: outs (enterEcho cCr)) [b!"dev/led", b!"1"] [.printf b!"?"] ∧
    (Talk.start sW cCr).ValidRun sE [.printf b!"?"] ∧ ((Talk.start sW cCr).run sE [.printf b!"?"]).1.world.Ok sE ∧
    ((Talk.start sW cCr).run sE [.printf b!"?"]).1.world.Near sE b!"dev/led" ∧
    ∃ f, ((Talk.start sW cCr).run sE [.printf b!"?"]).1.world.file? b!"dev/led" = some f ∧ f.exec = none := by
  obtain ⟨u, H⟩ := sTyped b!"dev/led 1" (by decide) (by decide)
  exact ⟨u, H, by decide, fun _ _ => rfl, by decide, sW_ok.1, by decide, _, rfl, rfl⟩

/-- An application command: first the hook makes its calls `cs`, then the callback of the file found for the first word is
called exactly once with the same arguments and makes its calls `ds`; then what they have printed is shown, then the
prompt. -/
theorem C26_exec (E : Env) (cfg : Config E) (W : World) (u : Ush) (e : Editor) (H : Waiting E W u e) (hesc : e.esc = .none)
    (c : UInt8) (hen : c = cLf ∨ c = cCr) (hin : 2 ≤ E.inSize)
    (name : Str) (as : List Str) (hw : words (sent E.inSize e.line) = name :: as) (cs : List Call)
    (hh : HookSays E (u.log ++ .inp c :: outs (enterEcho c)) (name :: as) cs) (hv : (Talk.start W c).ValidRun E cs)
    (T1 : Talk) (rs : List Status) (hT1 : (Talk.start W c).run E cs = (T1, rs)) (ok : T1.world.Ok E) (hn : T1.world.Near E name)
    (f : FileDesc) (id : Nat) (hf : T1.world.file? name = some f) (hx : f.exec = some (.user id)) (ds : List Call)
    (hd : Says (u.log ++ .inp c :: outs (enterEcho c) ++ hookEvents E (name :: as) ++ rs.map .ret ++ [.exec (.user id) (name :: as)])
      (E.userExec id (name :: as)) ds)
    (hv2 : T1.ValidRun E ds) (T2 : Talk) (rs2 : List Status) (hT2 : T1.run E ds = (T2, rs2)) (ok2 : T2.world.Ok E) (inp : List UInt8) :
    ∃ v, Steps E u (c :: inp) v inp ∧ Waiting E T2.world v {} ∧
      v.log = u.log ++ .inp c :: outs (enterEcho c) ++ hookEvents E (name :: as) ++ rs.map .ret ++ [.exec (.user id) (name :: as)] ++
        rs2.map .ret ++ outs (T2.output ++ T2.world.prompt E) := by
  obtain ⟨w, v, r, s1, s2, s3, T, hl, hs⟩ := enter_hook cfg H c inp hesc hen hin hw hh hv (by rw [hT1]; exact ok) (by rw [hT1]; exact hn)
  rw [hT1] at hs T hl
  simp only [hf, hx] at hs
  have hlog : (v.emit (.exec (.user id) (name :: as))).log =
      u.log ++ .inp c :: outs (enterEcho c) ++ hookEvents E (name :: as) ++ rs.map .ret ++ [.exec (.user id) (name :: as)] := by
    simp only [Ush.emit, hl, r.log]
  have hs' : innerStep E w = runApis E (v.emit (.exec (.user id) (name :: as))) (ds.flatMap Call.apis) := by
    rw [hs, ← hd _ hlog]; rfl
  obtain ⟨x, r2, h⟩ := Done.after r (done_calls cfg inp (by omega) s1 s2 s3 (T.talks.emit _)
    (l := hookEvents E (name :: as) ++ rs.map .ret ++ [.exec (.user id) (name :: as)]) (by simp only [Ush.emit, hl]; simp) hs' hv2 (by rw [hT2]; exact ok2))
  rw [hT2] at r2 h
  exact ⟨x, r2.steps, h, by rw [r2.log]; simp⟩

/-- In the sample, the hook's text and the text of the command come out in this order. -/
example : ∃ u, Waiting sE sW u ⟨b!"run 1", .none⟩ ∧ words b!"run 1" = [b!"run", b!"1"] ∧
    HookSays sE (u.log ++ .inp cCr :: outs (enterEcho cCr)) [b!"run", b!"1"] [.printf b!"?"] ∧
    (Talk.start sW cCr).ValidRun sE [.printf b!"?"] ∧ ∃ T1 f T2, (Talk.start sW cCr).run sE [.printf b!"?"] = (T1, []) ∧ T1.world.Ok sE ∧ T1.world.Near sE b!"run" ∧
    T1.world.file? b!"run" = some f ∧ f.exec = some (.user 1) ∧
    (∀ l, Says l (sE.userExec 1 [b!"run", b!"1"]) [.printf b!"o", .printf b!"k"]) ∧
    T1.ValidRun sE [.printf b!"o", .printf b!"k"] ∧ T1.run sE [.printf b!"o", .printf b!"k"] = (T2, []) ∧ T2.world.Ok sE ∧ T2.output = b!"?ok" := by
  obtain ⟨u, H⟩ := sTyped b!"run 1" (by decide) (by decide)
  refine ⟨u, H, by decide, fun _ _ => rfl, by decide, _, _, _, rfl, sW_ok.1, by decide, rfl, rfl, fun _ _ _ => rfl,
    by decide, rfl, sW_ok.1, by decide⟩

/-! ## C13 Command line tokenisation -/

/-- The hook and the command's callback get exactly the words of the line. -/
theorem C13_argv (E : Env) (cfg : Config E) (W : World) (u : Ush) (e : Editor) (H : Waiting E W u e) (hesc : e.esc = .none)
    (c : UInt8) (hen : c = cLf ∨ c = cCr) (hfit : e.line.length + 1 < E.inSize)
    (hq : QuietHook E) (name : Str) (hw : (words e.line).head? = some name) (hn : W.Near E name)
    (f : FileDesc) (id : Nat) (hf : W.file? name = some f) (hx : f.exec = some (.user id))
    (hd : ∀ v, E.userExec id (words e.line) v = []) (inp : List UInt8) :
    ∃ v, Steps E u (c :: inp) v inp ∧ Waiting E W v {} ∧
      v.log = u.log ++ .inp c :: outs (enterEcho c) ++ hookEvents E (words e.line) ++ [.exec (.user id) (words e.line)] ++ outs (W.prompt E) := by
  obtain ⟨as, hw⟩ : ∃ as, words e.line = name :: as := by
    cases h : words e.line with
    | nil => rw [h] at hw; cases hw
    | cons x as => rw [h] at hw; cases hw; exact ⟨as, rfl⟩
  rw [hw] at hd ⊢
  have hh : HookSays E (u.log ++ .inp c :: outs (enterEcho c)) (name :: as) [] := by
    unfold HookSays
    cases h : E.hook with
    | none => rfl
    | some g => exact fun x _ => hq g h _ x
  obtain ⟨v, h1, h2, h3⟩ := C26_exec E cfg W u e H hesc c hen (by omega) name as (by rw [sent_fit hfit]; exact hw) [] hh trivial _ _ rfl H.ok hn f id hf hx [] (fun v _ => hd v) trivial _ _ rfl H.ok inp
  exact ⟨v, h1, h2, by rw [h3]; simp [Talk.output, Talk.start]⟩

example : ∃ u, Waiting { sE0 with userExec := fun _ _ _ => [] } sW u ⟨b!"run \"a b\"\\\" \"c", .none⟩ ∧
    words b!"run \"a b\"\\\" \"c" = [b!"run", b!"a b\"", b!"c"] := by
  obtain ⟨u, H⟩ := boot_waiting (E := { sE0 with userExec := fun _ _ _ => [] }) ⟨by decide, by decide, by decide, by decide, by decide⟩
    ⟨by decide, ⟨by decide, by decide, by decide, by decide, by decide, statusString_nul _ (by decide)⟩⟩ sHist (by decide) (by decide)
  obtain ⟨v, H⟩ := typed ⟨by decide, ⟨by decide, by decide, by decide, by decide, by decide, statusString_nul _ (by decide)⟩⟩ H b!"run \"a b\"\\\" \"c" (by decide) (by decide)
  exact ⟨v, H, by decide⟩

/-- A line without quotes, backslashes and NUL bytes is split at spaces. -/
theorem C13_plain (line : Str) (h1 : cQuote ∉ line) (h2 : cBackslash ∉ line) (h3 : cNul ∉ line) : words line = (splitSpaces line).filter (fun w => w != []) := by
  rw [words_plain h3]
  exact (lex_plain line h1 h2).1

example : words b!"  echo a  b " = [b!"echo", b!"a", b!"b"] ∧ splitSpaces b!"a  b" = [b!"a", [], b!"b"] := by decide

/-- NUL bytes: a NUL ends an argument, and for every NUL a word is lost at the end of the line. -/
example : words b!"e a\x00b" = [b!"e", b!"a"] ∧ words b!"e a\x00b c d" = [b!"e", b!"a", b!"b", b!"c"] ∧ words b!"\x00 a" = [[], []] ∧ words b!" \x00 " = [[]] := by decide

/-- Unusual lines: text next to quotes joins, `\x` is kept, unterminated quotes and trailing backslashes. -/
example : words b!"a\"b c\"d" = [b!"ab cd"] ∧ words b!"\\x41\\y" = [b!"\\x41y"] ∧ words b!"\"a b" = [b!"a b"] ∧ words b!"a \\" = [b!"a", []] ∧
    words b!"\"\" x" = [[], b!"x"] := by decide

/-! ## C14 Every argument vector can be typed -/

/-- Quoting yields a line whose words are the given arguments. -/
theorem C14_words (as : List Str) (h : ∀ a ∈ as, cNul ∉ a) : words (typeArgs as) = as := words_typeArgs as h

example : words (typeArgs [b!"run", [], b!"a \\\"b", b!"c"]) = [b!"run", [], b!"a \\\"b", b!"c"] := by decide

theorem quoteArg_text {a : Str} (h : ∀ c ∈ a, isText c = true ∧ isErase c = false) : ∀ c ∈ quoteArg a, isText c = true ∧ isErase c = false := by
  intro c hc
  simp only [quoteArg, List.mem_append, List.mem_cons, List.mem_flatMap, List.not_mem_nil, or_false] at hc
  rcases hc with (rfl | ⟨x, hx, hc⟩) | rfl
  · decide
  · split at hc
    · simp only [List.mem_cons, List.not_mem_nil, or_false] at hc
      rcases hc with rfl | rfl
      · decide
      · exact h _ hx
    · simp only [List.mem_cons, List.not_mem_nil, or_false] at hc
      subst hc; exact h _ hx
  · decide

/-- Typing this line from an empty line, and Enter: the command's callback gets exactly the given arguments. -/
theorem C14_typed (E : Env) (cfg : Config E) (W : World) (u : Ush) (H : Waiting E W u {}) (name : Str) (as : List Str)
    (ht : ∀ a ∈ name :: as, ∀ c ∈ a, isText c = true ∧ isErase c = false ∧ c ≠ cNul) (hfit : (typeArgs (name :: as)).length + 1 < E.inSize)
    (hq : QuietHook E) (hn : W.Near E name) (f : FileDesc) (id : Nat) (hf : W.file? name = some f) (hx : f.exec = some (.user id))
    (hd : ∀ v, E.userExec id (name :: as) v = []) (inp : List UInt8) :
    ∃ v l, Steps E u (typeArgs (name :: as) ++ cCr :: inp) v inp ∧ Waiting E W v {} ∧
      v.log = u.log ++ l ++ hookEvents E (name :: as) ++ [.exec (.user id) (name :: as)] ++ outs (W.prompt E) ∧ ∀ x ∈ l, x.isIo = true := by
  have hc : ∀ c ∈ typeArgs (name :: as), isText c = true ∧ isErase c = false := by
    intro c hc
    obtain ⟨a, ha, hc⟩ := List.mem_flatMap.mp hc
    rcases List.mem_append.mp hc with hc | hc
    · exact quoteArg_text (fun c hc => ⟨(ht a ha c hc).1, (ht a ha c hc).2.1⟩) c hc
    · have : c = cSpace := by simpa using hc
      subst this; decide
  have hws := words_typeArgs (name :: as) (fun a ha h => (ht a ha _ h).2.2 rfl)
  obtain ⟨k1, k2⟩ := keys_wrap E.inSize (typeArgs (name :: as)) [] hc (by simp; omega)
  obtain ⟨v, r, h⟩ := H.keys cfg (typeArgs (name :: as)) (cCr :: inp) k1
  rw [k2] at h
  have hline : (([] : Str) ++ typeArgs (name :: as)).drop (E.inSize * ((([] : Str).length + (typeArgs (name :: as)).length) / E.inSize)) = typeArgs (name :: as) := by
    rw [Nat.div_eq_of_lt (by simp; omega)]; simp
  rw [hline] at h
  obtain ⟨w, s, h', hl⟩ := C13_argv E cfg W v _ h rfl cCr (Or.inr rfl) hfit hq name (by rw [hws]; rfl) hn f id hf hx (by rw [hws]; exact hd) inp
  rw [hws] at hl
  refine ⟨w, (Editor.keys E.inSize {} (typeArgs (name :: as))).2 ++ .inp cCr :: outs (enterEcho cCr), r.steps.trans s, h', by rw [hl, r.log]; simp, ?_⟩
  intro x hx
  rcases List.mem_append.mp hx with hx | hx
  · have : ∀ (cs : Str) (e : Editor), ∀ x ∈ (Editor.keys E.inSize e cs).2, x.isIo = true := by
      intro cs
      induction cs with
      | nil => intro e x hx; cases hx
      | cons c cs ih =>
        intro e x hx
        simp only [Editor.keys, List.cons_append, List.mem_cons, List.mem_append, List.mem_map] at hx
        rcases hx with rfl | ⟨b, -, rfl⟩ | hx
        · rfl
        · rfl
        · exact ih _ x hx
    exact this _ _ x hx
  · exact (by decide : ∀ x ∈ (Event.inp cCr :: outs (enterEcho cCr)), x.isIo = true) x hx

example : ∃ u, Waiting { sE0 with userExec := fun _ _ _ => [] } sW u {} ∧ QuietHook { sE0 with userExec := fun _ _ _ => [] } ∧
    (typeArgs [b!"run", [], b!"a \\\"b"]).length + 1 < 32 ∧ ∃ f, sW.file? b!"run" = some f ∧ f.exec = some (.user 1) := by
  obtain ⟨u, H⟩ := boot_waiting (E := { sE0 with userExec := fun _ _ _ => [] }) ⟨by decide, by decide, by decide, by decide, by decide⟩
    ⟨by decide, ⟨by decide, by decide, by decide, by decide, by decide, statusString_nul _ (by decide)⟩⟩ sHist (by decide) (by decide)
  exact ⟨u, H, fun h hh => by (cases hh), by decide, _, rfl, rfl⟩

/-! ## C16 A line that does not fit -/

/-- Whatever keys are typed into the editor, in whatever number, the shell goes on (every access to the buffer is checked in
the model), and the buffers keep their sizes. -/
theorem C16_in_bounds (E : Env) (cfg : Config E) (W : World) (u : Ush) (e : Editor) (H : Waiting E W u e) (cs : Str)
    (ht : e.takesAll E.inSize cs = true) (inp : List UInt8) :
    ∃ v, Steps E u (cs ++ inp) v inp ∧ Waiting E W v (e.keys E.inSize cs).1 ∧ (e.keys E.inSize cs).1.line.length < E.inSize := by
  obtain ⟨v, r, h⟩ := H.keys cfg cs inp ht
  exact ⟨v, r.steps, h, shows_lt h.shows h.sized⟩

example : ∃ u v, Waiting sE sW u {} ∧ Steps sE u (List.replicate 70 120 ++ []) v [] ∧
    Waiting sE sW v (({} : Editor).keys sE.inSize (List.replicate 70 120)).1 ∧ (({} : Editor).keys sE.inSize (List.replicate 70 120)).1.line.length < sE.inSize := by
  obtain ⟨u, H⟩ := sWaiting
  obtain ⟨v, h⟩ := C16_in_bounds sE sConfig.1 sW u {} H (List.replicate 70 120) (by decide +kernel) []
  exact ⟨u, v, H, h⟩

/-- What is in the line after typing any number of characters: all but the last `length mod size` of them are dropped. -/
theorem C16_wrap (E : Env) (cfg : Config E) (hin : 0 < E.inSize) (W : World) (u : Ush) (H : Waiting E W u {}) (cs : Str)
    (ht : ∀ c ∈ cs, isText c = true ∧ isErase c = false) (inp : List UInt8) :
    ∃ v, Steps E u (cs ++ inp) v inp ∧ Waiting E W v ⟨cs.drop (E.inSize * (cs.length / E.inSize)), .none⟩ := by
  obtain ⟨h1, h2⟩ := keys_wrap E.inSize cs [] ht hin
  obtain ⟨v, r, h⟩ := H.keys cfg cs inp h1
  rw [h2] at h
  exact ⟨v, r.steps, by simpa using h⟩

/-- The part of the property that holds: a line whose length is a multiple of the buffer size leaves an empty line, so Enter
executes nothing.  Missing: other long lines, of which the end is executed (`C16_false`). -/
theorem C16_dropped_partial (E : Env) (cfg : Config E) (hin : 2 ≤ E.inSize) (W : World) (u : Ush) (H : Waiting E W u {}) (cs : Str)
    (ht : ∀ c ∈ cs, isText c = true ∧ isErase c = false) (hl : E.inSize ∣ cs.length) (inp : List UInt8) :
    ∃ v w, Steps E u (cs ++ cCr :: inp) v (cCr :: inp) ∧ Waiting E W v {} ∧ Steps E v (cCr :: inp) w inp ∧
      w.log = v.log ++ .inp cCr :: outs (crlf ++ W.prompt E) ∧ Waiting E W w {} := by
  obtain ⟨v, s, h⟩ := C16_wrap E cfg (by omega) W u H cs ht (cCr :: inp)
  have : cs.drop (E.inSize * (cs.length / E.inSize)) = [] := by rw [Nat.mul_div_cancel' hl]; simp
  rw [this] at h
  obtain ⟨w, s2, h2, hl2⟩ := C26_empty E cfg W v {} h rfl cCr (Or.inr rfl) hin (by rw [sent_fit (by simp; omega)]; rfl) inp
  exact ⟨v, w, s, h, s2, hl2, h2⟩

example : ∃ u, Waiting sE sW u {} ∧ (∀ c ∈ List.replicate 64 (97 : UInt8), isText c = true ∧ isErase c = false) ∧ sE.inSize ∣ (List.replicate 64 (97 : UInt8)).length := by
  obtain ⟨u, H⟩ := sWaiting
  exact ⟨u, H, by decide, by decide⟩

/-- A line that fills the buffer (one character less than its size): Enter takes the last place, and its first character is replaced by NUL.  So the first word is
empty; as no file is found under the empty name, only 'syntax error' is printed; no callback but the hook runs. -/
theorem C16_full (E : Env) (cfg : Config E) (hin : 2 ≤ E.inSize) (W : World) (u : Ush) (e : Editor) (H : Waiting E W u e) (hesc : e.esc = .none)
    (c : UInt8) (hen : c = cLf ∨ c = cCr) (hfull : e.line.length + 1 = E.inSize) (hq : QuietHook E) (hn : W.Near E []) (hf : W.file? [] = none) (inp : List UInt8) :
    ∃ v as, Steps E u (c :: inp) v inp ∧ Waiting E W v {} ∧ (cNul ∉ e.line → as = (lex .bare false e.line.tail).dropLast) ∧
      v.log = u.log ++ .inp c :: outs (enterEcho c) ++ hookEvents E ([] :: as) ++ outs (statusString E.tr .cmdSyntaxError ++ crlf ++ W.prompt E) := by
  have hs : sent E.inSize e.line = cNul :: e.line.tail := if_neg (by omega)
  obtain ⟨as, h1, h2⟩ := words_nul e.line.tail
  have hh : HookSays E (u.log ++ .inp c :: outs (enterEcho c)) ([] :: as) [] := by
    unfold HookSays
    cases h : E.hook with
    | none => rfl
    | some g => exact fun x _ => hq g h _ x
  obtain ⟨v, s, h, l⟩ := C26_unknown E cfg W u e H hesc c hen hin [] as (by rw [hs, h1]) [] hh trivial H.ok hn hf inp
  exact ⟨v, as, s, h, fun hno => h2 (fun h => hno (List.mem_of_mem_tail h)), by rw [l]; simp [Talk.run, Talk.start]⟩

/-- The command `run` with a long argument: its name is not found. -/
example : ∃ u, Waiting sE0 sW u ⟨b!"run aaaaaaaaaaaaaaaaaaaaaaaaa b", .none⟩ ∧ b!"run aaaaaaaaaaaaaaaaaaaaaaaaa b".length + 1 = sE0.inSize ∧ QuietHook sE0 ∧ sW.Near sE0 [] ∧
    sW.file? [] = none ∧ (lex .bare false b!"run aaaaaaaaaaaaaaaaaaaaaaaaa b".tail).dropLast = [b!"un", b!"aaaaaaaaaaaaaaaaaaaaaaaaa"] := by
  obtain ⟨u, H⟩ := sTyped0 b!"run aaaaaaaaaaaaaaaaaaaaaaaaa b" (by decide) (by decide)
  exact ⟨u, H, by decide, fun h hh => by (cases hh), by decide, by decide, by decide⟩

/-- The property is false: whatever is typed after as many characters as the buffer has is executed as a command of its own. -/
theorem C16_false : ∃ u, Waiting sE0 sW u {} ∧ ∃ v l, Steps sE0 u (List.replicate 32 (120 : UInt8) ++ b!"run\r") v [] ∧
    v.log = u.log ++ l ++ [.exec (.user 1) [b!"run"]] ++ outs (b!"ok" ++ sW.prompt sE0) := by
  obtain ⟨u, H⟩ := sWaiting0
  refine ⟨u, H, ?_⟩
  obtain ⟨v, s, h⟩ := C16_wrap sE0 sConfig.2 (by decide) sW u H (List.replicate 32 (120 : UInt8) ++ b!"run") (by decide) [cCr]
  have hd : (List.replicate 32 (120 : UInt8) ++ b!"run").drop (sE0.inSize * ((List.replicate 32 (120 : UInt8) ++ b!"run").length / sE0.inSize)) = b!"run" := by decide
  rw [hd] at h
  obtain ⟨w, s2, -, hl⟩ := C26_exec sE0 sConfig.2 sW v _ h rfl cCr (Or.inr rfl) (by decide) b!"run" [] (by decide) [] rfl trivial
    _ _ rfl sW_ok.2 (by decide) _ 1 rfl rfl [.printf b!"o", .printf b!"k"] (fun _ _ => rfl) (by decide) _ _ rfl sW_ok.2 []
  have pre : ∃ l, v.log = u.log ++ l := by
    obtain ⟨n, hn⟩ := s
    obtain ⟨t, ht⟩ := drive_log _ hn
    exact ⟨t, ht.symm⟩
  obtain ⟨l, hlv⟩ := pre
  refine ⟨w, l ++ .inp cCr :: outs (enterEcho cCr), by simpa using s.trans s2, ?_⟩
  rw [hl, hlv]
  simp [hookEvents, sE0, Talk.output, Talk.run, Talk.step, Talk.start]

/-! ## C17 Echo is exact -/

/-- While keys are handled by the editor, the log is: each key, followed by its echo. -/
theorem C17_echo (E : Env) (cfg : Config E) (W : World) (u : Ush) (e : Editor) (H : Waiting E W u e) (cs : Str)
    (ht : e.takesAll E.inSize cs = true) (inp : List UInt8) :
    ∃ v, Steps E u (cs ++ inp) v inp ∧ v.log = u.log ++ (e.keys E.inSize cs).2 := by
  obtain ⟨v, r, -⟩ := H.keys cfg cs inp ht
  exact ⟨v, r.steps, r.log⟩

example : ∃ u v, Waiting sE sW u {} ∧ Steps sE u (b!"lx" ++ [8] ++ b!"s") v [] ∧
    v.log = u.log ++ [.inp 108, .out 108, .inp 120, .out 120, .inp 8, .out 8, .out 32, .out 8, .inp 115, .out 115] := by
  obtain ⟨u, H⟩ := sWaiting
  obtain ⟨v, h1, h2⟩ := C17_echo sE sConfig.1 sW u {} H (b!"lx" ++ [8] ++ b!"s") (by decide) []
  exact ⟨u, v, H, h1, h2.trans (congrArg _ (by decide))⟩

/-- The echo of one key: itself for a character, backspace-space-backspace for an effective erase key, nothing for an erase key
on an empty line, and nothing for the characters of an escape sequence. -/
theorem C17_key (cap : Nat) (e : Editor) (c : UInt8) :
    (e.key cap c).2 =
      if isErase c then (if e.line = [] then [] else [cBs, cSpace, cBs])
      else if c = cEsc ∨ e.esc ≠ .none ∨ c = cNul then [] else [c] := by
  unfold Editor.key
  split
  · split <;> rfl
  · by_cases h : c = cEsc
    · simp [h]
    · rw [if_neg h]
      cases he : e.esc <;> simp [h]

/-- Enter is echoed as it is, CR as CR LF, before anything else happens. -/
theorem C17_enter (E : Env) (cfg : Config E) (W : World) (u : Ush) (e : Editor) (H : Waiting E W u e) (hesc : e.esc = .none)
    (c : UInt8) (hen : c = cLf ∨ c = cCr) (hin : 2 ≤ E.inSize) (inp : List UInt8) :
    ∃ v, Steps E u (c :: inp) v inp ∧ v.log = u.log ++ .inp c :: outs (if c = cCr then crlf else [c]) := by
  obtain ⟨w, w', r, -⟩ := enter_parse cfg H c inp hesc hen hin
  exact ⟨w, r.steps, r.log⟩

example : ∃ u, Waiting sE sW u ⟨b!"a", .none⟩ ∧ Editor.takesAll sE.inSize ⟨b!"a", .none⟩ (b!"b" ++ [cEsc] ++ b!"[A" ++ [cBs, cBs, cBs] ++ b!"c") = true ∧
    (Editor.keys sE.inSize ⟨b!"a", .none⟩ (b!"b" ++ [cBs, cBs, cBs] ++ b!"c")).2 =
      [.inp 98, .out 98, .inp cBs, .out cBs, .out 32, .out cBs, .inp cBs, .out cBs, .out 32, .out cBs, .inp cBs, .inp 99, .out 99] := by
  obtain ⟨u, H⟩ := sTyped b!"a" (by decide) (by decide)
  exact ⟨u, H, by decide, by decide⟩

/-! ## C18 Ctrl+C -/

/-- Ctrl+C in any state of the editor: `^C`, a new line and the prompt are printed, nothing else happens, and the line is
empty.  (What happens next is determined by `Waiting E W v {}`, which does not mention the discarded line.) -/
theorem C18_ctrl_c (E : Env) (cfg : Config E) (hin : 0 < E.inSize) (W : World) (u : Ush) (e : Editor) (H : Waiting E W u e) (inp : List UInt8) :
    ∃ v, Steps E u (cEtx :: inp) v inp ∧ Waiting E W v {} ∧ v.log = u.log ++ .inp cEtx :: outs (b!"^C" ++ crlf ++ W.prompt E) := by
  obtain ⟨m, -, h1, h2, h3, h4, -⟩ := H.cwd
  obtain ⟨v, r, p, -⟩ := ctrlC_run cfg.texts inp H.shows H.sized h2 h3 h4 hin
  rw [← h1] at r
  exact ⟨v, r.steps, p.waiting H.toHolds, r.log⟩

/-- After Ctrl+C an application command behaves as it does on a shell that never had the discarded text: whatever the two shells
have in their lines, what the terminal shows and the callbacks get from here on is the same.  (The callbacks may make any valid
calls, but not depend on what has been logged before.) -/
theorem C18_independent (E : Env) (cfg : Config E) (hin : 0 < E.inSize) (W : World) (u1 u2 : Ush) (e1 e2 : Editor)
    (H1 : Waiting E W u1 e1) (H2 : Waiting E W u2 e2) (line : Str) (ht : ∀ c ∈ line, isText c = true ∧ isErase c = false)
    (hfit : line.length + 1 < E.inSize) (name : Str) (as : List Str) (hw : words line = name :: as) (cs : List Call)
    (hh : ∀ l, HookSays E l (name :: as) cs) (hv : (Talk.start W cCr).ValidRun E cs)
    (T1 : Talk) (rs : List Status) (hT1 : (Talk.start W cCr).run E cs = (T1, rs)) (ok : T1.world.Ok E) (hn : T1.world.Near E name)
    (f : FileDesc) (id : Nat) (hf : T1.world.file? name = some f) (hx : f.exec = some (.user id)) (ds : List Call)
    (hd : ∀ l, Says l (E.userExec id (name :: as)) ds)
    (hv2 : T1.ValidRun E ds) (T2 : Talk) (rs2 : List Status) (hT2 : T1.run E ds = (T2, rs2)) (ok2 : T2.world.Ok E) (inp : List UInt8) :
    ∃ v1 v2 k, Steps E u1 (cEtx :: (line ++ cCr :: inp)) v1 inp ∧ Steps E u2 (cEtx :: (line ++ cCr :: inp)) v2 inp ∧
      Waiting E T2.world v1 {} ∧ Waiting E T2.world v2 {} ∧ v1.log = u1.log ++ k ∧ v2.log = u2.log ++ k := by
  have key : ∀ u e, Waiting E W u e → ∃ v, Steps E u (cEtx :: (line ++ cCr :: inp)) v inp ∧ Waiting E T2.world v {} ∧
      v.log = u.log ++ (.inp cEtx :: outs (b!"^C" ++ crlf ++ W.prompt E) ++ ((Editor.keys E.inSize {} line).2 ++ (.inp cCr :: outs (enterEcho cCr) ++
        (hookEvents E (name :: as) ++ rs.map .ret ++ [.exec (.user id) (name :: as)] ++ rs2.map .ret ++ outs (T2.output ++ T2.world.prompt E))))) := by
    intro u e H
    obtain ⟨v, s1, h1, l1⟩ := C18_ctrl_c E cfg hin W u e H (line ++ cCr :: inp)
    obtain ⟨k1, k2⟩ := keys_wrap E.inSize line [] ht hin
    obtain ⟨w, r2, h2⟩ := h1.keys cfg line (cCr :: inp) k1
    rw [k2] at h2
    have hline : (([] : Str) ++ line).drop (E.inSize * ((([] : Str).length + line.length) / E.inSize)) = line := by
      rw [Nat.div_eq_of_lt (by simp; omega)]; simp
    rw [hline] at h2
    obtain ⟨x, s3, h3, l3⟩ := C26_exec E cfg W w _ h2 rfl cCr (Or.inr rfl) (by omega) name as (by rw [sent_fit hfit]; exact hw) cs (hh _) hv T1 rs hT1 ok hn f id hf hx ds (hd _) hv2 T2 rs2 hT2
      ok2 inp
    exact ⟨x, s1.trans (r2.steps.trans s3), h3, by rw [l3, r2.log, l1]; simp⟩
  obtain ⟨v1, s1, h1, l1⟩ := key u1 e1 H1
  obtain ⟨v2, s2, h2, l2⟩ := key u2 e2 H2
  exact ⟨v1, v2, _, s1, s2, h1, h2, l1, l2⟩

example : ∃ u1 u2 v1 v2 k, Waiting sE sW u1 ⟨b!"echo 1", .none⟩ ∧ Waiting sE sW u2 {} ∧ Steps sE u1 (cEtx :: (b!"run 1" ++ [cCr])) v1 [] ∧
    Steps sE u2 (cEtx :: (b!"run 1" ++ [cCr])) v2 [] ∧ v1.log = u1.log ++ k ∧ v2.log = u2.log ++ k := by
  obtain ⟨u, H⟩ := sTyped b!"echo 1" (by decide) (by decide)
  obtain ⟨u', H'⟩ := sWaiting
  obtain ⟨v1, v2, k, s1, s2, -, -, l1, l2⟩ := C18_independent sE sConfig.1 (by decide) sW u u' _ _ H H' b!"run 1" (by decide) (by decide) b!"run" [b!"1"]
    (by decide) [.printf b!"?"] (fun _ _ _ => rfl) (by decide) _ _ rfl sW_ok.1 (by decide) _ 1 rfl rfl [.printf b!"o", .printf b!"k"] (fun _ _ _ => rfl) (by decide)
    _ _ rfl sW_ok.1 []
  exact ⟨u, u', v1, v2, k, H, H', s1, s2, l1, l2⟩

/-! ## C19 Cursor keys are ignored -/

/-- `ESC [ X` and `ESC O X` at any point of a line change neither the line nor the output. -/
theorem C19_cursor_keys (E : Env) (cfg : Config E) (W : World) (u : Ush) (line : Str) (H : Waiting E W u ⟨line, .none⟩)
    (b x : UInt8) (hb : b = 0x5B ∨ b = 0x4F) (hx : x ≠ cEtx ∧ x ≠ cTab ∧ x ≠ cBs ∧ x ≠ cDel ∧ x ≠ cEsc) (inp : List UInt8) :
    ∃ v, Steps E u (cEsc :: b :: x :: inp) v inp ∧ Waiting E W v ⟨line, .none⟩ ∧ v.log = u.log ++ [.inp cEsc, .inp b, .inp x] := by
  obtain ⟨x1, x2, x3, x4, x5⟩ := hx
  have hk : ∀ cap, Editor.takesAll cap ⟨line, .none⟩ [cEsc, b, x] = true ∧ Editor.keys cap ⟨line, .none⟩ [cEsc, b, x] = (⟨line, .none⟩, [.inp cEsc, .inp b, .inp x]) := by
    intro cap
    have e1 : Editor.key cap ⟨line, .none⟩ cEsc = (⟨line, .esc⟩, []) := rfl
    have e2 : Editor.key cap ⟨line, .esc⟩ b = (⟨line, .bracket⟩, []) := by
      rcases hb with rfl | rfl <;> rfl
    have e3 : Editor.key cap ⟨line, .bracket⟩ x = (⟨line, .none⟩, []) := by
      unfold Editor.key
      rw [if_neg (by simp [isErase, x3, x4]), if_neg x5]
    have t1 : Editor.takes ⟨line, .none⟩ cEsc = true := rfl
    have t2 : Editor.takes ⟨line, .esc⟩ b = true := by
      rcases hb with rfl | rfl <;> rfl
    have t3 : Editor.takes ⟨line, .bracket⟩ x = true := by simp [Editor.takes, isSpecial, x1, x2]
    simp only [Editor.takesAll, Editor.keys, e1, e2, e3, t1, t2, t3]
    exact ⟨rfl, rfl⟩
  obtain ⟨h1, h2⟩ := hk E.inSize
  obtain ⟨v, r, h⟩ := H.keys cfg [cEsc, b, x] inp h1
  rw [h2] at r h
  exact ⟨v, r.steps, h, r.log⟩

example : ∃ u, Waiting sE sW u ⟨b!"ls", .none⟩ ∧ ((0x41 : UInt8) ≠ cEtx ∧ (0x41 : UInt8) ≠ cTab ∧ (0x41 : UInt8) ≠ cBs ∧ (0x41 : UInt8) ≠ cDel ∧ (0x41 : UInt8) ≠ cEsc) := by
  obtain ⟨u, H⟩ := sTyped b!"ls" (by decide) (by decide)
  exact ⟨u, H, by decide⟩

end Ush.Props
