import Verif.Proof.Reply
import Verif.Spec.Builtin
import Verif.Proof.PathFns
/-!
# The built-in commands without a process: pwd, cd, echo and `help <file>`
-/
namespace Ush
open Spec

variable {E : Env} {T : Talk} {w v : Ush} {f : FileDesc} {cb : Cb} {argv : List Str} {l0 : List Event}

theorem Called.sizedE (C : Called E T w v f cb argv l0) : Sized E (v.emit (.exec cb argv)) := ⟨C.sized.inLen, C.sized.outLen⟩

theorem Called.argsE (C : Called E T w v f cb argv l0) : Args (v.emit (.exec cb argv)) argv := C.args.same rfl rfl

theorem Called.argsLen (_ : Called E T w v f cb argv l0) : (offs 0 argv).length = argv.length := offs_length argv 0

theorem sameFs_emit (u : Ush) (e : Event) : SameFs u (u.emit e) := ⟨rfl, rfl, rfl, rfl⟩

/-- A built-in that prints a status. -/
theorem Called.err (cfg : Config E) (C : Called E T w v f cb argv l0) (s : Status) (i : List UInt8)
    (h : callExec E v f cb (offs 0 argv) argv = printStatus E (v.emit (.exec cb argv)) s) :
    Done E T.world w i (l0 ++ .exec cb argv :: outs (statusString E.tr s ++ crlf ++ T.world.prompt E)) :=
  C.status cfg s i (sameFs_emit _ _) C.sizedE rfl h

/-! ## pwd -/

theorem serves_pwd_bad (cfg : Config E) (L : List Event) (h : argv.length ≠ 1) :
    Serves E T f (.builtin .pwd) argv L (outs (statusString E.tr .cmdWrongArguments ++ crlf ++ T.world.prompt E)) T.world := by
  intro w v l0 i C _
  refine C.err cfg _ i ?_
  unfold callExec pwdCallback
  simp only
  rw [if_pos (by rw [C.argsLen]; exact h)]

theorem serves_pwd (cfg : Config E) (L : List Event) (n : Str) :
    Serves E T f (.builtin .pwd) [n] L (outs (render T.world.path ++ crlf ++ T.world.prompt E)) T.world := by
  intro w v l0 i C _
  obtain ⟨m, -, h1, h2, h3, h4, -⟩ := C.holds.cwd
  refine C.sayLn cfg i (p := .str (render T.world.path)) (sameFs_emit v (.exec (.builtin .pwd) [n])) C.sizedE rfl (by simp)
    (ptrStr_str _ _ (by rw [h1]; exact render_nul _ (fun c hc => (h4 c hc).2.2))) (Readable.str _ _) ?_
  unfold callExec pwdCallback
  simp only
  rw [if_neg (by simp [offs]), h2]
  simp only
  rw [h3, h1]
  rfl

/-! ## cd -/

theorem serves_cd_bad (cfg : Config E) (L : List Event) (h : argv.length ≠ 2) :
    Serves E T f (.builtin .cd) argv L (outs (statusString E.tr .cmdWrongArguments ++ crlf ++ T.world.prompt E)) T.world := by
  intro w v l0 i C _
  refine C.err cfg _ i ?_
  unfold callExec cdCallback
  simp only
  rw [if_pos (by rw [C.argsLen]; exact h)]

theorem cdCallback_eq (C : Called E T w v f cb argv l0) {n a : Str} (ha : argv = [n, a]) (hl : a ≠ [] → T.world.Room E a) {u : Ush} (hu : u = v.emit (.exec cb argv)) :
    cdCallback E u (offs 0 argv) = (match T.world.cd a, T.world.dir? a with
      | some _, some m => .ok { u with current := some m.id }
      | _, _ => printStatus E u .nodeNotFound) := by
  have H : Holds E T.world u := hu ▸ C.holds
  have A : Args u argv := hu ▸ C.argsE
  have hn := C.args.nul a (by rw [ha]; simp)
  obtain ⟨o, g1, g2, -⟩ := A.at (i := 1) (w := a) (by rw [ha]; rfl)
  unfold cdCallback World.cd
  rw [if_neg (by rw [C.argsLen, ha]; simp), g1]
  simp only [M.ok_bind]
  rw [g2]
  simp only [M.ok_bind]
  unfold setCurrentDir
  by_cases h0 : a = []
  · rw [if_pos h0, if_pos h0]
    rfl
  · rw [if_neg h0, if_neg h0, (H.abs hn (hl h0)).1]
    simp only [M.ok_bind]
    rw [H.dir hn (hl h0)]
    cases h : T.world.dir? a with
    | none => rfl
    | some m => rfl

theorem serves_cd_fail (cfg : Config E) (L : List Event) (n a : Str) (hl : a ≠ [] → T.world.Room E a) (h : T.world.cd a = none) :
    Serves E T f (.builtin .cd) [n, a] L (outs (statusString E.tr .nodeNotFound ++ crlf ++ T.world.prompt E)) T.world := by
  intro w v l0 i C _
  refine C.err cfg _ i ?_
  have := cdCallback_eq C rfl hl rfl
  rw [h] at this
  exact this

theorem Talks.cwd {u : Ush} (H : Talks E T u) {m : Mount} (hm : m ∈ T.world.tree) :
    Talks E { T with world := { T.world with cwd := some m } } { u with current := some m.id } :=
  { sized := ⟨H.sized.inLen, H.sized.outLen⟩, nul := H.nul, buf := H.buf, pend := H.pend, rep := H.rep.move rfl rfl rfl (fun m' h' => by cases h'; exact ⟨hm, rfl⟩) }

theorem dirs_moved {W : World} {m x : Mount} (hm : m ∈ W.tree) (h : x ∈ World.dirs { W with cwd := some m }) : x ∈ W.tree := by
  rcases mem_dirs.mp h with h | h
  · exact h
  · cases h; exact hm

theorem Spec.World.Ok.cd {W : World} (h : W.Ok E) {m : Mount} (hm : m ∈ W.tree) : World.Ok E { W with cwd := some m } :=
  ⟨by simp, h.names, fun x hx => h.treeTexts x (mem_dirs_of_tree (dirs_moved hm hx)), h.cmdTexts⟩

theorem findText_mem {t : Tree} {q : Str} {m : Mount} (h : t.findText q = some m) : m ∈ t := List.mem_of_find?_eq_some h

theorem serves_cd (cfg : Config E) (L : List Event) (n a : Str) (hl : a ≠ [] → T.world.Room E a) (W' : World) (h : T.world.cd a = some W') :
    Serves E T f (.builtin .cd) [n, a] L (outs (T.output ++ W'.prompt E)) W' := by
  intro w v l0 i C _
  have e := cdCallback_eq C rfl hl rfl
  rw [h] at e
  unfold World.cd at h
  split at h
  · cases h
  · cases hm : T.world.dir? a with
    | none => rw [hm] at h; cases h
    | some m =>
      rw [hm] at h e
      cases h
      refine C.goOn i (v' := { v.emit (.exec (.builtin .cd) [n, a]) with current := some m.id }) rfl e ?_
      exact talks_done cfg ((C.talks.emit _).cwd (findText_mem hm)) (C.ok.cd (findText_mem hm)) C.inSize i

/-! ## echo -/

theorem nul_takeWhile (s : Str) : cNul ∉ s.takeWhile (· ≠ cNul) := by
  intro h
  have := List.mem_takeWhile_imp h
  simp at this

theorem takeWhile_split (s r : Str) : ∃ t, s ++ cNul :: r = s.takeWhile (· ≠ cNul) ++ cNul :: t := by
  induction s with
  | nil => exact ⟨r, rfl⟩
  | cons c s ih =>
    by_cases h : c = cNul
    · exact ⟨s ++ cNul :: r, by simp [h]⟩
    · obtain ⟨t, ht⟩ := ih
      exact ⟨t, by simp only [List.cons_append, List.takeWhile_cons]; rw [if_pos (by simpa using h), List.cons_append, ht]⟩

theorem cstrAt_split (buf : List UInt8) (o : Nat) (s rest : Str) (h : buf.drop o = s ++ cNul :: rest) (hs : cNul ∉ s) :
    cstrAt buf o = .ok s := by
  have hb : buf = buf.take o ++ (s ++ cNul :: rest) := by rw [← h, List.take_append_drop]
  have ho : (buf.take o).length = o := by
    have : o ≤ buf.length := by
      by_contra hc
      rw [List.drop_eq_nil_of_le (by omega)] at h
      simp at h
    simp [this]
  have := cstrAt_append (buf.take o) s rest hs
  rw [ho, ← hb] at this
  exact this

theorem echoDecode_eq {u : Ush} (A : Args u argv) {a : Str} (ha : argv[1]? = some a) :
    ∃ o buf rest, echoDecode u (offs 0 argv) = .ok ({ u with inBuf := buf }, o, (decodeSpec a).length) ∧ buf.length = u.inBuf.length ∧
      buf.drop o = decodeSpec a ++ (a.drop (decodeSpec a).length ++ cNul :: rest) := by
  obtain ⟨o, g1, g2, rest, g3⟩ := A.at (i := 1) (w := a) ha
  have hn : cNul ∉ a := A.nul a (List.mem_of_getElem? ha)
  have ho : (u.inBuf.take o).length = o := by
    have : o ≤ u.inBuf.length := by
      by_contra hc
      rw [List.drop_eq_nil_of_le (by omega)] at g3
      simp at g3
    simp [this]
  have hb : u.inBuf = u.inBuf.take o ++ (a ++ cNul :: rest) := by rw [← g3, List.take_append_drop]
  have hlen : strlenAt u.inBuf o = .ok a.length := by unfold strlenAt; rw [g2]; rfl
  have hdec := decodeInPlace_eq (u.inBuf.take o) a rest a.length hn
  rw [ho, ← hb] at hdec
  have hle := decodeSpec_length a
  rw [List.take_of_length_le hle] at hdec
  refine ⟨o, u.inBuf.take o ++ (decodeSpec a ++ (a ++ cNul :: rest).drop (decodeSpec a).length), rest, ?_, ?_, ?_⟩
  · unfold echoDecode
    rw [g1]
    simp only [M.ok_bind]
    rw [hlen]
    simp only [M.ok_bind]
    rw [hdec]
    rfl
  · have : u.inBuf.length = o + (a.length + (rest.length + 1)) := by
      have := congrArg List.length hb
      rw [List.length_append, ho] at this
      simpa using this
    rw [List.length_append, ho]
    simp; omega
  · rw [List.drop_append_of_le_length (by omega), List.drop_of_length_le (by omega), List.nil_append,
      List.drop_append_of_le_length hle]

theorem serves_echo_bad (cfg : Config E) (L : List Event) (h : argv.length ≠ 1 ∧ argv.length ≠ 2 ∧ argv.length ≠ 4) :
    Serves E T f (.builtin .echo) argv L (outs (statusString E.tr .cmdWrongArguments ++ crlf ++ T.world.prompt E)) T.world := by
  intro w v l0 i C _
  refine C.err cfg _ i ?_
  unfold callExec echoCallback
  simp only
  rw [C.argsLen]
  split
  · omega
  · omega
  · omega
  · rfl

theorem serves_echo_nothing (cfg : Config E) (L : List Event) (n : Str) :
    Serves E T f (.builtin .echo) [n] L (outs (crlf ++ T.world.prompt E)) T.world := by
  intro w v l0 i C _
  refine C.goOn i (v' := { v.emit (.exec (.builtin .echo) [n]) with state := .reset }) rfl rfl ?_
  exact done_reset cfg (u := { v.emit (.exec (.builtin .echo) [n]) with state := .reset }) (C.holds.same ⟨rfl, rfl, rfl, rfl⟩ ⟨C.sized.inLen, C.sized.outLen⟩) C.inSize i rfl

theorem serves_echo (cfg : Config E) (L : List Event) (n a : Str) :
    Serves E T f (.builtin .echo) [n, a] L (outs (echoPrints a ++ crlf ++ T.world.prompt E)) T.world := by
  intro w v l0 i C _
  obtain ⟨o, buf, rest, h1, h2, h3⟩ := echoDecode_eq C.argsE (a := a) rfl
  rw [← List.append_assoc] at h3
  obtain ⟨t, ht⟩ := takeWhile_split (decodeSpec a ++ a.drop (decodeSpec a).length) rest
  rw [ht] at h3
  have hc : cstrAt buf o = .ok (echoPrints a) := cstrAt_split buf o _ _ h3 (by unfold echoPrints; exact nul_takeWhile _)
  refine C.sayLn cfg i (v' := { v.emit (.exec (.builtin .echo) [n, a]) with inBuf := buf }) (p := .inBuf o) ⟨rfl, rfl, rfl, rfl⟩
    ⟨h2.trans C.sized.inLen, C.sized.outLen⟩ rfl (by simp) hc (Readable.inb _ o _ _ h3) ?_
  unfold callExec echoCallback
  simp only [offs, List.length_cons, List.length_nil]
  have h1' := h1
  simp only [offs] at h1'
  rw [h1']
  rfl

/-! ## echo to a file -/

theorem echo4_eq (C : Called E T w v f cb argv l0) {n a s t : Str} (ha : argv = [n, a, s, t]) (hl : s = b!">" → T.world.Near E t) {u : Ush} (hu : u = v.emit (.exec cb argv)) :
    echoCallback E u (offs 0 argv) = (if s ≠ b!">" then printStatus E u .cmdWrongArguments else
      match T.world.file? t with
      | none => printStatus E u .fileNotFound
      | some g =>
        match g.setData with
        | none => printStatus E u .fileNotWritable
        | some id => do
          let (u, o, size) ← echoDecode u (offs 0 argv)
          callSet E u id ((u.inBuf.drop o).take size)) := by
  have H : Holds E T.world u := hu ▸ C.holds
  have A : Args u argv := hu ▸ C.argsE
  have hn := C.args.nul t (by rw [ha]; simp)
  obtain ⟨o2, g1, g2, -⟩ := A.at (i := 2) (w := s) (by rw [ha]; rfl)
  obtain ⟨o3, g3, g4, -⟩ := A.at (i := 3) (w := t) (by rw [ha]; rfl)
  have h4 : (offs 0 argv).length = 4 := by rw [C.argsLen, ha]; rfl
  unfold echoCallback
  rw [h4]
  simp only
  rw [g1]
  simp only [M.ok_bind]
  rw [g2]
  simp only [M.ok_bind]
  by_cases hs : s ≠ b!">"
  · rw [if_pos hs, if_pos hs]
  · rw [if_neg hs, if_neg hs, g3]
    simp only [M.ok_bind]
    rw [g4]
    simp only [M.ok_bind]
    rw [H.find hn (hl (not_not.mp hs))]
    simp only [M.ok_bind]
    cases T.world.file? t with
    | none => rfl
    | some g => cases hg : g.setData <;> simp only [hg]

theorem serves_echo_syntax (cfg : Config E) (L : List Event) (n a s t : Str) (h : s ≠ b!">") :
    Serves E T f (.builtin .echo) [n, a, s, t] L (outs (statusString E.tr .cmdWrongArguments ++ crlf ++ T.world.prompt E)) T.world := by
  intro w v l0 i C _
  refine C.err cfg _ i ?_
  have := echo4_eq C rfl (fun e => absurd e h) rfl
  rw [if_pos h] at this
  exact this

theorem serves_echo_missing (cfg : Config E) (L : List Event) (n a t : Str) (hl : T.world.Near E t) (h : T.world.file? t = none) :
    Serves E T f (.builtin .echo) [n, a, b!">", t] L (outs (statusString E.tr .fileNotFound ++ crlf ++ T.world.prompt E)) T.world := by
  intro w v l0 i C _
  refine C.err cfg _ i ?_
  have := echo4_eq C rfl (fun _ => hl) rfl
  rw [if_neg (by simp), h] at this
  exact this

theorem serves_echo_readonly (cfg : Config E) (L : List Event) (n a t : Str) (hl : T.world.Near E t) {g : FileDesc} (h : T.world.file? t = some g) (hg : g.setData = none) :
    Serves E T f (.builtin .echo) [n, a, b!">", t] L (outs (statusString E.tr .fileNotWritable ++ crlf ++ T.world.prompt E)) T.world := by
  intro w v l0 i C _
  refine C.err cfg _ i ?_
  have := echo4_eq C rfl (fun _ => hl) rfl
  rw [if_neg (by simp), h] at this
  simp only [hg] at this
  exact this

theorem Talks.inBuf {u : Ush} (H : Talks E T u) {b : List UInt8} (h : b.length = u.inBuf.length) : Talks E T { u with inBuf := b } :=
  { sized := ⟨h.trans H.sized.inLen, H.sized.outLen⟩, rep := H.rep.same ⟨rfl, rfl, rfl, rfl⟩, nul := H.nul, buf := H.buf, pend := H.pend }

theorem serves_echo_write (cfg : Config E) (L : List Event) (n a t : Str) (hl : T.world.Near E t) {g : FileDesc} {id : Nat} (h : T.world.file? t = some g)
    (hg : g.setData = some id) {cs : List Call} (hs : Says L (E.userSet id (decodeSpec a)) cs)
    (hv : T.ValidRun E cs) (ok : (T.run E cs).1.world.Ok E) :
    Serves E T f (.builtin .echo) [n, a, b!">", t] L (.setData id (decodeSpec a) :: (T.run E cs).2.map .ret ++
      outs ((T.run E cs).1.output ++ (T.run E cs).1.world.prompt E)) (T.run E cs).1.world := by
  intro w v l0 i C hL
  have e := echo4_eq C rfl (fun _ => hl) rfl
  rw [if_neg (by simp), h] at e
  simp only [hg] at e
  obtain ⟨o, buf, rest, h1, h2, h3⟩ := echoDecode_eq C.argsE (a := a) rfl
  rw [h1] at e
  simp only [M.ok_bind] at e
  rw [h3, List.take_left' rfl] at e
  unfold callSet at e
  rw [hs _ hL] at e
  have Tk := ((C.talks.emit (.exec (.builtin .echo) [n, a, b!">", t])).inBuf (b := buf) h2).emit (.setData id (decodeSpec a))
  have := done_calls cfg i C.inSize C.s1 C.s2 C.s3 Tk (l := l0 ++ [.exec (.builtin .echo) [n, a, b!">", t], .setData id (decodeSpec a)])
    (by simp [Ush.emit, C.log]) (by rw [C.step]; exact e) hv ok
  simpa using this

/-! ## help <file> -/

theorem help2_eq (C : Called E T w v f cb argv l0) {n a : Str} (ha : argv = [n, a]) (hl : T.world.Near E a) {u : Ush} (hu : u = v.emit (.exec cb argv)) :
    helpCallback E u f (offs 0 argv) = (match T.world.file? a with
      | none => printStatus E u .fileNotFound
      | some g =>
        match g.help with
        | none => printStatus E u .fileNoHelp
        | some h => ushPrintNoNewline u (.str h)) := by
  have H : Holds E T.world u := hu ▸ C.holds
  have A : Args u argv := hu ▸ C.argsE
  have hn := C.args.nul a (by rw [ha]; simp)
  obtain ⟨o, g1, g2, -⟩ := A.at (i := 1) (w := a) (by rw [ha]; rfl)
  have h2 : (offs 0 argv).length = 2 := by rw [C.argsLen, ha]; rfl
  unfold helpCallback
  rw [h2]
  simp only
  rw [g1]
  simp only [M.ok_bind]
  rw [g2]
  simp only [M.ok_bind]
  rw [H.find hn hl]
  simp only [M.ok_bind]
  cases T.world.file? a with
  | none => rfl
  | some g => cases hg : g.help <;> simp only [hg]

theorem serves_help_bad (cfg : Config E) (L : List Event) (h : argv.length ≠ 1 ∧ argv.length ≠ 2) :
    Serves E T f (.builtin .help) argv L (outs (statusString E.tr .cmdWrongArguments ++ crlf ++ T.world.prompt E)) T.world := by
  intro w v l0 i C _
  refine C.err cfg _ i ?_
  unfold callExec helpCallback
  simp only
  rw [C.argsLen]
  split
  · omega
  · omega
  · rfl

theorem serves_help_missing (cfg : Config E) (L : List Event) (n a : Str) (hl : T.world.Near E a) (h : T.world.file? a = none) :
    Serves E T f (.builtin .help) [n, a] L (outs (statusString E.tr .fileNotFound ++ crlf ++ T.world.prompt E)) T.world := by
  intro w v l0 i C _
  refine C.err cfg _ i ?_
  have := help2_eq C rfl hl rfl
  rw [h] at this
  exact this

theorem serves_help_none (cfg : Config E) (L : List Event) (n a : Str) (hl : T.world.Near E a) {g : FileDesc} (h : T.world.file? a = some g) (hg : g.help = none) :
    Serves E T f (.builtin .help) [n, a] L (outs (statusString E.tr .fileNoHelp ++ crlf ++ T.world.prompt E)) T.world := by
  intro w v l0 i C _
  refine C.err cfg _ i ?_
  have := help2_eq C rfl hl rfl
  rw [h] at this
  simp only [hg] at this
  exact this

theorem file?_good {W : World} (ok : W.Ok E) {a : Str} {g : FileDesc} (h : W.file? a = some g) : GoodFile g := by
  unfold World.file? at h
  cases h1 : W.groups.files.find? (fun f => f.name == a) with
  | some g' =>
    rw [h1] at h
    simp only [Option.some_or, Option.some.injEq] at h
    subst h
    have := List.mem_of_find?_eq_some h1
    unfold Groups.files at this
    obtain ⟨c, hc, hm⟩ := List.mem_flatMap.mp this
    exact ok.cmdTexts c hc _ hm
  | none =>
    rw [h1] at h
    simp only [Option.none_or] at h
    unfold Tree.findFile at h
    obtain ⟨m, hm, hx⟩ := List.exists_of_findSome?_eq_some h
    exact ok.treeTexts m (mem_dirs_of_tree hm) _ (List.mem_of_find?_eq_some hx)

theorem serves_help_file (cfg : Config E) (L : List Event) (n a : Str) (hl : T.world.Near E a) {g : FileDesc} {x : Str} (h : T.world.file? a = some g) (hg : g.help = some x) :
    Serves E T f (.builtin .help) [n, a] L (outs (x ++ T.world.prompt E)) T.world := by
  intro w v l0 i C _
  refine C.say cfg i (p := .str x) (sameFs_emit v (.exec (.builtin .help) [n, a])) C.sizedE rfl (by simp)
    (ptrStr_str _ _ ((file?_good C.ok h).help x hg)) (Readable.str _ _) ?_
  have := help2_eq C rfl hl rfl
  rw [h] at this
  simp only [hg] at this
  exact this

end Ush
