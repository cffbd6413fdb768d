import Verif.Props.Builtin
import Verif.Props.Complete
import Verif.Props.Features
import Verif.Props.Engine
import Verif.Props.Start
import Verif.Spec.Terminal
import Verif.Proof.TabNul
/-!
# The whole terminal (C47)

`Shell E t u`: the shell object `u` waits for a key and represents the terminal `t` (Spec/Terminal.lean): world, line and log.
-/
namespace Ush.Props
open Spec

/-- The shell object `u` waits for a key and represents `t`. -/
structure Shell (E : Env) (t : Term) (u : Ush) : Prop where
  waiting : Waiting E t.world u t.ed
  log : u.log = t.log

section
variable {E : Env} {A : App} {S : Nat → Prop} {W : World} {u : Ush} {e : Editor} {c : UInt8} {T : Talk} {rs : List Status} {name : Str} {as : List Str} {f : FileDesc}

theorem catAll_reads (hA : A.DescribesBut E S) (W : World) : ∀ (as : List Str) (l : List Event), catError W as = none → CatReads E W l as (catAll A W l as) := by
  intro as
  induction as with
  | nil => intro l _; exact trivial
  | cons a as ih =>
    intro l h
    unfold catError at h
    cases hf : W.file? a with
    | none => rw [hf] at h; cases h
    | some g =>
      simp only [hf] at h
      cases hg : g.getData with
      | none => rw [hg] at h; simp at h
      | some id =>
        rw [if_neg (by simp [hg])] at h
        have : catAll A W l (a :: as) = (id, A.get id l) :: catAll A W (l ++ .getData id :: outs (A.get id l)) as := by
          simp [catAll, hf, hg]
        rw [this]
        exact ⟨⟨g, hf, hg⟩, hA.get id l, ih _ h⟩

/-- A built-in command answers as specified. -/
theorem builtin_sim (cfg : Config E) (hA : A.DescribesBut E S) (h : Entered E W u e c (name :: as) T rs) (hf : T.world.file? name = some f) (b : Builtin)
    (hx : f.exec = some (.builtin b)) (ok : builtinOk E A T (atExec E u c (name :: as) rs (.builtin b)) f b as) :
    Replies E u c (name :: as) rs (.exec (.builtin b) (name :: as) :: (builtinAnswer E A T (atExec E u c (name :: as) rs (.builtin b)) b as).1)
      (builtinAnswer E A T (atExec E u c (name :: as) rs (.builtin b)) b as).2 := by
  cases b with
  | pwd =>
    rcases as with _ | ⟨a, as⟩
    · exact C36_pwd E cfg W u e c T rs name f h hf hx
    · exact C36_wrong_arguments E cfg W u e c T rs name f _ (by simp) h hf hx
  | cd =>
    rcases as with _ | ⟨a, _ | ⟨a', as⟩⟩
    · exact C09_cd_wrong_arguments E cfg W u e c T rs name f _ (by simp) h hf hx
    · simp only [builtinAnswer]
      cases hW : T.world.cd a with
      | none => exact C09_cd_missing E cfg W u e c T rs name f a ok h hf hx hW
      | some W' => exact C09_cd E cfg W u e c T rs name f a ok h hf hx W' hW
    · exact C09_cd_wrong_arguments E cfg W u e c T rs name f _ (by simp) h hf hx
  | cat =>
    rcases as with _ | ⟨a, as⟩
    · exact C30_no_arguments E cfg W u e c T rs name f h hf hx
    · obtain ⟨ok, hn⟩ := ok
      simp only [builtinAnswer]
      cases hs : catError T.world (a :: as) with
      | some s => exact C30_error E cfg W u e c T rs name f _ s hs hn h hf hx
      | none => exact C30_cat E cfg W u e c T rs name f _ (by simp) hn h hf hx ok _ (catAll_reads hA _ _ _ hs)
  | xxd =>
    rcases as with _ | ⟨a, _ | ⟨a', as⟩⟩
    · exact C31_wrong_arguments E cfg W u e c T rs name f _ (by simp) h hf hx
    · simp only [builtinAnswer]
      obtain ⟨hn, o1, o5⟩ := ok
      cases hg : T.world.file? a with
      | none => exact C31_missing E cfg W u e c T rs name f a hn h hf hx hg
      | some g =>
        simp only
        cases hgd : g.getData with
        | none => exact C31_unreadable E cfg W u e c T rs name f a hn h hf hx g hg hgd
        | some id =>
          simp only [hg, Option.bind_some, hgd] at o5
          obtain ⟨⟨o2, o3, o4⟩, o5⟩ := o5
          exact C31_xxd E cfg W u e c T rs name f a hn h hf hx o1 g id _ hg hgd (hA.get id _) o5 o4 o2 o3
    · exact C31_wrong_arguments E cfg W u e c T rs name f _ (by simp) h hf hx
  | ls =>
    rcases as with _ | ⟨a, _ | ⟨a', as⟩⟩
    · obtain ⟨o1, o3⟩ := ok
      obtain ⟨m, hm⟩ := Option.ne_none_iff_exists'.mp h.ok.cwd
      simp only [builtinAnswer, hm] at o3 ⊢
      exact C32_ls E cfg W u e c T rs name f h hf hx o1 m hm o3
    · obtain ⟨hr, o1, o3⟩ := ok
      simp only [builtinAnswer]
      cases hm : T.world.dir? a with
      | none => exact C32_missing E cfg W u e c T rs name f a hr h hf hx hm
      | some m =>
        simp only [hm] at o3
        exact C32_ls_path E cfg W u e c T rs name f a hr h hf hx o1 m hm o3
    · exact C32_wrong_arguments E cfg W u e c T rs name f _ (by simp) h hf hx
  | help =>
    rcases as with _ | ⟨a, _ | ⟨a', as⟩⟩
    · exact C33_help E cfg W u e c T rs name f h hf hx ok.1 ok.2
    · simp only [builtinAnswer]
      cases hg : T.world.file? a with
      | none => exact C33_missing E cfg W u e c T rs name f a ok h hf hx hg
      | some g =>
        simp only
        cases hh : g.help with
        | none => exact C33_no_help E cfg W u e c T rs name f a ok h hf hx g hg hh
        | some x => exact C33_help_file E cfg W u e c T rs name f a ok h hf hx g hg x hh
    · exact C33_wrong_arguments E cfg W u e c T rs name f _ (by simp) h hf hx
  | echo =>
    rcases as with _ | ⟨a, _ | ⟨s, _ | ⟨t, _ | ⟨z, as⟩⟩⟩⟩
    · exact C34_nothing E cfg W u e c T rs name f h hf hx
    · exact C34_echo E cfg W u e c T rs name f a h hf hx
    · exact C34_wrong_arguments E cfg W u e c T rs name f _ (by simp) h hf hx
    · simp only [builtinAnswer]
      by_cases hs : s = b!">"
      · subst hs
        rw [if_neg (by simp)]
        obtain ⟨hn, ok⟩ := ok rfl
        cases hg : T.world.file? t with
        | none => exact C35_missing E cfg W u e c T rs name f a t hn h hf hx hg
        | some g =>
          simp only
          cases hd : g.setData with
          | none => exact C35_not_writable E cfg W u e c T rs name f a t hn h hf hx g hg hd
          | some id =>
            simp only [hg, Option.bind_some, hd] at ok
            exact C35_write E cfg W u e c T rs name f a t hn h hf hx g id hg hd _ (hA.set id _ _) ok.1 _ _ rfl ok.2
      · rw [if_pos hs]
        exact C35_syntax E cfg W u e c T rs name f a s t hs h hf hx
    · exact C34_wrong_arguments E cfg W u e c T rs name f _ (by simp) h hf hx

/-- A command line is answered as specified. -/
theorem line_sim (cfg : Config E) (hA : A.DescribesBut E S) (H : Waiting E W u e) (hesc : e.esc = .none) (hen : c = cLf ∨ c = cCr)
    (hin : 2 ≤ E.inSize) (ok : lineOk E A W c (u.log ++ .inp c :: outs (enterEcho c)) (words (sent E.inSize e.line)))
    (hS : lineSpares S E A W c (u.log ++ .inp c :: outs (enterEcho c)) (words (sent E.inSize e.line))) (inp : List UInt8) :
    ∃ v, Steps E u (c :: inp) v inp ∧ Waiting E (lineAnswer E A W c (u.log ++ .inp c :: outs (enterEcho c)) (words (sent E.inSize e.line))).2 v {} ∧
      v.log = u.log ++ (.inp c :: outs (enterEcho c) ++ (lineAnswer E A W c (u.log ++ .inp c :: outs (enterEcho c)) (words (sent E.inSize e.line))).1) := by
  cases hw : words (sent E.inSize e.line) with
  | nil =>
    obtain ⟨v, s, h, l⟩ := C26_empty E cfg W u e H hesc c hen hin hw inp
    exact ⟨v, s, h, by rw [l]; simp [lineAnswer, tells]⟩
  | cons name as =>
    rw [hw] at ok hS
    obtain ⟨o1, o2, hn, o3⟩ := ok
    unfold lineSpares at hS
    have hh := hA.hook (u.log ++ .inp c :: outs (enterEcho c)) (name :: as)
    revert o1 o2 hn o3 hh hS
    generalize hcs : A.hook (u.log ++ .inp c :: outs (enterEcho c)) (name :: as) = cs
    intro hS o1 o2 hn o3 hh
    simp only [lineAnswer, hcs] 
    cases hf : ((Talk.start W c).run E cs).1.world.file? name with
    | none =>
      obtain ⟨v, s, h, l⟩ := C26_unknown E cfg W u e H hesc c hen hin name as hw cs hh o1 o2 hn hf inp
      exact ⟨v, s, h, by rw [l]; simp [errs, tells]⟩
    | some f =>
      simp only [hf] at o3 ⊢
      unfold fileOk at o3
      unfold fileAnswer
      cases hx : f.exec with
      | none =>
        obtain ⟨v, s, h, l⟩ := C26_not_executable E cfg W u e H hesc c hen hin name as hw cs hh o1 o2 hn f hf hx inp
        exact ⟨v, s, h, by rw [l]; simp [errs, tells]⟩
      | some cb =>
        cases cb with
        | user id =>
          simp only [hx] at o3
          obtain ⟨v, s, h, l⟩ := C26_exec E cfg W u e H hesc c hen hin name as hw cs hh o1 _ _ rfl o2 hn f id hf hx _
            (by
              have := hA.exec id (u.log ++ .inp c :: outs (enterEcho c) ++ (hookEvents E (name :: as) ++ ((Talk.start W c).run E cs).2.map .ret) ++ [.exec (.user id) (name :: as)]) (name :: as) (hS f id (by rw [hcs]; exact hf) hx)
              simpa using this) (by simpa using o3.1) _ _ rfl (by simpa using o3.2) inp
          refine ⟨v, s, by simpa using h, by rw [l]; simp [tells]⟩
        | builtin b =>
          simp only [hx] at o3
          have He : Entered E W u e c (name :: as) ((Talk.start W c).run E cs).1 ((Talk.start W c).run E cs).2 :=
            ⟨H, hesc, hen, hin, hw, ⟨cs, hh, o1, rfl⟩, o2, by rintro _ ⟨⟩; exact hn⟩
          have ha : u.log ++ .inp c :: outs (enterEcho c) ++ (hookEvents E (name :: as) ++ ((Talk.start W c).run E cs).2.map .ret) ++ [.exec (.builtin b) (name :: as)] =
              atExec E u c (name :: as) ((Talk.start W c).run E cs).2 (.builtin b) := by simp [atExec]
          simp only [ha] at o3 ⊢
          obtain ⟨v, s, h, l⟩ := builtin_sim cfg hA He hf b hx o3 inp
          exact ⟨v, s, h, by rw [l]; simp⟩

/-- One key. -/
theorem key_sim_but (cfg : Config E) (hin : 0 < E.inSize) (hA : A.DescribesBut E S) {t : Term} (H : Shell E t u) (ok : t.Ok E A c) (hS : t.Spares S E A c)
    (inp : List UInt8) :
    ∃ v, Steps E u (c :: inp) v inp ∧ Shell E (t.key E A c) v := by
  obtain ⟨W, e, l⟩ := t
  obtain ⟨H, hl⟩ := H
  simp only at H hl
  subst hl
  unfold Term.Ok at ok
  unfold Term.key
  by_cases h1 : c = cEtx
  · subst h1
    rw [if_pos rfl]
    obtain ⟨v, s, h, l⟩ := C18_ctrl_c E cfg hin W u e H inp
    exact ⟨v, s, h, l⟩
  · rw [if_neg h1] at ok ⊢
    by_cases h2 : c = cTab
    · subst h2
      rw [if_pos rfl] at ok ⊢
      cases on : E.autocomplete with
      | false =>
        obtain ⟨v, r, h⟩ := tab_off on H inp
        exact ⟨v, r.steps, h, r.log⟩
      | true =>
        obtain ⟨o1, o2⟩ := ok on
        obtain ⟨v, r, h⟩ := tab_press on cfg H inp o1 o2
        exact ⟨v, r.steps, h, r.log⟩
    · rw [if_neg h2] at ok ⊢
      cases h3 : isEnter c && e.esc == .none with
      | true =>
        simp only [h3, if_true] at ok ⊢
        obtain ⟨k1, k2⟩ := (Bool.and_eq_true _ _).mp h3
        have hen : c = cLf ∨ c = cCr := by
          unfold isEnter at k1
          simp at k1
          exact k1.symm
        obtain ⟨v, s, h, l⟩ := line_sim cfg hA H (by simpa using k2) hen ok.1 ok.2 (hS k1 (by simpa using k2)) inp
        exact ⟨v, s, h, l⟩
      | false =>
        simp only [h3, Bool.false_eq_true, if_false] at ok ⊢
        have ht : e.takes c = true := by
          unfold Editor.takes isSpecial
          rw [h3]
          simp [h1, h2]
        obtain ⟨v, r, h⟩ := H.keys cfg [c] inp (by simp [Editor.takesAll, ht])
        refine ⟨v, r.steps, ?_, by rw [r.log]; simp [Editor.keys, Term.add]⟩
        simp only [Editor.keys] at h
        exact h

theorem key_sim (cfg : Config E) (hin : 0 < E.inSize) (hA : A.Describes E) {t : Term} (H : Shell E t u) (ok : t.Ok E A c) (inp : List UInt8) :
    ∃ v, Steps E u (c :: inp) v inp ∧ Shell E (t.key E A c) v := key_sim_but cfg hin hA.all H ok (t.spares_none E A c) inp

/-- One call. -/
theorem call_sim_term (cfg : Config E) (hin : 0 < E.inSize) {t : Term} (H : Shell E t u) (k : Call) (ok : t.CallOk E k) :
    ∃ v w, runApis E u k.apis = .ok v ∧ Steps E v [] w [] ∧ Shell E (t.call E k) w := by
  obtain ⟨W, e, l⟩ := t
  obtain ⟨H, hl⟩ := H
  simp only at H hl
  subst hl
  obtain ⟨o1, o2, o3⟩ := ok
  cases k with
  | fs o =>
    obtain ⟨v, h1, h2, h3⟩ := fsStep_sim H.rep o o2
    have F := fsApi_frame o h1
    refine ⟨v, v, by simp [Call.apis, runApis, h1], Steps.refl _ _ _, ?_, h3⟩
    exact { sized := by rw [F]; exact ⟨H.sized.inLen, H.sized.outLen⟩, rep := h2, ok := o3, shows := by rw [F]; exact ⟨H.shows.state, H.shows.esc, H.shows.pos, H.shows.buf⟩, clean := H.clean }
  | print s =>
    obtain ⟨v, w, h1, h2, h3, h4⟩ := C42_print E cfg hin W u H.toHolds s o2 []
    exact ⟨v, w, by simp [Call.apis, runApis, h1], h2, h3, by rw [h4]; simp [Term.call, tells, Talk.step, Talk.output]⟩
  | printNoNewline s =>
    obtain ⟨v, w, h1, h2, h3, h4⟩ := C42_print_no_newline E cfg hin W u H.toHolds s o2 []
    exact ⟨v, w, by simp [Call.apis, runApis, h1], h2, h3, by rw [h4]; simp [Term.call, tells, Talk.step, Talk.output]⟩
  | printStatus s =>
    obtain ⟨v, w, h1, h2, h3, h4⟩ := C42_print_status E cfg hin W u H.toHolds s []
    exact ⟨v, w, by simp [Call.apis, runApis, h1], h2, h3, by rw [h4]; simp [Term.call, tells, Talk.step, Talk.output]⟩
  | printf s => exact o1.elim
  | flush => exact o1.elim
  | «show» s =>
    obtain ⟨t', ht⟩ := storeStr_zero (b := u.outBuf) (s := s) (by rw [H.sized.outLen]; exact o2.2)
    have H' : Holds E W { u with outBuf := s ++ cNul :: t' } :=
      H.toHolds.same ⟨rfl, rfl, rfl, rfl⟩ ⟨H.sized.inLen, by rw [← H.sized.outLen]; exact storeStr_length ht⟩
    obtain ⟨v, w, h1, h2, h3, h4⟩ := C42_flush E cfg hin W _ H' s t' o2.1 rfl []
    refine ⟨v, w, ?_, h2, h3, by rw [h4]; simp [Term.call, tells, Talk.step, Talk.output]⟩
    simp only [Call.apis, runApis, runApi, ht, M.ok_bind, pure_bind] at h1 ⊢
    rw [h1]; rfl
  | reset =>
    obtain ⟨v, w, h1, h2, h3, h4⟩ := C37_reset E cfg hin W u H.sized H.rep o3 []
    exact ⟨v, w, by simp [Call.apis, runApis, h1], h2, h3, by
      rw [h4]
      have : promptText E [] = World.prompt E { W with cwd := W.tree.find [] } := by
        unfold World.prompt World.path
        cases hm : W.tree.find [] with
        | none => exact absurd hm o2
        | some m =>
          have := List.find?_some hm
          simp at this
          simp [this]
      simp [Term.call, tells, Talk.step, Talk.output, this]⟩

end

/-- Any keys, typed one after the other: the shell does exactly what the specified terminal does. -/
theorem C47_keys (E : Env) (cfg : Config E) (hin : 0 < E.inSize) (A : App) (hA : A.Describes E) (cs : List UInt8) : ∀ (t : Term) (u : Ush),
    Shell E t u → t.OkAll E A cs → ∀ inp, ∃ v, Steps E u (cs ++ inp) v inp ∧ Shell E (t.keys E A cs) v := by
  induction cs with
  | nil => intro t u H _ inp; exact ⟨u, Steps.refl _ _ _, H⟩
  | cons c cs ih =>
    intro t u H ok inp
    obtain ⟨v, s1, H1⟩ := key_sim cfg hin hA H ok.1 (cs ++ inp)
    obtain ⟨w, s2, H2⟩ := ih _ v H1 ok.2 inp
    exact ⟨w, s1.trans s2, H2⟩

/-- ... whatever the timing of the terminal. -/
theorem C47_timing (E : Env) (cfg : Config E) (hin : 0 < E.inSize) (A : App) (hA : A.Describes E) (cs : List UInt8) (t : Term) (u : Ush)
    (H : Shell E t u) (ok : t.OkAll E A cs) (f : Nat → Slot) (hf : Fair f) :
    ∃ v N, Shell E (t.keys E A cs) v ∧ ∀ n ≥ N, driveN E f u cs n = .ok (v, []) := by
  obtain ⟨v, s, H'⟩ := C47_keys E cfg hin A hA cs t u H ok []
  obtain ⟨N, h⟩ := C20_fair E u v cs (by simpa using s) ⟨H'.waiting.shows.state, rfl⟩ H'.waiting.current f hf
  exact ⟨v, N, H', h⟩

/-- ... and at every moment, even if the terminal does not go on: the log is a beginning of the specified one. -/
theorem C47_prefix (E : Env) (cfg : Config E) (hin : 0 < E.inSize) (A : App) (hA : A.Describes E) (cs : List UInt8) (t : Term) (u : Ush)
    (H : Shell E t u) (ok : t.OkAll E A cs) (ss : List Slot) :
    ∃ w r, drive E u cs ss = .ok (w, r) ∧ w.log <+: (t.keys E A cs).log := by
  obtain ⟨v, ⟨n, hn⟩, H'⟩ := C47_keys E cfg hin A hA cs t u H ok []
  rw [List.append_nil] at hn
  have all : ∀ k, ∃ p : Ush × List UInt8, drive E u cs (List.replicate k Slot.full) = .ok p ∧ p.1.log <+: v.log := by
    intro k
    rcases Nat.le_total k n with h | h <;> obtain ⟨d, rfl⟩ := Nat.exists_eq_add_of_le h
    · rw [← List.replicate_append_replicate, drive_append] at hn
      cases e : drive E u cs (List.replicate k Slot.full) with
      | error x => rw [e] at hn; cases hn
      | ok p =>
        rw [e, M.ok_bind] at hn
        exact ⟨p, rfl, drive_log _ hn⟩
    · refine ⟨(v, []), ?_, List.prefix_rfl⟩
      rw [← List.replicate_append_replicate, drive_append, hn, M.ok_bind]
      exact chain_idle E v [] ⟨H'.waiting.shows.state, rfl⟩ H'.waiting.current d
  obtain ⟨⟨w, r⟩, hw⟩ := C20_faults E u cs (fun k => (all k).imp fun p h => h.1) ss
  obtain ⟨k, -, hk⟩ := drive_chain E ss u cs w r hw
  obtain ⟨p, h1, h2⟩ := all k
  unfold chain at hk
  rw [hk] at h1
  cases h1
  exact ⟨w, r, hw, by rw [← H'.log]; exact h2⟩

/-- The life of a shell: `ush_init`, directory operations, keys with any timing. -/
theorem C47_life (E : Env) (hc : CfgOk E) (cfg : Config E) (A : App) (hA : A.Describes E) (inBuf outBuf : List UInt8) (h1 : inBuf.length = E.inSize)
    (h2 : outBuf.length = E.outSize) (os : List FsOp) (hv : (initWorld E).ValidRun E os) (ok : (after E os).Ok E) (cs : List UInt8)
    (hk : (Term.start E os).OkAll E A cs) (f : Nat → Slot) (hf : Fair f) :
    ∃ u v N, run E (blank inBuf outBuf) (steps os) = .ok u ∧ Shell E ((Term.start E os).keys E A cs) v ∧
      ∀ n ≥ N, driveN E f u cs n = .ok (v, []) := by
  obtain ⟨u, v, e, s, H, l⟩ := C38_startup E hc cfg inBuf outBuf h1 h2 os hv ok (cs ++ [])
  obtain ⟨w, s2, H'⟩ := C47_keys E cfg hc.inSize A hA cs (Term.start E os) v ⟨H, l⟩ hk []
  obtain ⟨N, h⟩ := C20_fair E u w cs (by simpa using s.trans s2) ⟨H'.waiting.shows.state, rfl⟩ H'.waiting.current f hf
  exact ⟨u, w, N, e, H', h⟩

/-- Keys and calls of the application at the prompt, in any order. -/
theorem C47_items (E : Env) (cfg : Config E) (hin : 0 < E.inSize) (A : App) (hA : A.Describes E) (is : List Item) : ∀ (t : Term) (u : Ush),
    Shell E t u → t.ItemsOk E A is → ∃ v, plays E u v is ∧ Shell E (t.items E A is) v := by
  induction is with
  | nil => intro t u H _; exact ⟨u, rfl, H⟩
  | cons i is ih =>
    intro t u H ok
    cases i with
    | key c =>
      obtain ⟨v, s1, H1⟩ := key_sim cfg hin hA H ok.1 []
      obtain ⟨w, s2, H2⟩ := ih _ v H1 ok.2
      exact ⟨w, ⟨v, s1, H1.waiting.shows.state, s2⟩, H2⟩
    | call k =>
      obtain ⟨v, x, e, s1, H1⟩ := call_sim_term cfg hin H k ok.1
      obtain ⟨w, s2, H2⟩ := ih _ x H1 ok.2
      exact ⟨w, ⟨v, x, e, s1, H1.waiting.shows.state, s2⟩, H2⟩

/-! ### A session -/

instance (E : Env) (m : Mount) : Decidable (lsFits E m) := by unfold lsFits; infer_instance

instance (E : Env) (W : World) : Decidable (helpFits E W) := by unfold helpFits; infer_instance

instance (E : Env) (d : Str) : Decidable (xxdFits E d) := by unfold xxdFits; infer_instance

instance (E : Env) (A : App) (T : Talk) (l : List Event) (f : FileDesc) (b : Builtin) (as : List Str) : Decidable (builtinOk E A T l f b as) := by
  unfold builtinOk
  split <;> (try split) <;> infer_instance

instance (E : Env) (A : App) (T : Talk) (l : List Event) (f : FileDesc) (name : Str) (as : List Str) : Decidable (fileOk E A T l f name as) := by
  unfold fileOk
  split <;> infer_instance

instance (E : Env) (A : App) (W : World) (c : UInt8) (l : List Event) (argv : List Str) : Decidable (lineOk E A W c l argv) := by
  unfold lineOk
  split
  · infer_instance
  · simp only
    split <;> infer_instance

instance (E : Env) (W : World) (h w : Str) : Decidable (W.TabFits E h w) := by unfold World.TabFits; infer_instance

instance (E : Env) (W : World) (h w : Str) : Decidable (W.TabOk E h w) := by unfold World.TabOk; infer_instance

instance (E : Env) (W : World) (line : Str) : Decidable (W.LineFits E line) := by unfold World.LineFits; infer_instance

instance (E : Env) (W : World) (line : Str) : Decidable (W.LineClean E line) := by unfold World.LineClean; infer_instance

instance (E : Env) (A : App) (t : Term) (c : UInt8) : Decidable (t.Ok E A c) := by
  unfold Term.Ok
  infer_instance

instance decOkAll (E : Env) (A : App) : (cs : List UInt8) → (t : Term) → Decidable (t.OkAll E A cs)
  | [], _ => isTrue trivial
  | c :: cs, t => by unfold Term.OkAll; have := decOkAll E A cs (t.key E A c); infer_instance

instance (E : Env) (t : Term) (c : Call) : Decidable (t.CallOk E c) := by
  unfold Term.CallOk
  cases c <;> infer_instance

instance decItemsOk (E : Env) (A : App) : (is : List Item) → (t : Term) → Decidable (t.ItemsOk E A is)
  | [], _ => isTrue trivial
  | .key c :: is, t => by
    unfold Term.ItemsOk Term.ItemOk; have := decItemsOk E A is (t.item E A (.key c)); infer_instance
  | .call c :: is, t => by
    unfold Term.ItemsOk Term.ItemOk; have := decItemsOk E A is (t.item E A (.call c)); infer_instance

/-- What the terminal shows. -/
def shown (l : List Event) : Str := l.filterMap (fun e => match e with | .out c => some c | _ => none)

/-- The sample shell without colours; the file `data` counts how often it has been read. -/
def pE : Env := { sE1 with
  colorGreen := [], colorYellow := [], colorMagenta := [], styleReset := []
  hook := some (fun _ _ => [])
  userGet := fun id u => some (if id = 7 then [48 + UInt8.ofNat (u.log.count (.getData 7)), cLf] else b!"on")
  userExec := fun _ _ _ => [.print (.str b!"hello")] }

def pA : App where
  exec := fun _ _ _ => [.print b!"hello"]
  get := fun id l => if id = 7 then [48 + UInt8.ofNat (l.count (.getData 7)), cLf] else b!"on"
  set := fun id _ _ => if id = 8 then [.print b!"set"] else []

theorem pDescribes : pA.Describes pE where
  hook := fun _ _ _ _ => rfl
  exec := fun _ _ _ _ _ => rfl
  get := fun id l u h => by simp [pE, pA, h]
  set := fun id l d u _ => by
    show (if id = 8 then [Api.print (.str b!"set")] else []) = _
    unfold pA
    simp only
    split <;> rfl

theorem pCfg : CfgOk pE := ⟨by decide, by decide, by decide, by decide, by decide⟩

theorem pConfig : Config pE :=
  ⟨by decide, ⟨by decide, by decide, by decide, by decide, by decide, statusString_nul _ (by decide)⟩⟩

/-- Two reads of `data`, a directory change with TAB, an erased character, a write to `led`, a wrong command, Ctrl+C. -/
def pKeys : List UInt8 := b!"cat data data\rcd de\t\rpwx" ++ [cBs] ++ b!"d\recho 1 > led\rfoo\rls" ++ [cEtx]

theorem pOk : (initWorld pE).ValidRun pE sHist ∧ (after pE sHist).Ok pE ∧ (Term.start pE sHist).OkAll pE pA pKeys :=
  ⟨by decide, by decide, by decide +kernel⟩

theorem pShown : shown ((Term.start pE sHist).keys pE pA pKeys).log = welcome ++ b!"[h /]$ cat data data\r\n0\n1\n[h /]$ cd dev\r\n" ++
    b!"[h dev]$ pwx\x08 \x08d\r\n/dev\r\n[h dev]$ echo 1 > led\r\nset\r\n[h dev]$ foo\r\nerror: syntax error\r\n[h dev]$ ls^C\r\n[h dev]$ " := by
  decide +kernel

/-- With input in even and output in odd calls. -/
example : ∃ u v N, run pE (blank (List.replicate 32 1) (List.replicate 64 2)) (steps sHist) = .ok u ∧
    Shell pE ((Term.start pE sHist).keys pE pA pKeys) v ∧
    ∀ n ≥ N, driveN pE (fun n => if n % 2 = 0 then ⟨true, false⟩ else ⟨false, true⟩) u pKeys n = .ok (v, []) :=
  C47_life pE pCfg pConfig pA pDescribes _ _ rfl rfl sHist pOk.1 pOk.2.1 pKeys pOk.2.2 _ ⟨fun n => ⟨2 * n, by omega, by simp⟩, fun n => ⟨2 * n + 1, by omega, by
    simp [show (2 * n + 1) % 2 = 1 by omega]⟩⟩

/-- The application mounts a directory, which is used at once, and prints a line; the typed text is lost by the latter only. -/
def pItems : List Item := (b!"ls n").map .key ++ [.call (.fs (.mount [b!"new"] 5 []))] ++ (b!"e\t\r").map .key ++ [.call (.print b!"tick"), .key cCr, .call .reset]

example : (Term.start pE sHist).ItemsOk pE pA pItems ∧
    shown ((Term.start pE sHist).items pE pA pItems).log = welcome ++ b!"[h /]$ ls new\r\nd---- .\r\nd---- ..\r\n[h /]$ tick\r\n[h /]$ \r\n[h /]$ " ++
      welcome ++ b!"[h /]$ " := by
  constructor <;> decide +kernel

/-- The shell of these examples when it has started. -/
theorem pShell : ∃ u, Shell pE (Term.start pE sHist) u := by
  obtain ⟨-, v, -, -, H, l⟩ := C38_startup pE pCfg pConfig (List.replicate 32 1) (List.replicate 64 2) rfl rfl sHist pOk.1 pOk.2.1 []
  exact ⟨v, H, l⟩

example : ∃ u v N, Shell pE (Term.start pE sHist) u ∧ Shell pE ((Term.start pE sHist).keys pE pA pKeys) v ∧
    ∀ n ≥ N, driveN pE (fun n => if n % 2 = 0 then ⟨true, false⟩ else ⟨false, true⟩) u pKeys n = .ok (v, []) := by
  obtain ⟨u, H⟩ := pShell
  obtain ⟨v, N, h⟩ := C47_timing pE pConfig (by decide) pA pDescribes pKeys _ u H pOk.2.2 (fun n => if n % 2 = 0 then ⟨true, false⟩ else ⟨false, true⟩)
    ⟨fun n => ⟨2 * n, by omega, by simp⟩, fun n => ⟨2 * n + 1, by omega, by simp [show (2 * n + 1) % 2 = 1 by omega]⟩⟩
  exact ⟨u, v, N, H, h⟩

example : ∃ u w r, Shell pE (Term.start pE sHist) u ∧ drive pE u pKeys (List.replicate 300 ⟨true, true⟩) = .ok (w, r) ∧
    w.log <+: ((Term.start pE sHist).keys pE pA pKeys).log := by
  obtain ⟨u, H⟩ := pShell
  obtain ⟨w, r, h⟩ := C47_prefix pE pConfig (by decide) pA pDescribes pKeys _ u H pOk.2.2 (List.replicate 300 ⟨true, true⟩)
  exact ⟨u, w, r, H, h⟩

example : ∃ u v, Shell pE (Term.start pE sHist) u ∧ plays pE u v pItems ∧ Shell pE ((Term.start pE sHist).items pE pA pItems) v := by
  obtain ⟨u, H⟩ := pShell
  obtain ⟨v, h⟩ := C47_items pE pConfig (by decide) pA pDescribes pItems _ u H (by decide +kernel)
  exact ⟨u, v, H, h⟩

end Ush.Props
