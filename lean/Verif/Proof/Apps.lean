import Verif.Spec.Apps
import Verif.Proof.Tame
import Verif.Proof.Rows
import Verif.Props.Press
/-! # Any application: lemmas -/
namespace Ush
open Spec Props

section
variable {E : Env} {A : App} {W : World}

theorem Moved_files {V : World} (h : W.Moved V) {f : FileDesc} (hf : f ∈ V.files) : f ∈ W.files := by
  unfold World.files at hf ⊢
  rw [h.2.1] at hf
  rcases List.mem_append.mp hf with hf | hf
  · exact List.mem_append_left _ hf
  · obtain ⟨m, hm, hf⟩ := List.mem_flatMap.mp hf
    exact List.mem_append_right _ (List.mem_flatMap.mpr ⟨m, Moved_dirs h hm, hf⟩)

theorem Sound.moved (h : W.Sound E) {m : Mount} (hm : m ∈ W.tree) : World.Sound E { W with cwd := some m } :=
  have k : W.Moved { W with cwd := some m } := ⟨rfl, rfl, m, mem_dirs_of_tree hm, rfl⟩
  ⟨Moved_ok k h.ok, fun f hf => h.proper f (Moved_files k hf)⟩

theorem xxdShows {W : World} {l : List Event} {a : Str} (hg : ∀ id l, (A.get id l).length ≤ 16 ^ 8) (h : builtinShows E A W l .xxd [a]) :
    match (W.file? a).bind (·.getData) with
    | some id => xxdFits E (A.get id l) ∧ (A.get id l).length ≤ 16 ^ 8
    | none => True := by
  split
  · next id hid => exact ⟨h id hid, hg _ _⟩
  · trivial

theorem Sound.self (h : W.Sound E) : W.Moved W := by
  have := h.ok.cwd
  cases hc : W.cwd with
  | none => rw [hc] at this; simp at this
  | some m => exact ⟨rfl, rfl, m, mem_dirs.mpr (.inr hc), hc⟩

theorem civil_builtin (hg : ∀ id l, (A.get id l).length ≤ 16 ^ 8) {T : Talk} (h : T.world.Sound E) {l : List Event} {f : FileDesc} {name : Str}
    {b : Builtin} {as : List Str} (hf : f ∈ T.world.files) (hx : f.exec = some (.builtin b)) (near : T.world.ArgsNear E b as)
    (shows : builtinShows E A T.world (l ++ [.exec (.builtin b) (name :: as)]) b as) (hc : fileCivil E A T l f (name :: as)) :
    builtinOk E A T (l ++ [.exec (.builtin b) (name :: as)]) f b as ∧ (builtinAnswer E A T (l ++ [.exec (.builtin b) (name :: as)]) b as).2.Sound E := by
  have mv := Sound.self h
  have hp := proper_process (h.proper f hf) hx
  obtain ⟨-, -, m, hm, h3⟩ := id mv
  unfold fileCivil at hc
  rw [hx] at hc
  cases b with
  | pwd => rcases as with _ | ⟨a, as⟩ <;> exact ⟨trivial, h⟩
  | cd =>
    rcases as with _ | ⟨a, _ | ⟨a', as⟩⟩
    · exact ⟨trivial, h⟩
    · refine ⟨near, ?_⟩
      simp only [builtinAnswer]
      split
      · rename_i V' hV
        unfold World.cd at hV
        split at hV
        · cases hV
        · obtain ⟨m', hm', rfl⟩ := Option.map_eq_some_iff.mp hV
          exact Sound.moved h (findText_mem hm')
      · exact h
    · exact ⟨trivial, h⟩
  | cat =>
    refine ⟨⟨hp (by simp), near⟩, ?_⟩
    rcases as with _ | ⟨a, as⟩
    · exact h
    · simp only [builtinAnswer]
      split <;> exact h
  | xxd =>
    rcases as with _ | ⟨a, _ | ⟨a', as⟩⟩
    · exact ⟨trivial, h⟩
    · refine ⟨⟨near, hp (by simp), ?_⟩, ?_⟩
      · exact xxdShows hg shows
      · simp only [builtinAnswer]
        split
        · exact h
        · split <;> exact h
    · exact ⟨trivial, h⟩
  | ls =>
    rcases as with _ | ⟨a, _ | ⟨a', as⟩⟩
    · refine ⟨⟨hp (by simp), ?_⟩, ?_⟩
      · show (match T.world.cwd with | some m => _ | none => _)
        rw [h3]
        exact shows m h3
      · simp only [builtinAnswer]
        split <;> exact h
    · refine ⟨⟨near, hp (by simp), ?_⟩, ?_⟩
      · split
        · rename_i m' hm'
          exact shows m' hm'
        · trivial
      · simp only [builtinAnswer]
        split <;> exact h
    · exact ⟨trivial, h⟩
  | help =>
    rcases as with _ | ⟨a, _ | ⟨a', as⟩⟩
    · exact ⟨⟨hp (by simp), shows⟩, h⟩
    · refine ⟨near, ?_⟩
      simp only [builtinAnswer]
      split
      · exact h
      · split <;> exact h
    · exact ⟨trivial, h⟩
  | echo =>
    rcases as with _ | ⟨a, _ | ⟨s, _ | ⟨t, _ | ⟨z, as⟩⟩⟩⟩
    · exact ⟨trivial, h⟩
    · exact ⟨trivial, h⟩
    · exact ⟨trivial, h⟩
    · simp only at hc
      refine ⟨fun hs => ⟨near hs, ?_⟩, ?_⟩
      · split
        · rename_i id hid
          obtain ⟨k1, k2⟩ := hc hs id hid
          exact ⟨k1, k2.ok⟩
        · trivial
      · simp only [builtinAnswer]
        split
        · exact h
        · next hs =>
          split
          · exact h
          · next g hg =>
            split
            · exact h
            · next id hid => exact (hc (Classical.byContradiction hs) id (by rw [hg]; exact hid)).2
    · exact ⟨trivial, h⟩

theorem civil_line (hg : ∀ id l, (A.get id l).length ≤ 16 ^ 8) (h : W.Sound E) {c : UInt8} {l : List Event} {argv : List Str}
    (hc : ∀ name as, argv = name :: as → (Talk.start W c).Civil E (A.hook l (name :: as)) ∧
      ∀ f, ((Talk.start W c).run E (A.hook l argv)).1.world.file? name = some f →
        fileCivil E A ((Talk.start W c).run E (A.hook l argv)).1 (l ++ (hookEvents E argv ++ ((Talk.start W c).run E (A.hook l argv)).2.map .ret)) f (name :: as))
    (near : ((Talk.start W c).run E (A.hook l argv)).1.world.LineNear E argv)
    (shows : lineShows E A ((Talk.start W c).run E (A.hook l argv)).1.world (l ++ (hookEvents E argv ++ ((Talk.start W c).run E (A.hook l argv)).2.map .ret)) argv) : lineOk E A W c l argv ∧ (lineAnswer E A W c l argv).2.Sound E := by
  rcases argv with _ | ⟨name, as⟩
  · exact ⟨trivial, h⟩
  · obtain ⟨⟨c1, c2⟩, c3⟩ := hc name as rfl
    unfold lineOk lineAnswer
    simp only
    cases hf : ((Talk.start W c).run E (A.hook l (name :: as))).1.world.file? name with
    | none => exact ⟨⟨c1, c2.ok, near.1, trivial⟩, c2⟩
    | some f =>
      have hff := file?_files hf
      have c3 := c3 f hf
      have key : ∀ l', fileCivil E A ((Talk.start W c).run E (A.hook l (name :: as))).1 l' f (name :: as) →
          lineShows E A ((Talk.start W c).run E (A.hook l (name :: as))).1.world l' (name :: as) →
          fileOk E A ((Talk.start W c).run E (A.hook l (name :: as))).1 l' f name as ∧
          (fileAnswer E A ((Talk.start W c).run E (A.hook l (name :: as))).1 l' f name as).2.Sound E := by
        intro l' hl' shows
        unfold fileOk fileAnswer
        split
        · exact ⟨trivial, c2⟩
        · next id hx =>
          unfold fileCivil at hl'
          rw [hx] at hl'
          exact ⟨⟨hl'.1, hl'.2.ok⟩, hl'.2⟩
        · next b hx =>
          have := near.2
          rw [hf] at this
          simp only [Option.bind_some, hx] at this
          simp only [lineShows, hf, Option.bind_some, hx] at shows
          exact civil_builtin hg c2 hff hx this shows hl'
      exact ⟨⟨c1, c2.ok, near.1, (key _ c3 shows).1⟩, (key _ c3 shows).2⟩

/-- `Term.Ok` is the part of the application and that of the keyboard. -/
theorem civil_key (hg : ∀ id l, (A.get id l).length ≤ 16 ^ 8) {t : Term} {c : UInt8} (h : t.world.Sound E) (ha : t.AppOk E A c) (near : t.NearApp E A c) :
    t.Ok E A c ∧ (t.key E A c).world.Sound E := by
  unfold Term.AppOk at ha
  unfold Term.NearApp at near
  unfold Term.Ok Term.key
  by_cases h1 : c = cEtx
  · rw [if_pos h1, if_pos h1]; exact ⟨trivial, h⟩
  · rw [if_neg h1, if_neg h1]
    by_cases h2 : c = cTab
    · rw [if_pos h2] at ha near ⊢
      rw [if_pos h2]
      refine ⟨fun on => ⟨near on, (ha on).1⟩, ?_⟩
      split <;> exact h
    · rw [if_neg h2] at ha near ⊢
      rw [if_neg h2]
      unfold Term.enters at ha near
      cases h3 : isEnter c && t.ed.esc == .none with
      | false => simp only [Bool.false_eq_true, if_false]; exact ⟨trivial, h⟩
      | true =>
        simp only [h3, if_true] at ha near ⊢
        obtain ⟨l1, l2⟩ := civil_line hg h (c := c) (l := t.entered c) (argv := t.argv E) ha near.2.1 near.2.2
        exact ⟨⟨near.1, l1⟩, l2⟩

/-- Enter, where a row of what is asked for does not fit. -/
theorem line_rows {e : Editor} {u : Ush} (cfg : Config E) (H : Waiting E W u e) (c : UInt8) (i : List UInt8)
    (hesc : e.esc = .none) (hen : c = cLf ∨ c = cCr) (hin : 2 ≤ E.inSize)
    {argv : List Str} (hw : words (sent E.inSize e.line) = argv) {cs : List Call}
    (hh : HookSays E (u.log ++ .inp c :: outs (enterEcho c)) argv cs) (hget : ∀ id l, Gets E l id (A.get id l))
    (hv : (Talk.start W c).ValidRun E cs) (h : ((Talk.start W c).run E cs).1.world.Sound E)
    (near : ((Talk.start W c).run E cs).1.world.LineNear E argv)
    (far : ¬ lineShows E A ((Talk.start W c).run E cs).1.world
      (u.log ++ .inp c :: outs (enterEcho c) ++ (hookEvents E argv ++ ((Talk.start W c).run E cs).2.map .ret)) argv) :
    ∃ v, Steps E u (c :: i) v i ∧ Never E v i := by
  rcases argv with _ | ⟨name, as⟩
  · exact absurd trivial far
  obtain ⟨w, v, r, s1, s2, s3, Hk, hl, step⟩ := enter_hook cfg H c i hesc hen hin hw hh hv h.ok near.1
  have near := near.2
  simp only [lineShows] at far
  cases hf : ((Talk.start W c).run E cs).1.world.file? name with
  | none => rw [hf] at far; exact absurd trivial far
  | some f =>
    rw [hf] at far step near
    simp only [Option.bind_some] at far near
    simp only at step
    cases hx : f.exec with
    | none => rw [hx] at far; exact absurd trivial far
    | some cb =>
      rw [hx] at far near
      simp only [hx] at step
      cases cb with
      | user id => exact absurd trivial far
      | builtin b =>
        simp only at far near
        have C : Called E ((Talk.start W c).run E cs).1 w v f (.builtin b) (name :: as) (hookEvents E (name :: as) ++ ((Talk.start W c).run E cs).2.map .ret) :=
          ⟨s1, s2, s3, step, by rw [hl, List.append_assoc], Hk.talks, Hk.args, h.ok, by omega⟩
        have hlog : v.log = u.log ++ .inp c :: outs (enterEcho c) ++ (hookEvents E (name :: as) ++ ((Talk.start W c).run E cs).2.map .ret) := by rw [C.log, r.log]
        rw [← hlog] at far
        have hp := proper_process (h.proper f (file?_files hf)) hx
        refine Dead.after r ?_
        cases b with
        | help =>
          rcases as with _ | ⟨a, as⟩
          · exact C.help_far cfg (hp (by simp)) i far
          · exact absurd (by cases as <;> trivial) far
        | ls =>
          rcases as with _ | ⟨a, _ | ⟨a', as⟩⟩
          · obtain ⟨m, hm⟩ := Classical.not_forall.mp far
            obtain ⟨hm, far⟩ := Classical.not_imp.mp hm
            exact C.ls_far cfg (hp (by simp)) i hm far
          · obtain ⟨m, hm⟩ := Classical.not_forall.mp far
            obtain ⟨hm, far⟩ := Classical.not_imp.mp hm
            exact C.ls_dir_far cfg near (hp (by simp)) i hm far
          · exact absurd trivial far
        | xxd =>
          rcases as with _ | ⟨a, _ | ⟨a', as⟩⟩
          · exact absurd trivial far
          · obtain ⟨id, hid⟩ := Classical.not_forall.mp far
            obtain ⟨hid, far⟩ := Classical.not_imp.mp hid
            obtain ⟨g, hg, hid⟩ := Option.bind_eq_some_iff.mp hid
            exact C.xxd_far near (hp (by simp)) i hg hid (hget id _) far
          · exact absurd trivial far
        | _ => exact absurd (by unfold builtinShows; trivial) far

/-- With an input buffer of one byte the line end is lost, and the parser reads behind the buffer. -/
theorem enter_one {e : Editor} {u : Ush} (cfg : Config E) (H : Waiting E W u e) (c : UInt8) (i : List UInt8) (hesc : e.esc = .none) (hen : c = cLf ∨ c = cCr) (hin : ¬ 2 ≤ E.inSize) :
    ∃ v, Steps E u (c :: i) v i ∧ Never E v i := by
  have hlt := shows_lt H.shows H.sized
  have h1 : E.inSize = 1 := by omega
  have hline : e.line = [] := List.eq_nil_of_length_eq_zero (by omega)
  have hae : u.ansiEsc = 0 := by rw [H.shows.esc, hesc]; rfl
  have hpos : u.inPos = 0 := by rw [H.shows.pos, hline]; rfl
  have hbuf : ∃ x, u.inBuf = [x] := List.length_eq_one_iff.mp (by rw [H.sized.inLen, h1])
  obtain ⟨x, hbuf⟩ := hbuf
  obtain ⟨o, ho, r⟩ := char_run (E := E) (u := u) c i H.shows.state hae H.current H.sized cfg.outSize (by rw [hpos]; omega)
    (by rcases hen with rfl | rfl <;> decide) (by rcases hen with rfl | rfl <;> decide) (by rcases hen with rfl | rfl <;> decide)
    (by rcases hen with rfl | rfl <;> decide) (by rcases hen with rfl | rfl <;> decide)
  simp only at r
  rw [if_pos hen.symm, if_pos (by rw [hpos]; omega)] at r
  refine Dead.after r ?_
  generalize hw : said _ _ _ _ = w
  have w1 : w.state = .parsePrepare := by rw [← hw]; rfl
  have w2 : w.inBuf = [cNul] := by rw [← hw]; simp [said, hpos, hbuf]
  have w3 : w.current.isSome = true := by rw [← hw]; exact H.current
  clear hw
  have s1 : Steps E w i (parseStart w) i := Steps.inner i w3 (by simp [w1]) (by simp [w1]) (by unfold innerStep; rw [w1])
  have s2 : Steps E (parseStart w) i { parseStart w with inPos := 1, outPos := 1, argsCount := 1, state := .parseStandardArg } i := by
    refine Steps.inner i w3 (by simp [parseStart]) (by simp [parseStart]) ?_
    unfold innerStep
    simp [parseStart, parseChar, w2, rd, parseCharStandard, putOut, wr, bind, Except.bind, pure, Except.pure, cNul, cLf, cCr, cSpace, cQuote, cBackslash]
  refine ⟨_, s1.trans s2, never_stuck ?_ i⟩
  refine stuck (w := { parseStart w with inPos := 1, outPos := 1, argsCount := 1, state := .parseStandardArg }) w3 (by simp) (by simp) ?_
  unfold innerStep
  simp [parseStart, parseChar, w2, rd, bind, Except.bind]

theorem civil_far (cfg : Config E) (hA : A.Describes E) {t : Term} {c : UInt8} {u : Ush} (H : Shell E t u) (ha : t.AppOk E A c) (far : ¬ t.NearApp E A c)
    (inp : List UInt8) : ∃ v, Steps E u (c :: inp) v inp ∧ Never E v inp := by
  unfold Term.AppOk at ha
  unfold Term.NearApp at far
  obtain ⟨V, e, l⟩ := t
  obtain ⟨Hw, hl⟩ := H
  simp only at Hw hl
  split at far
  · next hc =>
    subst hc
    rw [if_pos rfl] at ha
    have on : E.autocomplete = true := Classical.byContradiction fun h => far fun h' => absurd h' h
    exact line_never on Hw (ha on).2 (fun h => far fun _ => h) inp
  · next hc =>
    rw [if_neg hc] at ha
    split at far
    · next h3 =>
      rw [if_pos h3] at ha
      obtain ⟨k1, k2⟩ := (Bool.and_eq_true _ _).mp h3
      have hen : c = cLf ∨ c = cCr := by
        unfold isEnter at k1
        simp at k1
        exact k1.symm
      by_cases hin : 2 ≤ E.inSize
      case neg => exact enter_one cfg Hw c inp (by simpa using k2) hen hin
      have hh := hA.hook (u.log ++ .inp c :: outs (enterEcho c)) (words (sent E.inSize e.line))
      cases hargv : Term.argv E ⟨V, e, l⟩ with
      | nil => rw [hargv] at far; exact absurd ⟨hin, trivial, trivial⟩ far
      | cons name as =>
        obtain ⟨⟨c1, c2⟩, -⟩ := ha name as hargv
        rw [← hargv] at c1 c2
        subst hl
        by_cases near : (Term.hooked E A ⟨V, e, u.log⟩ c).1.world.LineNear E (Term.argv E ⟨V, e, u.log⟩)
        · exact line_rows cfg Hw c inp (by simpa using k2) hen hin rfl hh hA.get c1 c2 near (fun h => far ⟨hin, near, h⟩)
        · obtain ⟨v, s, h⟩ := line_far cfg Hw c inp (by simpa using k2) hen hin rfl hh c1 c2.ok near
          exact ⟨v, s, never_stuck h inp⟩
    · exact absurd trivial far

theorem civil_keys (cfg : Config E) (hA : A.Describes E) (hg : ∀ id l, (A.get id l).length ≤ 16 ^ 8) (cs : List UInt8) : ∀ (t : Term) (u : Ush), Shell E t u →
    t.world.Sound E → t.AppAll E A cs →
    (t.NearAppAll E A cs → ∃ v, Steps E u cs v [] ∧ Shell E (t.keys E A cs) v ∧ (t.keys E A cs).world.Sound E) ∧
    (¬ t.NearAppAll E A cs → ∃ v r, Steps E u cs v r ∧ Never E v r) := by
  induction cs with
  | nil => intro t u H hW _; exact ⟨fun _ => ⟨u, Steps.refl _ _ _, H, hW⟩, fun h => absurd trivial h⟩
  | cons c cs ih =>
    intro t u H hW ha
    by_cases near : t.NearApp E A c
    · obtain ⟨k1, k2⟩ := civil_key hg hW ha.1 near
      obtain ⟨v, s, H'⟩ := key_sim cfg (Nat.zero_lt_of_lt (shows_lt H.waiting.shows H.waiting.sized)) hA H k1 cs
      obtain ⟨i1, i2⟩ := ih _ v H' k2 (ha.2 near)
      refine ⟨fun h => ?_, fun h => ?_⟩
      · obtain ⟨w, s', r⟩ := i1 h.2
        exact ⟨w, s.trans s', r⟩
      · obtain ⟨w, r, s', h'⟩ := i2 (fun h' => h ⟨near, h'⟩)
        exact ⟨w, r, s.trans s', h'⟩
    · refine ⟨fun h => absurd h.1 near, fun _ => ?_⟩
      obtain ⟨v, s, h⟩ := civil_far cfg hA H ha.1 near cs
      exact ⟨v, cs, s, h⟩

/-- What a built-in command leaves. -/
theorem builtin_world (E : Env) (A : App) (T : Talk) (l : List Event) (b : Builtin) (as : List Str) :
    (builtinAnswer E A T l b as).2 = T.world ∨ (∃ m ∈ T.world.tree, (builtinAnswer E A T l b as).2 = { T.world with cwd := some m }) ∨
      ∃ id d, (builtinAnswer E A T l b as).2 = (T.run E (A.set id l d)).1.world := by
  have hcd : ∀ (a : Str) V', T.world.cd a = some V' → ∃ m ∈ T.world.tree, V' = { T.world with cwd := some m } := by
    intro a V' hV
    unfold World.cd at hV
    split at hV
    · cases hV
    · obtain ⟨m', hm', rfl⟩ := Option.map_eq_some_iff.mp hV
      exact ⟨m', findText_mem hm', rfl⟩
  unfold builtinAnswer
  split
  all_goals (try split)
  all_goals (try split)
  all_goals (try split)
  all_goals first
    | exact .inl rfl
    | exact .inr (.inl (hcd _ _ (by assumption)))
    | exact .inr (.inr ⟨_, _, rfl⟩)

theorem keeps_line {P : World → Prop} (K : A.Keeps E P) (h : P W) (c : UInt8) (l : List Event) (argv : List Str) : P (lineAnswer E A W c l argv).2 := by
  rcases argv with _ | ⟨name, as⟩
  · exact h
  · unfold lineAnswer
    simp only
    have hk := (K.hook W h c l (name :: as)).2
    split
    · exact hk
    · unfold fileAnswer
      split
      · exact hk
      · exact (K.exec W h c l (name :: as) _ _ _).2
      · simp only
        rcases builtin_world E A ((Talk.start W c).run E (A.hook l (name :: as))).1 _ _ as with e | ⟨m, hm, e⟩ | ⟨id, d, e⟩
        · rw [e]; exact hk
        · rw [e]; exact K.cd _ hk m hm
        · rw [e]; exact (K.set W h c l (name :: as) _ _ _).2

theorem keeps_key {P : World → Prop} (K : A.Keeps E P) {t : Term} (h : P t.world) (c : UInt8) : t.AppOk E A c ∧ P (t.key E A c).world := by
  constructor
  · unfold Term.AppOk
    split
    · have mv := Sound.self (K.sound _ h)
      have hn := fun x n (hx : n ∈ t.world.offers x) => names_of (Q := fun n => cLf ∉ n ∧ cCr ∉ n) mv (K.files _ h) (K.dirs _ h) hx
      exact fun _ => ⟨⟨grown_clean fun x c h => (hn x c h).1, grown_clean fun x c h => (hn x c h).2⟩, K.flat _ h⟩
    · split
      · intro name as e
        have hk := K.hook _ h c (t.entered c) (name :: as)
        refine ⟨⟨hk.1, K.sound _ hk.2⟩, fun f _ => ?_⟩
        unfold fileCivil
        split
        · exact ⟨(K.exec _ h c (t.entered c) (t.argv E) _ _ _).1, K.sound _ (K.exec _ h c (t.entered c) (t.argv E) _ _ _).2⟩
        · intro _ id _
          exact ⟨(K.set _ h c (t.entered c) (t.argv E) id _ _).1, K.sound _ (K.set _ h c (t.entered c) (t.argv E) id _ _).2⟩
        · trivial
      · trivial
  · unfold Term.key
    split
    · exact h
    · split
      · split <;> exact h
      · split
        · exact keeps_line K h c _ _
        · exact h

theorem keeps_all {P : World → Prop} (K : A.Keeps E P) (cs : List UInt8) : ∀ t : Term, P t.world → t.AppAll E A cs := by
  induction cs with
  | nil => intros; trivial
  | cons c cs ih =>
    intro t h
    obtain ⟨h1, h2⟩ := keeps_key K h c
    exact ⟨h1, fun _ => ih _ h2⟩

theorem keeps_items {P : World → Prop} (K : A.Keeps E P) (is : List Item) (hc : ∀ t : Term, P t.world → ∀ c, Item.call c ∈ is → t.CallOk E c ∧ P (t.call E c).world) :
    ∀ t : Term, P t.world → t.AppItems E A is := by
  induction is with
  | nil => intros; trivial
  | cons i is ih =>
    intro t h
    have ih := ih fun t h c hm => hc t h c (List.mem_cons_of_mem _ hm)
    cases i with
    | key c =>
      obtain ⟨h1, h2⟩ := keeps_key K h c
      exact ⟨h1, fun _ => ih _ h2⟩
    | call c =>
      obtain ⟨h1, h2⟩ := hc t h c (List.mem_cons_self ..)
      exact ⟨⟨h1, K.sound _ h2⟩, fun _ => ih _ h2⟩

theorem ok_near_builtin {T : Talk} {l : List Event} {f : FileDesc} {b : Builtin} {as : List Str} (h : builtinOk E A T l f b as) : T.world.ArgsNear E b as := by
  cases b with
  | pwd => cases as <;> trivial
  | cd => rcases as with _ | ⟨a, _ | ⟨a', as⟩⟩ <;> first | trivial | exact h
  | cat => exact h.2
  | xxd => rcases as with _ | ⟨a, _ | ⟨a', as⟩⟩ <;> first | trivial | exact h.1
  | ls => rcases as with _ | ⟨a, _ | ⟨a', as⟩⟩ <;> first | trivial | exact h.1
  | help => rcases as with _ | ⟨a, _ | ⟨a', as⟩⟩ <;> first | trivial | exact h
  | echo => rcases as with _ | ⟨a, _ | ⟨s, _ | ⟨t, _ | ⟨z, as⟩⟩⟩⟩ <;> first | trivial | exact fun hs => (h hs).1

theorem ok_shows_builtin {T : Talk} {l : List Event} {f : FileDesc} {b : Builtin} {as : List Str} (h : builtinOk E A T l f b as) : builtinShows E A T.world l b as := by
  cases b with
  | help =>
    rcases as with _ | ⟨a, as⟩
    · exact h.2
    · cases as <;> trivial
  | ls =>
    rcases as with _ | ⟨a, _ | ⟨a', as⟩⟩
    · intro m hm
      have := h.2
      rw [hm] at this
      exact this
    · intro m hm
      have := h.2.2
      rw [hm] at this
      exact this
    · trivial
  | xxd =>
    rcases as with _ | ⟨a, _ | ⟨a', as⟩⟩
    · trivial
    · intro id hid
      have := h.2.2
      rw [hid] at this
      exact this.1
    · trivial
  | _ => unfold builtinShows; trivial

theorem ok_near {t : Term} {c : UInt8} (h : t.Ok E A c) : t.NearApp E A c := by
  unfold Term.Ok at h
  unfold Term.NearApp
  by_cases h1 : c = cEtx
  · subst h1
    rw [if_neg (by decide), show t.enters cEtx = false from rfl]
    exact trivial
  · rw [if_neg h1] at h
    by_cases h2 : c = cTab
    · rw [if_pos h2] at h ⊢
      exact fun on => (h on).1
    · rw [if_neg h2] at h ⊢
      unfold Term.enters
      split
      · next h3 =>
        rw [if_pos h3] at h
        refine ⟨h.1, ?_⟩
        have h := h.2
        unfold Term.prepared Term.hooked Term.argv Term.entered
        generalize words (sent E.inSize t.ed.line) = argv at h
        rcases argv with _ | ⟨name, as⟩
        · exact ⟨trivial, trivial⟩
        · obtain ⟨-, -, k1, k2⟩ := h
          simp only [World.LineNear, lineShows]
          generalize hb : (World.file? _ name).bind (·.exec) = x
          refine ⟨⟨k1, ?_⟩, ?_⟩
          all_goals
            split
            · obtain ⟨f, hf, hx⟩ := Option.bind_eq_some_iff.mp hb
              rw [hf] at k2
              simp only [fileOk, hx] at k2
              first | exact ok_near_builtin k2 | exact ok_shows_builtin k2
            · trivial
      · trivial

theorem civil_items (cfg : Config E) (hA : A.Describes E) (hg : ∀ id l, (A.get id l).length ≤ 16 ^ 8) (is : List Item) : ∀ (t : Term) (u : Ush), Shell E t u →
    t.world.Sound E → t.AppItems E A is →
    (t.NearItems E A is → ∃ v, plays E u v is ∧ Shell E (t.items E A is) v) ∧
    (¬ t.NearItems E A is → ∃ pre c post v w, is = pre ++ .key c :: post ∧ plays E u v pre ∧ Shell E (t.items E A pre) v ∧ Steps E v [c] w [] ∧ Never E w []) := by
  induction is with
  | nil => intro t u H hW _; exact ⟨fun _ => ⟨u, rfl, H⟩, fun h => absurd trivial h⟩
  | cons i is ih =>
    intro t u H hW ha
    by_cases near : t.NearItem E A i
    · have key : ∃ v, Shell E (t.item E A i) v ∧ (t.item E A i).world.Sound E ∧ ∀ js w, plays E v w js → plays E u w (i :: js) := by
        cases i with
        | key c =>
          obtain ⟨k1, k2⟩ := civil_key hg hW ha.1 near
          obtain ⟨v, s, H'⟩ := key_sim cfg (Nat.zero_lt_of_lt (shows_lt H.waiting.shows H.waiting.sized)) hA H k1 []
          exact ⟨v, H', k2, fun js w h => ⟨v, s, H'.waiting.shows.state, h⟩⟩
        | call k =>
          obtain ⟨v, x, e, s1, H1⟩ := call_sim_term cfg (Nat.zero_lt_of_lt (shows_lt H.waiting.shows H.waiting.sized)) H k ha.1.1
          exact ⟨x, H1, ha.1.2, fun js w h => ⟨v, x, e, s1, H1.waiting.shows.state, h⟩⟩
      obtain ⟨v, H', hW', hp⟩ := key
      obtain ⟨i1, i2⟩ := ih _ v H' hW' (ha.2 near)
      refine ⟨fun h => ?_, fun h => ?_⟩
      · obtain ⟨w, s', r⟩ := i1 h.2
        exact ⟨w, hp _ _ s', r⟩
      · obtain ⟨pre, c, post, x, w, rfl, p1, p2, p3⟩ := i2 (fun h' => h ⟨near, h'⟩)
        exact ⟨i :: pre, c, post, x, w, rfl, hp _ _ p1, p2, p3⟩
    · refine ⟨fun h => absurd h.1 near, fun _ => ?_⟩
      cases i with
      | key c =>
        obtain ⟨v, s, h⟩ := civil_far cfg hA H ha.1 near []
        exact ⟨[], c, is, u, v, rfl, rfl, H, s, h⟩
      | call _ => exact absurd trivial near

end

end Ush
