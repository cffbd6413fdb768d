import Verif.Spec.Reach
import Verif.Proof.SafeParse
import Verif.Proof.Tab
/-! # Applications that leave the directories alone: lemmas -/
namespace Ush
open Spec

theorem push_bound {p : Str} {l : List Str} {n : Nat} (h : ∀ w ∈ l, w.length ≤ n) : ∀ w ∈ push p l, w.length ≤ n + p.length := by
  intro w hw
  cases l with
  | nil => simp [push] at hw; subst hw; omega
  | cons v l =>
    simp only [push] at hw
    rcases List.mem_cons.mp hw with rfl | hw
    · have := h v (by simp); simp; omega
    · have := h w (by simp [hw]); omega

theorem lex_length : ∀ (s : Str) (m : Mode) (e : Bool), ∀ w ∈ lex m e s, w.length ≤ s.length + (if e = true ∧ m ≠ .gap then 1 else 0) := by
  intro s
  induction s with
  | nil => intro m e; cases m <;> simp [lex]
  | cons c s ih =>
    intro m e w hw
    have hp : ∀ m', w ∈ push [c] (lex m' false s) → w.length ≤ s.length + 1 := by
      intro m' h
      have := push_bound (ih m' false) w h
      simpa using this
    have hr : ∀ m' e', w ∈ lex m' e' s → w.length ≤ s.length + 1 := by
      intro m' e' h
      have := ih m' e' w h
      split at this <;> omega
    simp only [List.length_cons]
    cases m with
    | gap =>
      rw [lex_gap_cons] at hw
      have : w.length ≤ s.length + 1 := by
        repeat' split at hw
        all_goals first | exact hr _ _ hw | exact hp _ hw
      omega
    | bare =>
      cases e with
      | false =>
        rw [lex_bare_cons] at hw
        have : w.length ≤ s.length + 1 := by
          repeat' split at hw
          · rcases List.mem_cons.mp hw with rfl | hw
            · simp
            · exact hr _ _ hw
          all_goals first | exact hr _ _ hw | exact hp _ hw
        omega
      | true =>
        simp only [lex] at hw
        have := push_bound (ih .bare false) w hw
        simp at this ⊢
        split at this <;> simp at this <;> omega
    | quoted =>
      cases e with
      | false =>
        rw [lex_quoted_cons] at hw
        have : w.length ≤ s.length + 1 := by
          repeat' split at hw
          all_goals first | exact hr _ _ hw | exact hp _ hw
        omega
      | true =>
        simp only [lex] at hw
        have := push_bound (ih .quoted false) w hw
        simp at this ⊢
        split at this <;> simp at this <;> omega

theorem pieces_bound (x : Str) : ∀ w ∈ pieces x, w.length ≤ x.length := by
  induction x with
  | nil => simp [pieces]
  | cons c x ih =>
    intro w hw
    unfold pieces at hw
    split at hw
    · rcases List.mem_cons.mp hw with rfl | hw
      · simp
      · have := ih w hw; simp; omega
    · have := push_bound (p := [c]) ih w hw
      simp at this ⊢
      omega

/-- A word of the line is not longer than the line. -/
theorem words_length {s w : Str} (h : w ∈ words s) : w.length ≤ s.length := by
  obtain ⟨x, hx, hw⟩ := List.mem_flatMap.mp (List.mem_of_mem_take h)
  have h1 := lex_length s .gap false x hx
  have h2 := pieces_bound x w hw
  simp at h1
  omega

section
variable {E : Env} {A : App} {L N : Nat} {W V : World}

theorem Moved_dirs {m : Mount} (h : W.Moved V) (hm : m ∈ V.dirs) : m ∈ W.dirs := by
  obtain ⟨h1, -, d, hd, h3⟩ := h
  rcases mem_dirs.mp hm with hm | hm
  · exact mem_dirs_of_tree (h1 ▸ hm)
  · rw [h3] at hm
    cases hm
    exact hd

theorem Moved_refl_cd {m : Mount} (h : W.Moved V) (hm : m ∈ V.tree) : W.Moved { V with cwd := some m } :=
  ⟨h.1, h.2.1, m, mem_dirs_of_tree (h.1 ▸ hm), rfl⟩

theorem Moved_ok (h : W.Moved V) (ok : W.Ok E) : V.Ok E := by
  obtain ⟨h1, h2, m, -, h3⟩ := id h
  exact ⟨by rw [h3]; simp, by rw [h1]; exact ok.names, fun m hm => ok.treeTexts m (Moved_dirs h hm), by rw [h2]; exact ok.cmdTexts⟩

theorem Moved_fits (h : W.Moved V) (fit : W.Fits E L) : V.Fits E L := World.Fits.of_eq fit (fun _ hm => Moved_dirs h hm) h.2.1

theorem Moved_path (h : W.Moved V) : ∃ m ∈ W.dirs, V.path = m.path := by
  obtain ⟨-, -, m, hm, h3⟩ := h
  exact ⟨m, hm, by simp [World.path, h3]⟩

theorem Moved_room (h : W.Moved V) (fit : W.Fits E L) {a : Str} (ha : a.length < L) : V.Room E a := by
  obtain ⟨m, hm, hp⟩ := Moved_path h
  have h1 := fullText_room (render m.path) a
  have h2 := fit.paths m hm
  unfold World.Room
  rw [hp]
  omega

theorem proper_process {f : FileDesc} {b : Builtin} (h : Proper f) (hx : f.exec = some (.builtin b)) (hb : b ∈ [Builtin.cat, .xxd, .ls, .help]) :
    f.process = some (.builtin b) := by
  rcases h with h | h
  · have : ∀ f ∈ builtinCommands, ∀ b ∈ [Builtin.cat, .xxd, .ls, .help], f.exec = some (.builtin b) → f.process = some (.builtin b) := by decide
    exact this f h b hb hx
  · exact absurd hx (h.1 b)

theorem tame_files (h : W.Moved V) (fit : W.Fits E L) {m : Mount} (hm : m ∈ V.dirs) : ∀ g ∈ m.files, (rowHead E g).length < E.outSize := by
  intro g hg
  refine ((Moved_fits h fit).files g ?_).2
  exact List.mem_append_right _ (List.mem_flatMap.mpr ⟨m, hm, hg⟩)

theorem tame_builtin (R : Roomy E) (fit : W.Fits E L) (ok : W.Ok E) (hA : A.Tame E W) (h : W.Moved V) {c : UInt8} {l : List Event} {f : FileDesc}
    {b : Builtin} {as : List Str} (hf : f ∈ V.files) (hx : f.exec = some (.builtin b)) (near : V.ArgsNear E b as) :
    builtinOk E A (Talk.start V c) l f b as ∧ W.Moved (builtinAnswer E A (Talk.start V c) l b as).2 := by
  have hp := proper_process ((Moved_fits h fit).files f hf).1 hx
  obtain ⟨h1, h2, m, hm, h3⟩ := id h
  have hm' : m ∈ V.dirs := mem_dirs.mpr (.inr h3)
  cases b with
  | pwd => rcases as with _ | ⟨a, as⟩ <;> exact ⟨trivial, h⟩
  | cd =>
    rcases as with _ | ⟨a, _ | ⟨a', as⟩⟩
    · exact ⟨trivial, h⟩
    · refine ⟨near, ?_⟩
      simp only [builtinAnswer]
      split
      · rename_i V' hV
        unfold World.cd at hV
        split at hV
        · cases hV
        · obtain ⟨m', hm', rfl⟩ := Option.map_eq_some_iff.mp hV
          exact Moved_refl_cd h (findText_mem hm')
      · exact h
    · exact ⟨trivial, h⟩
  | cat =>
    refine ⟨⟨hp (by simp), near⟩, ?_⟩
    rcases as with _ | ⟨a, as⟩
    · exact h
    · simp only [builtinAnswer]
      split <;> exact h
  | xxd =>
    rcases as with _ | ⟨a, _ | ⟨a', as⟩⟩
    · exact ⟨trivial, h⟩
    · refine ⟨⟨near, hp (by simp), ?_⟩, ?_⟩
      · split
        · exact ⟨⟨R.offset, R.hex, .inl R.cols⟩, hA.get _ _⟩
        · trivial
      · simp only [builtinAnswer]
        split
        · exact h
        · split <;> exact h
    · exact ⟨trivial, h⟩
  | ls =>
    have h7 : 7 ≤ E.outSize := by have := R.offset; omega
    rcases as with _ | ⟨a, _ | ⟨a', as⟩⟩
    · refine ⟨⟨hp (by simp), ?_⟩, ?_⟩
      · show (match V.cwd with | some m => _ | none => _)
        rw [h3]
        exact fun g hg => ⟨h7, tame_files h fit hm' g hg⟩
      · simp only [builtinAnswer]
        split <;> exact h
    · refine ⟨⟨near, hp (by simp), ?_⟩, ?_⟩
      · split
        · rename_i m' hm'
          exact fun g hg => ⟨h7, tame_files h fit (mem_dirs_of_tree (findText_mem hm')) g hg⟩
        · trivial
      · simp only [builtinAnswer]
        split <;> exact h
    · exact ⟨trivial, h⟩
  | help =>
    rcases as with _ | ⟨a, _ | ⟨a', as⟩⟩
    · refine ⟨⟨hp (by simp), fun g hg => ?_⟩, h⟩
      exact ((Moved_fits h fit).files g (List.mem_append_left _ hg)).2
    · refine ⟨near, ?_⟩
      simp only [builtinAnswer]
      split
      · exact h
      · split <;> exact h
    · exact ⟨trivial, h⟩
  | echo =>
    rcases as with _ | ⟨a, _ | ⟨s, _ | ⟨t, _ | ⟨z, as⟩⟩⟩⟩
    · exact ⟨trivial, h⟩
    · exact ⟨trivial, h⟩
    · exact ⟨trivial, h⟩
    · refine ⟨fun hs => ⟨near hs, ?_⟩, ?_⟩
      · split
        · rename_i id _
          obtain ⟨k1, k2⟩ := hA.set id l (decodeSpec a) V c h
          exact ⟨k1, Moved_ok k2 ok⟩
        · trivial
      · simp only [builtinAnswer]
        split
        · exact h
        · split
          · exact h
          · split
            · exact h
            · exact (hA.set _ _ _ V c h).2
    · exact ⟨trivial, h⟩

theorem tame_line (R : Roomy E) (fit : W.Fits E L) (ok : W.Ok E) (hA : A.Tame E W) (h : W.Moved V) {c : UInt8} {l : List Event} {argv : List Str}
    (near : V.LineNear E argv) : lineOk E A V c l argv ∧ W.Moved (lineAnswer E A V c l argv).2 := by
  rcases argv with _ | ⟨name, as⟩
  · exact ⟨trivial, h⟩
  · unfold lineOk lineAnswer
    simp only [hA.hook, Talk.run, Talk.ValidRun]
    have e : (Talk.start V c).world = V := rfl
    rw [e]
    cases hf : V.file? name with
    | none => exact ⟨⟨trivial, Moved_ok h ok, near.1, trivial⟩, h⟩
    | some f =>
      have hff := file?_files hf
      have key : ∀ l', fileOk E A (Talk.start V c) l' f name as ∧ W.Moved (fileAnswer E A (Talk.start V c) l' f name as).2 := by
        intro l'
        unfold fileOk fileAnswer
        split
        · exact ⟨trivial, h⟩
        · obtain ⟨k1, k2⟩ := hA.exec _ _ _ V c h
          exact ⟨⟨k1, Moved_ok k2 ok⟩, k2⟩
        · rename_i b hx
          have := near.2
          rw [hf] at this
          simp only [Option.bind_some, hx] at this
          exact tame_builtin R fit ok hA h hff hx this
      exact ⟨⟨trivial, Moved_ok h ok, near.1, (key _).1⟩, (key _).2⟩

/-- Short words. -/
theorem lineNear_short (h : W.Moved V) (fit : W.Fits E L) {argv : List Str} (has : ∀ a ∈ argv, a.length < L) : V.LineNear E argv := by
  rcases argv with _ | ⟨name, as⟩
  · trivial
  · have hr : ∀ a ∈ as, V.Room E a := fun a ha => Moved_room h fit (has a (by simp [ha]))
    have hn : ∀ a ∈ as, V.Near E a := fun a ha => Or.inr (hr a ha)
    refine ⟨Or.inr (Moved_room h fit (has _ (by simp))), ?_⟩
    split
    · next b _ =>
      unfold World.ArgsNear
      split
      · exact fun _ => hr _ (by simp)
      · exact hr _ (by simp)
      · exact catNear_of _ hn
      · exact hn _ (by simp)
      · exact hn _ (by simp)
      · exact fun _ => hn _ (by simp)
      · trivial
    · trivial

theorem names_plain (h : W.Moved V) (P : W.Plain E N) {n x : Str} (hn : n ∈ V.offers x) : n.length ≤ N ∧ cLf ∉ n ∧ cCr ∉ n := by
  obtain ⟨h1, h2, m, hm, h3⟩ := h
  have hn := (List.mem_filter.mp hn).1
  rw [h1, h2, h3] at hn
  rcases List.mem_append.mp hn with hn | hn
  · rcases List.mem_append.mp hn with hn | hn
    · obtain ⟨f, hf, rfl⟩ := List.mem_map.mp hn
      exact P.files f (List.mem_append_left _ hf)
    · obtain ⟨f, hf, rfl⟩ := List.mem_map.mp hn
      exact P.files f (List.mem_append_right _ (List.mem_flatMap.mpr ⟨m, hm, hf⟩))
  · obtain ⟨m', hm', rfl⟩ := List.mem_map.mp hn
    exact P.dirs m' (mem_under_opt hm')

theorem tame_tab (fit : W.Fits E L) (P : W.Plain E N) (h : W.Moved V) {head w : Str} (h1 : w.length < L)
    (h2 : head.length + N < E.inSize) : V.TabOk E head w := by
  obtain ⟨m, hm, hp⟩ := Moved_path h
  refine tabOk_of (Moved_room h fit h1) ?_
  intro c hc
  obtain ⟨x, -, hc⟩ := List.mem_flatMap.mp hc
  obtain ⟨k1, k2, k3⟩ := names_plain h P hc
  refine ⟨by omega, ?_, k2, k3⟩
  have e1 := fullText_length (render m.path) c
  have e2 := P.paths m hm
  unfold World.Room
  rw [hp]
  omega

theorem tame_key_near (R : Roomy E) (fit : W.Fits E L) (ok : W.Ok E) (hA : A.Tame E W) {t : Term} {c : UInt8} (h : W.Moved t.world)
    (hs : if c = cTab then E.autocomplete = true → t.world.LineFits E t.ed.line ∧ t.world.LineClean E t.ed.line
      else if isEnter c && t.ed.esc == .none then t.world.LineNear E (words (sent E.inSize t.ed.line)) else True) :
    t.Ok E A c ∧ W.Moved (t.key E A c).world := by
  unfold Term.Ok Term.key
  by_cases h1 : c = cEtx
  · rw [if_pos h1, if_pos h1]; exact ⟨trivial, h⟩
  · rw [if_neg h1, if_neg h1]
    by_cases h2 : c = cTab
    · rw [if_pos h2] at hs ⊢
      rw [if_pos h2]
      refine ⟨fun on => ?_, ?_⟩
      · exact hs on
      · split <;> exact h
    · rw [if_neg h2] at hs ⊢
      rw [if_neg h2]
      cases h3 : isEnter c && t.ed.esc == .none with
      | false => simp only [Bool.false_eq_true, if_false]; exact ⟨trivial, h⟩
      | true =>
        simp only [h3, if_true] at hs ⊢
        obtain ⟨l1, l2⟩ := tame_line R fit ok hA h (c := c) (l := t.log ++ .inp c :: outs (enterEcho c)) (argv := words (sent E.inSize t.ed.line))
          hs
        exact ⟨⟨R.inSize, l1⟩, l2⟩

theorem tame_key_of (R : Roomy E) (fit : W.Fits E L) (ok : W.Ok E) (hA : A.Tame E W) {t : Term} {c : UInt8} (h : W.Moved t.world)
    (hs : if c = cTab then E.autocomplete = true → t.world.LineFits E t.ed.line ∧ t.world.LineClean E t.ed.line
      else if isEnter c && t.ed.esc == .none then ∀ w ∈ words (sent E.inSize t.ed.line), w.length < L else True) :
    t.Ok E A c ∧ W.Moved (t.key E A c).world := by
  refine tame_key_near R fit ok hA h ?_
  split
  · next h2 => rwa [if_pos h2] at hs
  · next h2 =>
    rw [if_neg h2] at hs
    split
    · next h3 => rw [if_pos h3] at hs; exact lineNear_short h fit hs
    · trivial

theorem tame_key (R : Roomy E) (fit : W.Fits E L) (ok : W.Ok E) (P : W.Plain E N) (hA : A.Tame E W) {t : Term} {c : UInt8} (h : W.Moved t.world)
    (hs : t.Short E L N c) : t.Ok E A c ∧ W.Moved (t.key E A c).world := by
  refine tame_key_of R fit ok hA h ?_
  unfold Term.Short at hs
  split
  · next h2 =>
    rw [if_pos h2] at hs
    intro on
    obtain ⟨k1, k3, k4⟩ := hs on
    exact (lineOk_plain k1).mpr (tame_tab fit P h k3 k4)
  · next h2 => rwa [if_neg h2] at hs

/-- Words of a line in the buffer. -/
theorem sent_words {n : Nat} (hn : 2 ≤ n) {line : Str} (hl : line.length < n) : ∀ w ∈ words (sent n line), w.length < n - 1 := by
  intro w hw
  unfold sent at hw
  split at hw
  · have := words_length hw
    omega
  · next hfull =>
    obtain ⟨x, hx, hwx⟩ := List.mem_flatMap.mp (List.mem_of_mem_take hw)
    have e : lex .gap false (cNul :: line.tail) = push [cNul] (lex .bare false line.tail) := by
      rw [lex_gap_cons, if_neg (by decide), if_neg (by decide), if_neg (by decide)]
    rw [e] at hx
    have ht : line.tail.length = n - 2 := by simp; omega
    have hb := lex_length line.tail .bare false
    cases h : lex .bare false line.tail with
    | nil => exact absurd h (lex_ne _ (by decide) _ _)
    | cons y ys =>
      rw [h] at hx hb
      rcases List.mem_cons.mp hx with rfl | hx
      · simp only [List.singleton_append, pieces, if_true, List.mem_cons] at hwx
        rcases hwx with rfl | hwx
        · simp; omega
        · have h1 := pieces_bound y w hwx
          have h2 := hb y (by simp)
          simp at h2
          omega
      · have h1 := pieces_bound x w hwx
        have h2 := hb x (by simp [hx])
        simp at h2
        omega

theorem tame_keys (R : Roomy E) (fit : W.Fits E L) (ok : W.Ok E) (P : W.Plain E N) (hA : A.Tame E W) : ∀ (cs : List UInt8) (t : Term), W.Moved t.world →
    t.ShortAll E A L N cs → t.OkAll E A cs ∧ W.Moved (t.keys E A cs).world := by
  intro cs
  induction cs with
  | nil => intro t h _; exact ⟨trivial, h⟩
  | cons c cs ih =>
    intro t h hs
    obtain ⟨h1, h2⟩ := tame_key R fit ok P hA h hs.1
    obtain ⟨h3, h4⟩ := ih _ h2 hs.2
    exact ⟨⟨h1, h3⟩, h4⟩

theorem after_moved (E : Env) (os : List FsOp) (h : (after E os).cwd ≠ none) : (after E os).Moved (after E os) := by
  obtain ⟨m, hm⟩ := Option.ne_none_iff_exists'.mp h
  exact ⟨rfl, rfl, m, mem_dirs.mpr (.inr hm), hm⟩

end
end Ush
