import Verif.Spec.Screen
import Verif.Proof.Tab
import Verif.Proof.SafeParse
/-!
# Lemmas about the screen
-/
namespace Ush
open Spec

theorem feed_append (s : Screen) (x y : Str) : s.feed (x ++ y) = (s.feed x).feed y := List.foldl_append
theorem feed_cons (s : Screen) (c : UInt8) (x : Str) : s.feed (c :: x) = (s.put c).feed x := rfl
theorem feed_nil (s : Screen) : s.feed [] = s := rfl

theorem printed_append (a b : List Event) : printed (a ++ b) = printed a ++ printed b := List.filterMap_append
theorem printed_outs (x : Str) : printed (outs x) = x := by
  induction x with
  | nil => rfl
  | cons c x ih => exact congrArg (c :: ·) ih
theorem printed_inp (c : UInt8) (l : List Event) : printed (.inp c :: l) = printed l := rfl

theorem display_append (a b : List Event) : display (a ++ b) = (display a).feed (printed b) := by
  unfold display
  rw [printed_append, feed_append]

theorem graphic_facts {c : UInt8} (h : isGraphic c = true) : c ≠ cEsc ∧ c ≠ cCr ∧ c ≠ cLf ∧ c ≠ cBs ∧ c ≠ cTab := by
  refine ⟨?_, ?_, ?_, ?_, ?_⟩ <;> (rintro rfl; exact absurd h (by decide))

theorem put_graphic {s : Screen} {c : UInt8} (hs : s.seq = .ground) (h : isGraphic c = true) :
    s.put c = { s with row := writeAt s.row s.col c, col := s.col + 1 } := by
  obtain ⟨h1, h2, h3, h4, h5⟩ := graphic_facts h
  unfold Screen.put
  rw [hs]
  simp only [if_neg h1, if_neg h2, if_neg h3, if_neg h4, if_neg h5, if_pos h]

theorem writeAt_end (x : Str) (k : Nat) (c : UInt8) : writeAt (x ++ List.replicate k cSpace) x.length c = x ++ c :: List.replicate (k - 1) cSpace := by
  unfold writeAt
  have h : x.length - (x ++ List.replicate k cSpace).length = 0 := by simp
  rw [h]
  simp [List.drop_append]

theorem Spec.Screen.Shows.char {s : Screen} {x : Str} (h : s.Shows x) {c : UInt8} (hc : isGraphic c = true) : (s.put c).Shows (x ++ [c]) := by
  obtain ⟨h1, h2, k, h3⟩ := h
  rw [put_graphic h1 hc]
  refine ⟨h1, by simp [h2], k - 1, ?_⟩
  rw [h2, h3, writeAt_end]
  simp

theorem Spec.Screen.Shows.text (y : Str) : ∀ {s : Screen} {x : Str}, s.Shows x → Graphic y → (s.feed y).Shows (x ++ y) := by
  induction y with
  | nil => intro s x h _; rw [List.append_nil]; exact h
  | cons c y ih =>
    intro s x h g
    have := ih (h.char (g c (List.mem_cons_self ..))) (fun d hd => g d (List.mem_cons_of_mem _ hd))
    rw [List.append_assoc] at this
    exact this

theorem Spec.Screen.Shows.erase {s : Screen} {x : Str} (hx : x ≠ []) (h : s.Shows x) : (s.feed [cBs, cSpace, cBs]).Shows x.dropLast := by
  obtain ⟨h1, h2, k, h3⟩ := h
  obtain ⟨y, c, rfl⟩ : ∃ y c, x = y ++ [c] := ⟨x.dropLast, x.getLast hx, (List.dropLast_concat_getLast hx).symm⟩
  have e1 : s.put cBs = { s with col := y.length } := by
    unfold Screen.put
    rw [h1]
    simp only [show cBs ≠ cEsc by decide, show cBs ≠ cCr by decide, show cBs ≠ cLf by decide, if_false, if_true]
    rw [h2]
    simp
  have e2 : (s.put cBs).put cSpace = { s with col := y.length + 1, row := y ++ cSpace :: List.replicate k cSpace } := by
    rw [e1, put_graphic (c := cSpace) (by exact h1) (by decide)]
    have : writeAt s.row y.length cSpace = y ++ cSpace :: List.replicate k cSpace := by
      rw [h3]
      unfold writeAt
      simp [List.drop_append]
    simp only [this]
  have e3 : ((s.put cBs).put cSpace).put cBs = { s with col := y.length, row := y ++ cSpace :: List.replicate k cSpace } := by
    rw [e2]
    unfold Screen.put
    simp only [h1, show cBs ≠ cEsc by decide, show cBs ≠ cCr by decide, show cBs ≠ cLf by decide, if_false, if_true]
    rfl
  show (((s.put cBs).put cSpace).put cBs).Shows _
  rw [e3]
  exact ⟨h1, by simp, k + 1, by simp [List.replicate_succ]⟩

theorem put_lf {s : Screen} (h : s.seq = .ground) : s.put cLf = { s with above := s.above ++ [s.row], row := List.replicate s.col cSpace } := by
  unfold Screen.put
  rw [h]
  simp only [show cLf ≠ cEsc by decide, show cLf ≠ cCr by decide, if_false, if_true]

theorem put_cr {s : Screen} (h : s.seq = .ground) : s.put cCr = { s with col := 0 } := by
  unfold Screen.put
  rw [h]
  simp only [show cCr ≠ cEsc by decide, if_false, if_true]

theorem put_esc {s : Screen} (h : s.seq = .ground) : s.put cEsc = { s with seq := .esc } := by
  unfold Screen.put
  rw [h]
  simp only [if_true]

theorem crlf_shows {s : Screen} (h : s.seq = .ground) : (s.feed crlf).Shows [] := by
  show ((s.put cCr).put cLf).Shows []
  rw [put_cr h, put_lf (by exact h)]
  exact ⟨h, rfl, 0, rfl⟩

/-- The screen while a clean text arrives. -/
def Between (n : Next) (s : Screen) : Prop :=
  match n with
  | .any => ∃ x, s.Shows x
  | .bracket => s.seq = .esc ∧ ∃ x, { s with seq := .ground }.Shows x
  | .param => s.seq = .csi ∧ ∃ x, { s with seq := .ground }.Shows x
  | .newline => s.seq = .ground ∧ s.col = 0

theorem Between.byte {n m : Next} {s : Screen} {c : UInt8} (h : Between n s) (e : n.byte c = some m) : Between m (s.put c) := by
  cases n with
  | any =>
    obtain ⟨x, h⟩ := h
    simp only [Next.byte] at e
    split at e
    · next hc =>
      cases e
      subst hc
      rw [put_esc h.seq]
      exact ⟨rfl, x, ⟨rfl, h.col, h.row⟩⟩
    · split at e
      · next hc =>
        cases e
        subst hc
        rw [put_cr h.seq]
        exact ⟨h.seq, rfl⟩
      · split at e
        · next hc =>
          cases e
          rcases hc with rfl | hc
          · rw [put_lf h.seq]
            exact ⟨List.replicate s.col cSpace, h.seq, by simp, 0, by simp⟩
          · exact ⟨_, h.char hc⟩
        · cases e
  | bracket =>
    obtain ⟨h1, x, h2⟩ := h
    simp only [Next.byte] at e
    split at e
    · next hc =>
      cases e
      subst hc
      unfold Screen.put
      rw [h1]
      exact ⟨rfl, x, ⟨rfl, h2.col, h2.row⟩⟩
    · cases e
  | param =>
    obtain ⟨h1, x, h2⟩ := h
    simp only [Next.byte] at e
    split at e
    · next hc =>
      cases e
      subst hc
      unfold Screen.put
      rw [h1]
      exact ⟨x, ⟨rfl, h2.col, h2.row⟩⟩
    · split at e
      · next hc =>
        cases e
        unfold Screen.put
        rw [h1]
        have : ¬ (0x40 ≤ c ∧ c ≤ 0x7E) := by
          rintro ⟨a, b⟩
          rcases hc with ⟨p, q⟩ | rfl
          · exact absurd (UInt8.le_trans a q) (by decide)
          · exact absurd a (by decide)
        simp only [if_neg this]
        exact ⟨rfl, x, ⟨rfl, h2.col, h2.row⟩⟩
      · cases e
  | newline =>
    obtain ⟨h1, h2⟩ := h
    simp only [Next.byte] at e
    split at e
    · next hc =>
      cases e
      subst hc
      rw [put_lf h1]
      exact ⟨[], h1, h2, 0, by rw [h2]; rfl⟩
    · cases e

theorem Between.feed (x : Str) : ∀ {n m : Next} {s : Screen}, Between n s → x.foldlM Next.byte n = some m → Between m (s.feed x) := by
  induction x with
  | nil => intro n m s h e; cases e; exact h
  | cons c x ih =>
    intro n m s h e
    rw [List.foldlM_cons] at e
    cases hb : n.byte c with
    | none => rw [hb] at e; cases e
    | some k => rw [hb] at e; exact ih (h.byte hb) e

theorem Spec.Screen.Shows.clean {s : Screen} {x y : Str} (h : s.Shows x) (hy : Printable y) : ∃ z, (s.feed y).Shows z :=
  Between.feed y (n := .any) ⟨x, h⟩ hy

theorem csi_params (p : Str) (hp : ∀ c ∈ p, (0x30 ≤ c ∧ c ≤ 0x39) ∨ c = 0x3B) : ∀ s : Screen, s.seq = .csi → s.feed p = s := by
  induction p with
  | nil => intro s _; rfl
  | cons c p ih =>
    intro s h
    have hc := hp c (List.mem_cons_self ..)
    have : ¬ (0x40 ≤ c ∧ c ≤ 0x7E) := by
      rintro ⟨a, b⟩
      rcases hc with ⟨p, q⟩ | rfl
      · exact absurd (UInt8.le_trans a q) (by decide)
      · exact absurd a (by decide)
    have e : s.put c = s := by
      unfold Screen.put
      rw [h]
      simp only [if_neg this]
      rw [← h]
    rw [feed_cons, e]
    exact ih (fun d hd => hp d (List.mem_cons_of_mem _ hd)) s h

theorem style_feed {p : Str} (h : Style p) {s : Screen} (hs : s.seq = .ground) : s.feed p = s := by
  rcases h with rfl | ⟨p, rfl, hp⟩
  · rfl
  · rw [feed_cons, feed_cons, feed_append, put_esc hs]
    have e : ({ s with seq := .esc } : Screen).put 0x5B = { s with seq := .csi } := rfl
    rw [e, csi_params p hp _ rfl]
    show ({ s with seq := .csi } : Screen).put 0x6D = s
    unfold Screen.put
    simp only [show ((0x40 : UInt8) ≤ 0x6D ∧ (0x6D : UInt8) ≤ 0x7E) from by decide, and_self, if_true]
    rw [← hs]

/-- The prompt appears behind what is in the row. -/
theorem Spec.Screen.Shows.prompt {E : Env} {W : World} (ok : Showable E) (hd : Graphic (dirName W.path)) {s : Screen} {x : Str} (h : s.Shows x) :
    (s.feed (W.prompt E)).Shows (x ++ W.promptSeen E) := by
  have g : Graphic (W.promptSeen E) := by
    intro c hc
    simp only [World.promptSeen, List.mem_append] at hc
    rcases hc with (((hc | hc) | hc) | hc) | hc
    · exact (by decide : Graphic b!"[") c hc
    · exact ok.host c hc
    · exact (by decide : Graphic b!" ") c hc
    · exact hd c hc
    · exact (by decide : Graphic b!"]$ ") c hc
  have e : W.prompt E = E.colorMagenta ++ (W.promptSeen E ++ E.styleReset) := by
    simp [World.prompt, promptText, World.promptSeen]
  have t := Screen.Shows.text (W.promptSeen E) h g
  rw [e, feed_append, feed_append, style_feed ok.magenta h.seq, style_feed ok.reset t.seq]
  exact t

/-! ### Answers -/

/-- An answer ends with the prompt. -/
def Prompts (E : Env) (x : Answer) : Prop := ∃ l, x.1 = l ++ outs (x.2.prompt E)

theorem prompts_tells (E : Env) (W : World) (s : Str) : Prompts E (tells E W s) := ⟨outs s, by simp [tells, outs]⟩

theorem prompts_errs (E : Env) (W : World) (s : Status) : Prompts E (errs E W s) := prompts_tells ..

theorem Prompts.after {E : Env} {x : Answer} (h : Prompts E x) (l : List Event) : Prompts E (l ++ x.1, x.2) := by
  obtain ⟨m, h⟩ := h
  exact ⟨l ++ m, by simp [h]⟩

theorem builtinAnswer_prompts (E : Env) (A : App) (T : Talk) (l : List Event) (b : Builtin) (as : List Str) : Prompts E (builtinAnswer E A T l b as) := by
  unfold builtinAnswer
  repeat' split
  all_goals first
    | exact prompts_tells ..
    | exact prompts_errs ..
    | exact ⟨_, rfl⟩
    | exact Prompts.after (prompts_tells ..) [_]
    | exact Prompts.after (prompts_tells ..) _

theorem fileAnswer_prompts (E : Env) (A : App) (T : Talk) (l : List Event) (f : FileDesc) (name : Str) (as : List Str) : Prompts E (fileAnswer E A T l f name as) := by
  unfold fileAnswer
  split
  · exact prompts_errs ..
  · exact Prompts.after (prompts_tells ..) _
  · exact Prompts.after (builtinAnswer_prompts ..) _

theorem lineAnswer_prompts (E : Env) (A : App) (W : World) (c : UInt8) (l : List Event) (argv : List Str) : Prompts E (lineAnswer E A W c l argv) := by
  unfold lineAnswer
  split
  · exact prompts_tells ..
  · next name as =>
    dsimp only
    refine Prompts.after (x := match ((Talk.start W c).run E (A.hook l (name :: as))).1.world.file? name with
      | none => errs E ((Talk.start W c).run E (A.hook l (name :: as))).1.world .cmdSyntaxError
      | some f => fileAnswer E A ((Talk.start W c).run E (A.hook l (name :: as))).1 (l ++ (hookEvents E (name :: as) ++ ((Talk.start W c).run E (A.hook l (name :: as))).2.map .ret)) f name as) ?_ _
    split
    · exact prompts_errs ..
    · exact fileAnswer_prompts ..

theorem Prompts.foretext {E : Env} {x : Answer} (h : Prompts E x) : printed x.1 = foretext E x ++ x.2.prompt E := by
  obtain ⟨l, h⟩ := h
  unfold Spec.foretext
  rw [h, printed_append, printed_outs]
  simp

/-! ### Keys -/

/-- The row of the cursor: the prompt and the line behind `r`. -/
def Rowed (E : Env) (t : Term) (r : Str) : Prop := (display t.log).Shows (r ++ t.world.promptSeen E ++ t.ed.line)

theorem tabs_cases (E : Env) (W : World) (head w : Str) :
    (W.tabs E head w = (head ++ w, [])) ∨ (∃ y, y ≠ [] ∧ W.tabs E head w = (head ++ w ++ y, y) ∧ ∀ c ∈ y, ∃ n ∈ W.considered E w, c ∈ n) ∨
      W.tabs E head w = (head ++ w, crlf ++ (W.offers w).flatMap (· ++ crlf) ++ W.prompt E ++ (head ++ w)) := by
  unfold World.tabs
  by_cases hp : W.grown E w = w
  · by_cases h2 : 2 ≤ (W.offers w).length
    · rw [if_pos ⟨h2, hp⟩, hp]
      exact .inr (.inr rfl)
    · rw [if_neg (fun h => h2 h.1), hp]
      exact .inl (by simp)
  · rw [if_neg (fun h => hp h.2)]
    obtain ⟨y, hy⟩ := grown_prefix E W w
    refine .inr (.inl ⟨y, ?_, ?_, ?_⟩)
    · rintro rfl
      exact hp (by rw [← hy]; simp)
    · rw [← hy]; simp
    · intro c hc
      rcases grown_from E W w with h | ⟨n, hn, h⟩
      · exact absurd h hp
      · exact ⟨n, hn, h.subset (by rw [← hy]; exact List.mem_append_right _ hc)⟩

theorem offers_considered (E : Env) (W : World) (w : Str) : ∀ n ∈ W.offers w, n ∈ W.considered E w :=
  fun _ h => List.mem_flatMap.mpr ⟨w, growth_mem _ _, h⟩

theorem rows_shows (cs : List Str) (g : ∀ n ∈ cs, Graphic n) : ∀ {s : Screen}, s.Shows [] → (s.feed (cs.flatMap (· ++ crlf))).Shows [] := by
  induction cs with
  | nil => intro s h; exact h
  | cons n cs ih =>
    intro s h
    rw [List.flatMap_cons, feed_append, feed_append]
    exact ih (fun m hm => g m (List.mem_cons_of_mem _ hm)) (crlf_shows (Screen.Shows.text n h (g n (List.mem_cons_self ..))).seq)

/-- Every byte of the line can be shown. -/
def LineSeen (t : Term) : Prop := Graphic t.ed.line

theorem Graphic.append {x y : Str} (h : Graphic x) (k : Graphic y) : Graphic (x ++ y) := fun c hc => (List.mem_append.mp hc).elim (h c) (k c)

theorem enterEcho_clean {c : UInt8} (h : isEnter c = true) : Printable (enterEcho c) := by
  have : c = cCr ∨ c = cLf := by simpa [isEnter] using h
  rcases this with rfl | rfl <;> decide

theorem clean_append {x y : Str} (h : Printable x) (k : Printable y) : Printable (x ++ y) := by
  unfold Printable at h k ⊢
  rw [List.foldlM_append, h]
  exact k

/-- A clean text with a line end. -/
theorem ends_shows {s : Screen} {x y : Str} (h : s.Shows x) (hy : Printable (y ++ crlf)) : (s.feed (y ++ crlf)).Shows [] := by
  unfold Printable at hy
  rw [List.foldlM_append] at hy
  cases hn : y.foldlM Next.byte .any with
  | none => rw [hn] at hy; cases hy
  | some n =>
    rw [hn] at hy
    have b := Between.feed y (n := .any) ⟨x, h⟩ hn
    have : n = .any := by
      cases n
      · rfl
      all_goals exact absurd hy (by decide)
    subst this
    obtain ⟨z, b⟩ := b
    rw [feed_append]
    exact crlf_shows b.seq

/-- A key. -/
theorem rowed_key {E : Env} (ok : Showable E) (A : App) {t : Term} {r : Str} (h : Rowed E t r) (hl : LineSeen t) {c : UInt8} (hc : t.Neat E A c) :
    ∃ r', Rowed E (t.key E A c) r' ∧ LineSeen (t.key E A c) ∧ (t.Ends E A c → r = [] → r' = []) := by
  obtain ⟨hd, hc⟩ := hc
  unfold Term.key at hd ⊢
  unfold Rowed at h ⊢
  unfold LineSeen at hl ⊢
  split at hd
  · next e =>
    rw [if_pos e]
    have k1 : (display t.log).feed (b!"^C" ++ crlf) |>.Shows [] := by
      rw [feed_append]
      exact crlf_shows (Screen.Shows.text b!"^C" h (by decide)).seq
    refine ⟨[], ?_, fun c hc => (nomatch hc), fun _ _ => rfl⟩
    show (display (t.log ++ .inp c :: outs (b!"^C" ++ crlf ++ t.world.prompt E))).Shows _
    rw [display_append, printed_inp, printed_outs, feed_append]
    rw [List.append_nil]
    exact k1.prompt (W := t.world) ok hd
  · next e =>
    rw [if_neg e] at hc ⊢
    split at hd
    · next e2 =>
      rw [if_pos e2] at hc ⊢
      split at hd
      · next e3 =>
        rw [if_pos e3]
        have g := hc e3
        have hline : t.ed.line = (tabTarget t.ed.line).1 ++ (tabTarget t.ed.line).2 := (tabTarget_split _).1
        have hnul : cNul ∉ t.ed.line := fun h => absurd (hl _ h) (by decide)
        dsimp only at hd ⊢
        rw [press_plain hnul]
        rcases tabs_cases E t.world (tabTarget t.ed.line).1 (tabTarget t.ed.line).2 with k | ⟨y, -, k, hy⟩ | k
        · rw [k]
          refine ⟨r, ?_, ?_, fun _ h => h⟩
          · show (display (t.log ++ .inp c :: outs [])).Shows _
            rw [display_append, printed_inp, printed_outs, feed_nil]
            show (display t.log).Shows (r ++ t.world.promptSeen E ++ ((tabTarget t.ed.line).1 ++ (tabTarget t.ed.line).2))
            rw [← hline]
            exact h
          · show Graphic ((tabTarget t.ed.line).1 ++ (tabTarget t.ed.line).2)
            rw [← hline]
            exact hl
        · rw [k]
          have gy : Graphic y := fun c hc => by
            obtain ⟨n, hn, h⟩ := hy c hc
            exact g n hn c h
          refine ⟨r, ?_, ?_, fun _ h => h⟩
          · show (display (t.log ++ .inp c :: outs y)).Shows (r ++ t.world.promptSeen E ++ ((tabTarget t.ed.line).1 ++ (tabTarget t.ed.line).2 ++ y))
            rw [display_append, printed_inp, printed_outs, ← hline, ← List.append_assoc]
            exact Screen.Shows.text y h gy
          · show Graphic ((tabTarget t.ed.line).1 ++ (tabTarget t.ed.line).2 ++ y)
            rw [← hline]
            exact Graphic.append hl gy
        · rw [k]
          have k1 := rows_shows _ (fun n hn => g n (offers_considered E _ _ n hn)) (crlf_shows h.seq)
          rw [← feed_append] at k1
          refine ⟨[], ?_, ?_, fun _ _ => rfl⟩
          · show (display (t.log ++ .inp c :: outs (crlf ++ _ ++ t.world.prompt E ++ ((tabTarget t.ed.line).1 ++ (tabTarget t.ed.line).2)))).Shows
              ([] ++ t.world.promptSeen E ++ ((tabTarget t.ed.line).1 ++ (tabTarget t.ed.line).2))
            rw [display_append, printed_inp, printed_outs, ← hline, feed_append, feed_append]
            exact Screen.Shows.text _ (k1.prompt ok hd) hl
          · show Graphic ((tabTarget t.ed.line).1 ++ (tabTarget t.ed.line).2)
            rw [← hline]
            exact hl
      · next e3 =>
        rw [if_neg e3]
        refine ⟨r, ?_, hl, fun _ h => h⟩
        show (display (t.log ++ [.inp c])).Shows _
        rw [display_append]
        exact h
    · next e2 =>
      rw [if_neg e2] at hc ⊢
      split at hd
      · next e3 =>
        rw [if_pos e3] at hc ⊢
        have hp := (lineAnswer_prompts E A t.world c (t.log ++ .inp c :: outs (enterEcho c)) (words (sent E.inSize t.ed.line))).foretext
        have he : isEnter c = true := (Bool.and_eq_true .. ▸ e3).1
        obtain ⟨z, k1⟩ := h.clean (enterEcho_clean he)
        obtain ⟨z2, k2⟩ := k1.clean hc
        have e4 : display (t.log ++ (.inp c :: outs (enterEcho c) ++ (t.answer E A c).1)) =
            (((display t.log).feed (enterEcho c)).feed (foretext E (t.answer E A c))).feed ((t.answer E A c).2.prompt E) := by
          rw [display_append, printed_append, printed_inp, printed_outs, feed_append, ← feed_append _ (foretext E _)]
          exact congrArg _ hp
        have goal : ∀ z, (((display t.log).feed (enterEcho c)).feed (foretext E (t.answer E A c))).Shows z →
            (display (t.log ++ (.inp c :: outs (enterEcho c) ++ (t.answer E A c).1))).Shows (z ++ (t.answer E A c).2.promptSeen E ++ []) := by
          intro z hz
          rw [e4, List.append_nil]
          exact hz.prompt ok hd
        by_cases hends : t.Ends E A c
        · obtain ⟨y, hy⟩ := hends e3
          have k3 : (((display t.log).feed (enterEcho c)).feed (foretext E (t.answer E A c))).Shows [] := by
            rw [← feed_append, ← hy]
            refine ends_shows h ?_
            rw [hy]
            exact clean_append (enterEcho_clean he) hc
          exact ⟨[], goal _ k3, fun c hc => (nomatch hc), fun _ _ => rfl⟩
        · exact ⟨z2, goal _ k2, fun c hc => (nomatch hc), fun h => absurd h hends⟩
      · next e3 =>
        rw [if_neg e3] at hc ⊢
        dsimp only
        have key : ∀ e o, t.ed.key E.inSize c = (e, o) → ((display t.log).feed o).Shows (r ++ t.world.promptSeen E ++ e.line) → Graphic e.line →
            ∃ r', (display (t.add (.inp c :: outs (t.ed.key E.inSize c).2)).log).Shows (r' ++ t.world.promptSeen E ++ (t.ed.key E.inSize c).1.line) ∧
              Graphic (t.ed.key E.inSize c).1.line ∧ (t.Ends E A c → r = [] → r' = []) := by
          intro e o he hs hg
          refine ⟨r, ?_, by rw [he]; exact hg, fun _ h => h⟩
          show (display (t.log ++ _)).Shows _
          rw [display_append, printed_inp, printed_outs, he]
          exact hs
        by_cases ce : isErase c = true
        · by_cases cl : t.ed.line = []
          · exact key t.ed [] (by unfold Editor.key; rw [if_pos ce, if_pos cl]) h hl
          · refine key { t.ed with line := t.ed.line.dropLast } [cBs, cSpace, cBs] (by unfold Editor.key; rw [if_pos ce, if_neg cl]) ?_ (fun c hc => hl c ((List.dropLast_subset _) hc))
            have := h.erase (by simp [cl])
            rwa [List.dropLast_append_of_ne_nil cl] at this
        · by_cases cs : c = cEsc
          · exact key { t.ed with esc := .esc } [] (by unfold Editor.key; rw [if_neg ce, if_pos cs]) h hl
          · cases ht : t.ed.esc with
            | esc => exact key { t.ed with esc := if c = 0x5B ∨ c = 0x4F then .bracket else .none } [] (by unfold Editor.key; rw [if_neg ce, if_neg cs, ht]) h hl
            | bracket => exact key { t.ed with esc := .none } [] (by unfold Editor.key; rw [if_neg ce, if_neg cs, ht]) h hl
            | none =>
              have : isGraphic c = true ∧ t.ed.line.length + 1 < E.inSize := by
                rcases hc with k | k | k | k
                · exact absurd k ce
                · exact absurd k cs
                · exact absurd ht k
                · exact k
              have cn : c ≠ cNul := by rintro rfl; exact absurd this.1 (by decide)
              refine key { t.ed with line := t.ed.line ++ [c] } [c] (by unfold Editor.key; rw [if_neg ce, if_neg cs, ht]; simp only [if_pos this.2, if_neg cn]; rw [← ht]) ?_
                (Graphic.append hl (fun d hd => by cases List.mem_singleton.mp hd; exact this.1))
              have k := h.char this.1
              rwa [List.append_assoc] at k

/-! ### What the built-in commands print -/

theorem clean_graphic {x : Str} (h : Graphic x) : Printable x := by
  unfold Printable
  induction x with
  | nil => rfl
  | cons c x ih =>
    have hc := h c (List.mem_cons_self ..)
    obtain ⟨h1, h2, -⟩ := graphic_facts hc
    have : Next.any.byte c = some .any := by simp only [Next.byte, if_neg h1, if_neg h2, hc, or_true, if_true]
    rw [List.foldlM_cons, this]
    exact ih (fun d hd => h d (List.mem_cons_of_mem _ hd))

theorem clean_style {x : Str} (h : Style x) : Printable x := by
  rcases h with rfl | ⟨p, rfl, hp⟩
  · rfl
  · have : ∀ p : Str, (∀ c ∈ p, (0x30 ≤ c ∧ c ≤ 0x39) ∨ c = 0x3B) → (p ++ [0x6D]).foldlM Next.byte .param = some .any := by
      intro p
      induction p with
      | nil => intro _; rfl
      | cons c p ih =>
        intro hp
        have hc := hp c (List.mem_cons_self ..)
        have hm : c ≠ 0x6D := by
          rintro rfl
          exact absurd hc (by decide)
        have : Next.param.byte c = some .param := by simp only [Next.byte, if_neg hm, if_pos hc]
        rw [List.cons_append, List.foldlM_cons, this]
        exact ih (fun d hd => hp d (List.mem_cons_of_mem _ hd))
    exact this p hp

theorem rows_nil : Rows [] := ⟨rfl, .inl rfl⟩

theorem rows_of {x : Str} (h : Printable x) : Rows (x ++ crlf) := ⟨clean_append h (by decide), .inr ⟨x, rfl⟩⟩

theorem rows_append {x y : Str} (h : Rows x) (k : Rows y) : Rows (x ++ y) := by
  refine ⟨clean_append h.1 k.1, ?_⟩
  rcases k.2 with rfl | k
  · rw [List.append_nil]; exact h.2
  · exact .inr (k.trans (List.suffix_append ..))

theorem rows_flatMap {α : Type} (l : List α) (f : α → Str) (h : ∀ a ∈ l, Rows (f a)) : Rows (l.flatMap f) := by
  induction l with
  | nil => exact rows_nil
  | cons a l ih =>
    rw [List.flatMap_cons]
    exact rows_append (h a (List.mem_cons_self ..)) (ih (fun b hb => h b (List.mem_cons_of_mem _ hb)))

theorem graphic_replicate (n : Nat) : Graphic (List.replicate n cSpace) := fun c hc => by
  rw [(List.mem_replicate.mp hc).2]; decide

theorem fileRow_rows {E : Env} {W : World} (L : W.Legible E) {f : FileDesc} (hf : f ∈ W.files) {x : Str} (hx : Graphic x) : Rows (x ++ fileRow E f) := by
  unfold fileRow rowHead
  have n := L.names f hf
  cases hd : f.description with
  | none =>
    have : x ++ (f.name ++ [] ++ crlf) = x ++ f.name ++ crlf := by simp
    dsimp only
    rw [this]
    exact rows_of (clean_graphic (Graphic.append hx n))
  | some d =>
    dsimp only
    have : x ++ (padRight E.alignSpace f.name ++ b!" " ++ E.colorYellow ++ b!"- " ++ (d ++ E.styleReset) ++ crlf) =
        (x ++ padRight E.alignSpace f.name ++ b!" ") ++ E.colorYellow ++ (b!"- " ++ d) ++ E.styleReset ++ crlf := by simp
    rw [this]
    refine rows_of (clean_append (clean_append (clean_append (clean_graphic ?_) (clean_style L.yellow)) (clean_graphic ?_)) (clean_style L.reset))
    · exact Graphic.append (Graphic.append hx (Graphic.append n (graphic_replicate _))) (by decide)
    · exact Graphic.append (by decide) (L.descriptions f hf d hd)

theorem dirRow_rows {E : Env} {W : World} (L : W.Legible E) {x : Str} (hx : Graphic x) : Rows (dirRow E x) := by
  unfold dirRow
  exact rows_of (clean_append (clean_append (clean_append (by decide) (clean_style L.green)) (clean_graphic hx)) (clean_style L.reset))

theorem flags_graphic (f : FileDesc) : Graphic (flags f) := by
  have h : ∀ (c : Char), isGraphic (UInt8.ofNat c.toNat) = true → ∀ {α : Type} (x : Option α), isGraphic (flag c x) = true := by
    intro c hc α x
    unfold flag
    split
    · exact hc
    · decide
  intro c hc
  simp only [flags, List.mem_cons, List.not_mem_nil, or_false] at hc
  rcases hc with rfl | rfl | rfl | rfl | rfl | rfl
  · decide
  · exact h 'r' (by decide) _
  · exact h 'w' (by decide) _
  · exact h 'x' (by decide) _
  · exact h 'h' (by decide) _
  · decide

theorem lsText_rows {E : Env} {W : World} (L : W.Legible E) {m : Mount} (hm : m ∈ W.dirs) : Rows (lsText E W.tree m) := by
  unfold lsText
  refine rows_append (rows_append (rows_append (dirRow_rows L (by decide)) ?_) (rows_flatMap _ _ ?_)) (rows_flatMap _ _ ?_)
  · split
    · exact rows_nil
    · exact dirRow_rows L (by decide)
  · intro k hk
    refine dirRow_rows L (Graphic.append ?_ (by decide))
    have hk := mem_dirs_of_tree (W := W) (under_mem hk).1
    cases h : k.path.getLast? with
    | none => exact fun c hc => (nomatch hc)
    | some c => exact L.paths k hk c (List.mem_of_getLast? h)
  · intro f hf
    exact fileRow_rows L (List.mem_append_right _ (List.mem_flatMap.mpr ⟨m, hm, hf⟩)) (flags_graphic f)

theorem helpText_rows {E : Env} {W : World} (L : W.Legible E) : Rows (helpText E W) :=
  rows_flatMap _ _ (fun _ hf => fileRow_rows L (x := []) (List.mem_append_left _ hf) (fun _ hc => (nomatch hc)))

theorem hexFixed_graphic (w : Nat) : ∀ n, Graphic (hexFixed w n) := by
  induction w with
  | zero => intro n c hc; cases hc
  | succ w ih =>
    intro n
    refine Graphic.append (ih _) (fun c hc => ?_)
    cases List.mem_singleton.mp hc
    have : ∀ k < 16, isGraphic (hexChar k) = true := by decide
    exact this _ (Nat.mod_lt _ (by decide))

theorem hexCols_graphic (n : Nat) : ∀ bs, Graphic (hexCols n bs) := by
  induction n with
  | zero => intro _ c hc; cases hc
  | succ n ih =>
    intro bs
    cases bs with
    | nil => exact Graphic.append (by decide) (ih _)
    | cons b bs => exact Graphic.append (Graphic.append (hexFixed_graphic _ _) (by decide)) (ih _)

theorem textCols_graphic (n : Nat) : ∀ bs, Graphic (textCols n bs) := by
  induction n with
  | zero => intro _ c hc; cases hc
  | succ n ih =>
    intro bs
    cases bs with
    | nil => exact Graphic.append (by decide) (ih _)
    | cons b bs =>
      intro c hc
      rcases List.mem_cons.mp hc with rfl | hc
      · have : ∀ k < 256, isGraphic (if 32 ≤ (UInt8.ofNat k).toNat ∧ (UInt8.ofNat k).toNat ≤ 126 then UInt8.ofNat k else 46) = true := by decide +kernel
        have := this b.toNat b.toNat_lt
        rwa [UInt8.ofNat_toNat] at this
      · exact ih _ c hc

theorem xxdRow_rows (cols off : Nat) (bs : Str) : Rows (xxdRow cols off bs) :=
  rows_of (clean_graphic (Graphic.append (Graphic.append (Graphic.append (Graphic.append (hexFixed_graphic _ _) (by decide)) (hexCols_graphic _ _)) (by decide)) (textCols_graphic _ _)))

theorem xxdRows_rows (cols n : Nat) : ∀ off d, Rows (xxdRows cols n off d) := by
  induction n with
  | zero => intro _ _; exact rows_nil
  | succ n ih =>
    intro off d
    refine rows_append (xxdRow_rows ..) ?_
    split
    · exact rows_nil
    · exact ih _ _

theorem render_graphic {p : List Str} (h : ∀ c ∈ p, Graphic c) : Graphic (render p) := by
  unfold render
  split
  · decide
  · intro c hc
    obtain ⟨x, hx, hc⟩ := List.mem_flatMap.mp hc
    rcases List.mem_cons.mp hc with rfl | hc
    · decide
    · exact h x hx c hc

theorem foretext_tells (E : Env) (W : World) (s : Str) : foretext E (tells E W s) = s := by
  unfold foretext tells
  dsimp only
  rw [printed_outs]
  simp

theorem printed_rets (l : List Status) : printed (l.map .ret) = [] := by
  induction l with
  | nil => rfl
  | cons a l ih => exact ih

theorem foretext_after {E : Env} {l a : List Event} {W : World} (hl : printed l = []) : foretext E (l ++ a, W) = foretext E (a, W) := by
  unfold foretext
  dsimp only
  rw [printed_append, hl, List.nil_append]

theorem errs_rows {E : Env} {W V : World} (L : W.Legible E) (s : Status) : Rows (foretext E (errs E V s)) := by
  unfold errs
  rw [foretext_tells]
  exact rows_of (clean_graphic (L.status s))

theorem printed_catLog (rs : List (Nat × Str)) : printed (catLog rs) = rs.flatMap (·.2) := by
  induction rs with
  | nil => rfl
  | cons r rs ih =>
    show printed (.getData r.1 :: outs r.2 ++ catLog rs) = r.2 ++ rs.flatMap (·.2)
    rw [printed_append, ih]
    congr 1
    exact printed_outs r.2

theorem builtinAnswer_rows {E : Env} (A : App) (T : Talk) (L : T.world.Legible E) (l : List Event) (b : Builtin) (as : List Str) (h : builtinRows E A T l b as) :
    Rows (foretext E (builtinAnswer E A T l b as)) := by
  have hpath : ∀ c ∈ T.world.path, Graphic c := by
    intro c hc
    unfold World.path at hc
    cases hw : T.world.cwd with
    | none => rw [hw] at hc; cases hc
    | some m => rw [hw] at hc; exact L.paths m (mem_dirs.mpr (.inr hw)) c hc
  unfold builtinAnswer
  split
  · rw [foretext_tells]; exact rows_of (clean_graphic (render_graphic hpath))
  · split
    · rw [foretext_tells]; exact h
    · exact errs_rows L _
  · split
    · exact errs_rows L _
    · have : ∀ x, foretext E (catLog x ++ outs (T.world.prompt E), T.world) = printed (catLog x) := by
        intro x
        unfold foretext
        dsimp only
        rw [printed_append, printed_outs]
        simp
      rw [this, printed_catLog]
      exact rows_flatMap _ _ h
  · split
    · exact errs_rows L _
    · split
      · exact errs_rows L _
      · next id _ =>
        show Rows (foretext E ([.getData id] ++ (tells E T.world (xxdText E.xxdColumns (A.get id l))).1, T.world))
        rw [foretext_after rfl]
        show Rows (foretext E (tells E T.world (xxdText E.xxdColumns (A.get id l))))
        rw [foretext_tells]
        exact xxdRows_rows ..
  · split
    · exact errs_rows L _
    · next m hm => rw [foretext_tells]; exact lsText_rows L (mem_dirs.mpr (.inr hm))
  · split
    · exact errs_rows L _
    · next m hm => rw [foretext_tells]; exact lsText_rows L (mem_dirs_of_tree (List.mem_of_find?_eq_some hm))
  · rw [foretext_tells]; exact helpText_rows L
  · split
    · exact errs_rows L _
    · next g hg =>
      split
      · exact errs_rows L _
      · next x hx => rw [foretext_tells]; exact L.helps g (file?_files hg) x hx
  · rw [foretext_tells]; exact rows_of (x := []) rfl
  · rw [foretext_tells]; exact rows_of h
  · split
    · exact errs_rows L _
    · split
      · exact errs_rows L _
      · split
        · exact errs_rows L _
        · next g hg _ id hid =>
          dsimp only
          generalize hr : T.run E (A.set id l (decodeSpec _)) = r at h ⊢
          rw [foretext_after (show printed (.setData id (decodeSpec _) :: r.2.map .ret) = [] from printed_rets r.2)]
          show Rows (foretext E (tells E r.1.world r.1.output))
          rw [foretext_tells]
          simp only [builtinRows, hg, hid, Option.bind_some] at h
          rw [← hr]
          exact h
  · exact errs_rows L _

theorem printed_hook (E : Env) (argv : List Str) : printed (hookEvents E argv) = [] := by
  unfold hookEvents
  split <;> rfl

theorem fileAnswer_rows {E : Env} (A : App) (T : Talk) (L : T.world.Legible E) (l : List Event) (f : FileDesc) (name : Str) (as : List Str)
    (h : match f.exec with
      | none => True
      | some (.user id) => Rows (T.run E (A.exec id (l ++ [.exec (.user id) (name :: as)]) (name :: as))).1.output
      | some (.builtin b) => builtinRows E A T (l ++ [.exec (.builtin b) (name :: as)]) b as) : Rows (foretext E (fileAnswer E A T l f name as)) := by
  unfold fileAnswer
  rcases he : f.exec with _ | b | id
  · exact errs_rows L _
  · rw [he] at h
    dsimp only at h ⊢
    rw [foretext_after (show printed [.exec (.builtin b) (name :: as)] = [] from rfl)]
    exact builtinAnswer_rows A _ L _ b as h
  · rw [he] at h
    dsimp only at h ⊢
    generalize T.run E (A.exec id (l ++ [.exec (.user id) (name :: as)]) (name :: as)) = r at h ⊢
    rw [foretext_after (by rw [printed_append, printed_rets]; rfl)]
    exact (congrArg Rows (foretext_tells ..)).mpr h

theorem lineAnswer_rows {E : Env} (A : App) (W : World) (c : UInt8) (l : List Event) (argv : List Str) (h : lineRows E A W c l argv) :
    Rows (foretext E (lineAnswer E A W c l argv)) := by
  cases argv with
  | nil =>
    show Rows (foretext E (tells E W []))
    rw [foretext_tells]
    exact rows_nil
  | cons name as =>
    unfold lineAnswer
    unfold lineRows at h
    dsimp only at h ⊢
    generalize (Talk.start W c).run E (A.hook l (name :: as)) = r at h ⊢
    obtain ⟨L, h⟩ := h
    rw [foretext_after (by rw [printed_append, printed_hook, printed_rets]; rfl)]
    rcases hf : r.1.world.file? name with _ | f
    · exact errs_rows L _
    · rw [hf] at h
      exact fileAnswer_rows A r.1 L _ f name as h

end Ush
