import Verif.Props.Line
import Verif.Props.Start
import Verif.Props.Tree
/-!
# C46 Switched-off features

The feature switches of the configuration: `E.autocomplete` (TAB), `E.commandsOn` (built-in commands at all), `E.cmdOn b` (one
built-in command).  All theorems of the other files hold for all values of the switches, unless they say otherwise.
-/
namespace Ush.Props
open Spec

/-- TAB without the feature: nothing happens. -/
theorem tab_off {E : Env} {W : World} {u : Ush} {e : Editor} (off : E.autocomplete = false) (H : Waiting E W u e) (i : List UInt8) :
    ∃ v, Run E u (cTab :: i) v i [.inp cTab] ∧ Waiting E W v e := by
  refine ⟨u.emit (.inp cTab), ⟨drive1_read (b := true) H.toHolds.current H.shows.state (by unfold readChar; rw [off]; rfl), rfl⟩, ?_⟩
  exact { toHolds := H.toHolds.same ⟨rfl, rfl, rfl, rfl⟩ ⟨H.sized.inLen, H.sized.outLen⟩
          shows := ⟨H.shows.state, H.shows.esc, H.shows.pos, H.shows.buf⟩
          clean := H.clean }

/-- Without TAB completion the TAB key is ignored: line and echo are those of the other keys. -/
theorem C46_tab_ignored (E : Env) (cfg : Config E) (off : E.autocomplete = false) (W : World) (inp : List UInt8) : ∀ (cs : Str) (u : Ush) (e : Editor),
    Waiting E W u e → e.takesAll E.inSize (cs.filter (· ≠ cTab)) = true →
    ∃ v l, Steps E u (cs ++ inp) v inp ∧ Waiting E W v (e.keys E.inSize (cs.filter (· ≠ cTab))).1 ∧ v.log = u.log ++ l ∧
      l.filter (· ≠ .inp cTab) = (e.keys E.inSize (cs.filter (· ≠ cTab))).2 := by
  intro cs
  induction cs with
  | nil => intro u e H _; exact ⟨u, [], Steps.refl _ _ _, H, by simp, rfl⟩
  | cons c cs ih =>
    intro u e H ht
    by_cases hc : c = cTab
    · subst hc
      simp only [ne_eq, not_true_eq_false, decide_false, Bool.false_eq_true, not_false_eq_true, List.filter_cons_of_neg] at ht ⊢
      obtain ⟨v, r, Hv⟩ := tab_off off H (cs ++ inp)
      obtain ⟨w, l, s, Hw, hl, hf⟩ := ih v e Hv ht
      exact ⟨w, .inp cTab :: l, r.steps.trans s, Hw, by rw [hl, r.log]; simp, by simpa using hf⟩
    · have hcs : (c :: cs).filter (· ≠ cTab) = c :: cs.filter (· ≠ cTab) := by simp [hc]
      rw [hcs] at ht ⊢
      simp only [Editor.takesAll, Bool.and_eq_true] at ht
      obtain ⟨v, r, Hv⟩ := H.keys cfg [c] (cs ++ inp) (by simp [Editor.takesAll, ht.1])
      obtain ⟨w, l, s, Hw, hl, hf⟩ := ih v _ Hv ht.2
      refine ⟨w, (e.keys E.inSize [c]).2 ++ l, r.steps.trans s, Hw, by rw [hl, r.log]; simp, ?_⟩
      rw [List.filter_append, hf]
      simp [Editor.keys, List.filter_map, Function.comp_def, hc]

theorem filter_names (p : FileDesc → Bool) (f : FileDesc) (l : List FileDesc) :
    ((f :: l).filter p).map (·.name) = (if p f then [f.name] else []) ++ (l.filter p).map (·.name) := by
  rw [List.filter_cons]
  split <;> rfl

/-- The built-in commands that the shell has, by name. -/
theorem C46_table (E : Env) : (builtinTable E).map (·.name) =
    (if E.cmdOn .help then [b!"help"] else []) ++ (if E.cmdOn .ls then [b!"ls"] else []) ++ (if E.cmdOn .cd then [b!"cd"] else []) ++
    (if E.cmdOn .pwd then [b!"pwd"] else []) ++ (if E.cmdOn .cat then [b!"cat"] else []) ++ (if E.cmdOn .xxd then [b!"xxd"] else []) ++
    (if E.cmdOn .echo then [b!"echo"] else []) := by
  unfold builtinTable builtinCommands
  simp only [filter_names, List.filter_nil, List.map_nil, List.append_nil, List.append_assoc]
  rfl

/-- After `ush_init` the shell has the enabled commands, or none at all. -/
theorem C46_init (E : Env) (hc : CfgOk E) (u : Ush) (hr : Reached E [] u) :
    Walk u.nodes u.commands (if E.commandsOn then [⟨0, builtinTable E⟩] else []) := by
  obtain ⟨st, -, -, h⟩ := C12_groups E hc [] u hr
  simpa [groupsAfter] using h

/-- The name of a built-in command that is not enabled (or, without `USH_CONFIG_ENABLE_FEATURE_COMMANDS`, of any) and that the
application does not use itself: 'syntax error', as for any other unknown word; no callback but the hook runs. -/
theorem C46_disabled (E : Env) (cfg : Config E) (W : World) (u : Ush) (e : Editor) (H : Waiting E W u e) (hesc : e.esc = .none)
    (c : UInt8) (hen : c = cLf ∨ c = cCr) (hin : 2 ≤ E.inSize)
    (f : FileDesc) (hf : f ∈ builtinCommands) (hoff : E.commandsOn = true → E.has f = false) (as : List Str) (hw : words (sent E.inSize e.line) = f.name :: as) (hq : QuietHook E)
    (gs : Groups) (hg : W.groups = gs ++ (if E.commandsOn then [⟨0, builtinTable E⟩] else []))
    (hn : ∀ g ∈ gs, ∀ f' ∈ g.files, f'.name ≠ f.name) (hr : W.Room E f.name) (ht : W.tree.findFile (resolveText W.path f.name) = none) (inp : List UInt8) :
    ∃ v, Steps E u (c :: inp) v inp ∧ Waiting E W v {} ∧
      v.log = u.log ++ .inp c :: outs (enterEcho c) ++ hookEvents E (f.name :: as) ++ outs (statusString E.tr .cmdSyntaxError ++ crlf ++ W.prompt E) := by
  have hs : HookSays E (u.log ++ .inp c :: outs (enterEcho c)) (f.name :: as) [] := by
    unfold HookSays
    cases hk : E.hook with
    | none => rfl
    | some h => exact fun v _ => hq h hk _ v
  have hf : W.file? f.name = none := by
    unfold World.file? Groups.files
    rw [ht, Option.or_none, List.find?_eq_none, hg, List.flatMap_append]
    intro x hx
    rcases List.mem_append.mp hx with hx | hx
    · obtain ⟨g, hg, hx⟩ := List.mem_flatMap.mp hx
      simpa using hn g hg x hx
    · split at hx
      · next hon =>
        simp only [List.flatMap_cons, List.flatMap_nil, List.append_nil] at hx
        obtain ⟨h1, h2⟩ := List.mem_filter.mp hx
        simp only [beq_iff_eq]
        intro h
        have e1 := find_named (by decide) h1
        have e2 := find_named (by decide) hf
        rw [h, e2] at e1
        cases e1
        rw [hoff hon] at h2
        cases h2
      · cases hx
  obtain ⟨v, s, H', hl⟩ := C26_unknown E cfg W u e H hesc c hen hin f.name as hw [] hs trivial H.ok (.inr hr) hf inp
  exact ⟨v, s, H', by rw [hl]; simp [Talk.run, Talk.start]⟩

/-- With the commands feature on and every single command switched off, `ush_init` fails an assertion. -/
theorem C46_none (E : Env) (h1 : 0 < E.inSize) (h2 : 4 ≤ E.outSize) (on : E.commandsOn = true) (off : ∀ b, E.cmdOn b = false) (u : Ush) :
    ushInit E u = .error .assert := by
  have ht : builtinTable E = [] := by
    have := C46_table E
    simpa [off] using this
  have e1 : assertM (decide (E.inSize > 0)) = .ok () := by simp [assertM, h1]
  have e2 : assertM (decide (E.outSize ≥ 4)) = .ok () := by simp [assertM, h2]
  unfold ushInit
  rw [e1, e2, on, ht]
  rfl

/-- A shell without TAB completion that has only `help` and `pwd`. -/
def fE : Env := { sE0 with autocomplete := false, cmdOn := fun b => b == .help || b == .pwd }

def fHist : List FsOp := [.mount [] 1 [], .addGroup 4 [{ name := b!"run", exec := some (.user 1) }]]

/-- A shell without built-in commands. -/
def fE0 : Env := { sE0 with commandsOn := false }

theorem fCfg : CfgOk fE ∧ CfgOk fE0 := ⟨⟨by decide, by decide, by decide, by decide, by decide⟩, ⟨by decide, by decide, by decide, by decide, by decide⟩⟩

theorem fConfig : Config fE ∧ Config fE0 :=
  ⟨⟨by decide, ⟨by decide, by decide, by decide, by decide, by decide, statusString_nul _ (by decide)⟩⟩,
   ⟨by decide, ⟨by decide, by decide, by decide, by decide, by decide, statusString_nul _ (by decide)⟩⟩⟩

example : (builtinTable fE).map (·.name) = [b!"help", b!"pwd"] := C46_table fE

example : ∃ u, Reached fE0 [] u ∧ Walk u.nodes u.commands [] := by
  obtain ⟨u, e, -⟩ := ushInit_blank fCfg.2 [] []
  have hr : Reached fE0 [] u := ⟨trivial, [], [], by show (ushInit fE0 (blank [] []) >>= _) = _; rw [e]; rfl⟩
  exact ⟨u, hr, C46_init fE0 fCfg.2 u hr⟩

example : ushInit { sE0 with cmdOn := fun _ => false } (blank (List.replicate 32 0) (List.replicate 64 0)) = .error .assert :=
  C46_none _ (by decide) (by decide) rfl (fun _ => rfl) _

/-- `l` TAB `s` TAB is `ls`, which this shell does not know. -/
example : ∃ u v w l, Waiting fE (after fE fHist) u {} ∧ Steps fE u (b!"l\ts\t" ++ [cLf]) v [cLf] ∧ Waiting fE (after fE fHist) v ⟨b!"ls", .none⟩ ∧
    Steps fE v [cLf] w [] ∧ w.log = v.log ++ l ∧ l = .inp cLf :: outs (b!"\n" ++ b!"error: syntax error\r\n" ++ (after fE fHist).prompt fE) := by
  obtain ⟨u, H⟩ := boot_waiting fCfg.1 fConfig.1 fHist (by decide) (by decide)
  obtain ⟨v, -, s, Hv, -, -⟩ := C46_tab_ignored fE fConfig.1 rfl _ [cLf] b!"l\ts\t" u {} H (by decide)
  have he : (Editor.keys fE.inSize {} (b!"l\ts\t".filter (· ≠ cTab))).1 = ⟨b!"ls", .none⟩ := by decide
  rw [he] at Hv
  obtain ⟨w, s2, -, hl⟩ := C46_disabled fE fConfig.1 _ v _ Hv rfl cLf (Or.inl rfl) (by decide)
    { name := b!"ls", description := some b!"list directory content", help := some b!"usage: ls [path]\r\n", exec := some (.builtin .ls),
      process := some (.builtin .ls) } (by decide) (by decide) [] (by decide) (fun h hh => by cases hh)
    [⟨4, [{ name := b!"run", exec := some (.user 1) }]⟩] (by decide) (by decide) (by decide) (by decide) []
  exact ⟨u, v, w, _, H, s, Hv, s2, by rw [hl, List.append_assoc, List.append_assoc], by decide⟩

end Ush.Props
