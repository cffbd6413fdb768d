import Verif.Props.Complete
import Verif.Props.Terminal
/-!
# C60: TAB in every case

C27, C28 and C29 say that TAB completes the last word to the longest common prefix of the candidates.  This is not so for a line of one space
and one word, and for the words `.` and `..` where names of directories begin with a dot.  Here is what TAB does in all cases
(`World.tabs` in Spec/Complete.lean): the names offered depend on the word, and characters are added one by one as long as the number of names
offered does not get smaller.  The only conditions are that no NUL has been typed and that the names fit the buffers (`C60_overflow`).
-/
namespace Ush.Props
open Spec

/-- TAB on every line: the line after it and what is printed. -/
theorem C60_tab (E : Env) (on : E.autocomplete = true) (cfg : Config E) (W : World) (u : Ush) (e : Editor) (head w : Str) (ht : tabTarget e.line = (head, w))
    (H : Waiting E W u e) (hnul : cNul ∉ e.line) (hfit : W.TabOk E head w) (inp : List UInt8) :
    ∃ v, Steps E u (cTab :: inp) v inp ∧ Waiting E W v ⟨(W.tabs E head w).1, e.esc⟩ ∧ v.log = u.log ++ .inp cTab :: outs (W.tabs E head w).2 := by
  obtain ⟨v, r, h⟩ := tab_run on cfg H inp hnul (by rw [ht]; exact hfit)
  rw [ht] at r h
  exact ⟨v, r.steps, h, r.log⟩

/-- Whatever the names are, the line begins with what has been typed.  Either nothing is printed but what is added, or the line does not change and
the names offered are printed, one per line, with the prompt and the line behind them. -/
theorem C60_keeps (E : Env) (on : E.autocomplete = true) (cfg : Config E) (W : World) (u : Ush) (e : Editor) (head w : Str) (ht : tabTarget e.line = (head, w))
    (H : Waiting E W u e) (hnul : cNul ∉ e.line) (hfit : W.TabOk E head w) (inp : List UInt8) :
    ∃ v added out, Steps E u (cTab :: inp) v inp ∧ Waiting E W v ⟨e.line ++ added, e.esc⟩ ∧ v.log = u.log ++ .inp cTab :: outs out ∧
      (out = added ∨ (added = [] ∧ 2 ≤ (W.offers w).length ∧ out = crlf ++ (W.offers w).flatMap (· ++ crlf) ++ W.prompt E ++ e.line)) := by
  obtain ⟨v, s, h, l⟩ := C60_tab E on cfg W u e head w ht H hnul hfit inp
  have hl : e.line = head ++ w := by
    have := (tabTarget_split e.line).1
    rwa [ht] at this
  obtain ⟨added, ha⟩ := grown_prefix E W w
  refine ⟨v, added, (W.tabs E head w).2, s, ?_, l, ?_⟩
  · rw [hl, List.append_assoc, ha]
    exact h
  · unfold World.tabs
    by_cases hg : 2 ≤ (W.offers w).length ∧ W.grown E w = w
    · right
      rw [if_pos hg, hl]
      refine ⟨?_, hg.1, rfl⟩
      rw [hg.2] at ha
      simpa using ha
    · left
      rw [if_neg hg, ← ha]
      simp

/-- Where no directory has a name that begins with a dot, this is the completion of C27. -/
theorem C60_ideal (E : Env) (W : World) (head w : Str) (hh : W.Usual w) (ht : W.Typable E head w) :
    W.TabOk E head w ∧ W.tabs E head w = W.complete E head w ∧ W.offers w = W.candidates w :=
  ⟨tabOk_ideal hh ht, tabs_ideal hh (fun c hc => by have := (ht.2 c hc).1; omega), offers_eq hh (List.prefix_refl w)⟩

/-- The names offered: commands, files of the working directory, and the sub-directories of the directory `W.tabDir w`. -/
theorem C60_offers (W : World) (w n : Str) :
    n ∈ W.offers w ↔ w <+: n ∧ ((∃ g ∈ W.groups, ∃ f ∈ g.files, f.name = n) ∨ (∃ m, W.cwd = some m ∧ ∃ f ∈ m.files, f.name = n) ∨
      (∃ d, W.tabDir w = some d ∧ d ∈ W.tree ∧ ∃ m ∈ W.tree, m.path ≠ [] ∧ m.path.dropLast = d.path ∧ m.path.getLast? = some n)) := by
  unfold World.offers
  rw [List.mem_filter, List.isPrefixOf_iff_prefix, and_comm, List.mem_append, List.mem_append, or_assoc]
  refine and_congr_right (fun _ => or_congr ?_ (or_congr ?_ ?_))
  · simp only [Groups.files, List.mem_map, List.mem_flatMap]
    constructor
    · rintro ⟨f, ⟨g, h1, h2⟩, h3⟩; exact ⟨g, h1, f, h2, h3⟩
    · rintro ⟨g, h1, f, h2, h3⟩; exact ⟨f, ⟨g, h1, h2⟩, h3⟩
  · cases W.cwd <;> simp
  · exact mem_below _ _ _

/-- That directory, if the working directory has no component `.` or `..`: for a line that ends in a space it is the working directory, for a word the directory mounted at
its path (the working directory again, if that has not been unmounted), for the word `.` its parent and for the word `..` the parent of its parent.  Where none is mounted it is the
working directory. -/
theorem C60_dir (W : World) (hp : ∀ c ∈ W.path, c ≠ b!"." ∧ c ≠ b!"..") :
    W.tabDir [] = W.cwd ∧
    (∀ w, w ≠ [] → w ≠ b!"." → w ≠ b!".." → W.tabDir w = (W.tree.find W.path).or W.cwd) ∧
    W.tabDir b!"." = (if W.path = [] then W.cwd else (W.tree.find W.path.dropLast).or W.cwd) ∧
    W.tabDir b!".." = (if W.path.length ≤ 1 then W.cwd else (W.tree.find W.path.dropLast.dropLast).or W.cwd) := by
  have h1 : resolve W.path false [b!"."] = W.path := by
    have := normalize_plain _ hp
    unfold resolve
    unfold normalize at this ⊢
    simp only [Bool.false_eq_true, if_false]
    rw [List.foldl_append, this]
    rfl
  have h2 : resolve W.path false [b!".."] = W.path.dropLast := by
    have := normalize_plain _ hp
    unfold resolve
    unfold normalize at this ⊢
    simp only [Bool.false_eq_true, if_false]
    rw [List.foldl_append, this]
    rfl
  refine ⟨by unfold World.tabDir; simp, fun w z a b => tabDir_plain hp z a b, ?_, ?_⟩
  · unfold World.tabDir
    simp only [h1]
    simp
  · unfold World.tabDir
    simp only [h2]
    have e : W.path.dropLast = [] ↔ W.path.length ≤ 1 := by
      rw [← List.length_eq_zero_iff, List.length_dropLast]
      omega
    simp [e]

/-- So it is the working directory itself for all words but `.` and `..`, if it is mounted. -/
theorem C60_dir_mounted (E : Env) (u : Ush) (W : World) (H : WInv E u W) (m : Mount) (hm : W.cwd = some m) (hi : m ∈ W.tree) (hp : ∀ c ∈ W.path, c ≠ b!"." ∧ c ≠ b!"..") (w : Str)
    (h1 : w ≠ b!".") (h2 : w ≠ b!"..") : W.tabDir w = W.cwd := by
  by_cases h0 : w = []
  · rw [h0]; exact (C60_dir W hp).1
  · rw [(C60_dir W hp).2.1 w h0 h1 h2]
    have hpath : W.path = m.path := by unfold World.path; rw [hm]; rfl
    rw [hpath, (find_eq_some H.tree.nodupPath).mpr ⟨hi, rfl⟩, hm]
    rfl

/-- How far the word grows: if a single name is offered, to this name; if none is offered, not at all; otherwise through words that have at least as many names,
and the result cannot grow further. -/
theorem C60_grown (E : Env) (W : World) (w : Str) :
    (∀ c, W.offers w = [c] → W.grown E w = c) ∧ (W.offers w = [] → W.grown E w = w) ∧
    (2 ≤ (W.offers w).length → (W.offers w).length ≤ (W.offers (W.grown E w)).length ∧
      ((∀ c ∈ W.considered E w, c.length < E.inSize) → W.more (W.grown E w) = none)) := by
  refine ⟨fun c h => ?_, fun h => ?_, fun h => ?_⟩
  · unfold World.grown; rw [h]
  · have hm : W.more w = none := by unfold World.more; rw [h]; rfl
    unfold World.grown
    rw [h, growth_none hm]
    rfl
  · have e : W.grown E w = lastOf W E.inSize w := by
      unfold World.grown
      split
      · next c hc => rw [hc] at h; simp at h
      · rfl
    rw [e]
    have step : ∀ x z, W.more x = some z → (W.offers x).length ≤ (W.offers z).length := by
      intro x z hz
      unfold World.more at hz
      obtain ⟨c, -, hz⟩ := Option.bind_eq_some_iff.mp hz
      obtain ⟨a, -, hz⟩ := Option.bind_eq_some_iff.mp hz
      split at hz
      · next hh => cases hz; exact hh.2
      · cases hz
    have main : ∀ k x, (W.offers x).length ≤ (W.offers (lastOf W k x)).length ∧
        ((∀ c ∈ (W.growth k x).flatMap W.offers, c.length < k + x.length) → W.more (lastOf W k x) = none) := by
      intro k
      induction k with
      | zero =>
        intro x
        refine ⟨Nat.le_refl _, fun hs => ?_⟩
        cases hm : W.more x with
        | none => exact hm
        | some z =>
          obtain ⟨h1, h2, c, h3, h4⟩ := more_prefix hm
          have := hs c (List.mem_flatMap.mpr ⟨x, growth_mem _ _, h3⟩)
          have := h4.length_le
          omega
      | succ k ih =>
        intro x
        cases hm : W.more x with
        | none => rw [lastOf_none hm]; exact ⟨Nat.le_refl _, fun _ => hm⟩
        | some z =>
          rw [lastOf_some hm, growth_some hm]
          obtain ⟨i1, i2⟩ := ih z
          refine ⟨(step x z hm).trans i1, fun hs => i2 (fun c hc => ?_)⟩
          have := hs c (by rw [List.flatMap_cons]; exact List.mem_append_right _ hc)
          have := (more_prefix hm).2.1
          omega
    obtain ⟨m1, m2⟩ := main E.inSize w
    exact ⟨m1, fun hs => m2 (fun c hc => by have := hs c hc; omega)⟩

/-- A single name that does not fit is written over the end of the input buffer. -/
theorem C60_overflow (E : Env) (on : E.autocomplete = true) (W : World) (u : Ush) (e : Editor) (head w : Str) (ht : tabTarget e.line = (head, w))
    (H : Waiting E W u e) (hnul : cNul ∉ e.line) (c : Str) (hone : W.offers w = [c]) (hbig : E.inSize ≤ head.length + c.length) (hr : W.Room E w) (inp : List UInt8) :
    ∃ v, Steps E u (cTab :: inp) v inp ∧ ∀ io, service E io v = .error .oob := by
  obtain ⟨h1, h2⟩ := tabTarget_split e.line
  rw [ht] at h1 h2
  obtain ⟨v, r, T, hv⟩ := tab_start on H inp hnul h1 h2
  obtain ⟨w, r2, h⟩ := overflow_run T hv hr inp hone hbig
  exact ⟨w, r.steps.trans r2.steps, h⟩

/-! ### A second TAB -/

/-- What has been completed stays as it is. -/
theorem complete_again (E : Env) (W : World) (head w : Str) (hne : W.candidates w ≠ []) :
    (W.complete E head w).1 = head ++ commonPrefix (W.candidates w) ∧ W.candidates (commonPrefix (W.candidates w)) = W.candidates w ∧
      (W.complete E head (commonPrefix (W.candidates w))).1 = head ++ commonPrefix (W.candidates w) := by
  have hwp : w <+: commonPrefix (W.candidates w) := prefix_commonPrefix hne (fun c hc => candidates_prefix hc)
  have k := candidates_keep hwp (fun c hc => commonPrefix_prefix hc)
  refine ⟨?_, k, ?_⟩
  · unfold World.complete
    simp only
    rw [if_neg hne]
    by_cases h : commonPrefix (W.candidates w) = w
    · rw [if_neg (by simpa using h)]
      split <;> simp [h]
    · rw [if_pos h]
  · unfold World.complete
    simp only [k]
    rw [if_neg hne, if_neg (by simp)]
    split <;> rfl

/-- A second TAB does not change the line: where several names remain, it prints them. -/
theorem C60_again (E : Env) (cfg : Config E) (W : World) (u : Ush) (head w : Str) (es : EscSt) (K : Word E W u head w es) (hne : W.candidates w ≠ [])
    (hsp : ∀ c ∈ W.candidates w, cSpace ∉ c) (hm : head = [cSpace] → commonPrefix (W.candidates w) = []) (inp : List UInt8) :
    ∃ v v', Steps E u (cTab :: cTab :: inp) v (cTab :: inp) ∧ Steps E v (cTab :: inp) v' inp ∧
      Waiting E W v ⟨head ++ commonPrefix (W.candidates w), es⟩ ∧ Waiting E W v' ⟨head ++ commonPrefix (W.candidates w), es⟩ ∧
      v'.log = v.log ++ .inp cTab :: outs (if (W.candidates w).length = 1 then [] else
        crlf ++ (W.candidates w).flatMap (· ++ crlf) ++ W.prompt E ++ (head ++ commonPrefix (W.candidates w))) := by
  obtain ⟨a1, a2, a3⟩ := complete_again E W head w hne
  have hwp : w <+: commonPrefix (W.candidates w) := prefix_commonPrefix hne (fun c hc => candidates_prefix hc)
  obtain ⟨v, s, H, l⟩ := K.tab cfg (cTab :: inp)
  rw [a1] at H
  obtain ⟨c, hc⟩ := List.exists_mem_of_ne_nil _ hne
  have hpc : commonPrefix (W.candidates w) <+: c := commonPrefix_prefix hc
  have hcn := H.toHolds.names_nul c (List.mem_of_mem_filter hc)
  have K2 : Word E W v head (commonPrefix (W.candidates w)) es :=
    { on := K.on, waiting := H, hidden := Usual.mono K.hidden hwp,
      nul := fun h => by
        rcases List.mem_append.mp h with h | h
        · exact K.nul (List.mem_append_left _ h)
        · exact hcn (hpc.subset h)
      word := fun h => hsp c hc (hpc.subset h), front := K.front, more := hm,
      fits := ⟨by
        by_cases h0 : commonPrefix (W.candidates w) = []
        · have hw : w = [] := List.prefix_nil.mp (h0 ▸ hwp)
          rw [h0, ← hw]; exact K.fits.1
        · exact Room.prefix hpc h0 (K.fits.2 c hc).2.1, by rw [a2]; exact K.fits.2⟩ }
  obtain ⟨v', s', H', l'⟩ := K2.tab cfg inp
  rw [a3] at H'
  refine ⟨v, v', s, s', H, H', ?_⟩
  rw [l']
  unfold World.complete
  simp only [a2]
  rw [if_neg hne, if_neg (by simp)]
  split <;> rfl

/-! ### Examples -/

/-- Directories whose names begin with a dot: in `/a`, the word `.` becomes `.r`, the name of a directory of `/`; then nothing is offered, and the line stays. -/
example : (after hE hHist).TabOk hE [] b!"." ∧ ((after hE hHist).tabDir b!".").map Mount.path = some [] ∧ (after hE hHist).offers b!"." = [b!".r"] ∧
    (after hE hHist).tabs hE [] b!"." = (b!".r", b!"r") ∧ (after hE hHist).tabs hE [] b!".r" = (b!".r", []) := by decide

theorem hWaiting : ∃ u, Waiting hE (after hE hHist) u ⟨b!".", .none⟩ := by
  have hc : CfgOk hE := ⟨by decide, by decide, by decide, by decide, by decide⟩
  have cf : Config hE := ⟨by decide, ⟨by decide, by decide, by decide, by decide, by decide, statusString_nul _ (by decide)⟩⟩
  obtain ⟨u0, H0⟩ := boot_waiting hc cf hHist (by decide) (by decide)
  exact typed cf H0 b!"." (by decide) (by decide)

example : ∃ u v, Waiting hE (after hE hHist) u ⟨b!".", .none⟩ ∧ Steps hE u [cTab] v [] ∧ Waiting hE (after hE hHist) v ⟨b!".r", .none⟩ ∧
    v.log = u.log ++ .inp cTab :: outs b!"r" := by
  have cf : Config hE := ⟨by decide, ⟨by decide, by decide, by decide, by decide, by decide, statusString_nul _ (by decide)⟩⟩
  obtain ⟨u, H⟩ := hWaiting
  obtain ⟨v, s, h, l⟩ := C60_tab hE rfl cf (after hE hHist) u _ [] b!"." (by decide) H (by decide) (by decide) []
  have e : (after hE hHist).tabs hE [] b!"." = (b!".r", b!"r") := by decide
  rw [e] at h l
  exact ⟨u, v, H, s, h, l⟩

example : (2 : Nat) ≤ ((after hE hHist).offers []).length ∧ (after hE hHist).Usual b!"a" ∧ ¬ (after hE hHist).Usual b!"." := by decide

/-- TAB twice after `ls d`: the names are printed each time. -/
example : ∃ u v v', Word sE sW u b!"ls " b!"d" .none ∧ Steps sE u [cTab, cTab] v [cTab] ∧ Steps sE v [cTab] v' [] ∧ Waiting sE sW v' ⟨b!"ls d", .none⟩ := by
  obtain ⟨u, K⟩ := sWord b!"ls " b!"d" (by decide) (by decide) (by decide) (by decide) (by decide) (by decide) (by decide) (by decide)
  obtain ⟨v, v', h1, h2, -, h3, -⟩ := C60_again sE sConfig.1 sW u _ _ _ K (by decide) (by decide) (by decide) []
  have e : commonPrefix (sW.candidates b!"d") = b!"d" := by decide
  rw [e] at h3
  exact ⟨u, v, v', K, h1, h2, h3⟩

/-- A name that does not fit: ` noe` in a buffer of 32 bytes with 27 bytes before it. -/
example : tabTarget (List.replicate 26 120 ++ b!" noe") = (List.replicate 26 120 ++ b!" ", b!"noe") ∧ sW.offers b!"noe" = [b!"noexec"] ∧
    sE.inSize ≤ (List.replicate 26 (120 : UInt8) ++ b!" ").length + b!"noexec".length ∧ sW.Room sE b!"noe" := by decide

/-- The other theorems for the same shells: TAB keeps what is typed; the usual names; the directory looked at; the name that does not fit. -/
example : ∃ u v added out, Waiting hE (after hE hHist) u ⟨b!".", .none⟩ ∧ Steps hE u [cTab] v [] ∧ Waiting hE (after hE hHist) v ⟨b!"." ++ added, .none⟩ ∧
    v.log = u.log ++ .inp cTab :: outs out := by
  have cf : Config hE := ⟨by decide, ⟨by decide, by decide, by decide, by decide, by decide, statusString_nul _ (by decide)⟩⟩
  obtain ⟨u, H⟩ := hWaiting
  obtain ⟨v, added, out, s, h, l, -⟩ := C60_keeps hE rfl cf (after hE hHist) u _ [] b!"." (by decide) H (by decide) (by decide) []
  exact ⟨u, v, added, out, H, s, h, l⟩

example : sW.TabOk sE b!"ls " b!"d" ∧ sW.tabs sE b!"ls " b!"d" = sW.complete sE b!"ls " b!"d" ∧ sW.offers b!"d" = sW.candidates b!"d" :=
  C60_ideal sE sW b!"ls " b!"d" (by unfold World.Usual; decide) (by decide)

example : (after hE hHist).tabDir [] = (after hE hHist).cwd ∧ (after hE hHist).tabDir b!"." ≠ (after hE hHist).cwd :=
  ⟨(C60_dir (after hE hHist) (by decide)).1, by rw [(C60_dir (after hE hHist) (by decide)).2.2.1]; decide⟩

example : ∃ u m, WInv hE u (after hE hHist) ∧ (after hE hHist).cwd = some m ∧ (after hE hHist).tabDir b!"x" = some m := by
  obtain ⟨u, H⟩ := hWaiting
  exact ⟨u, _, H.rep, rfl, C60_dir_mounted hE u (after hE hHist) H.rep _ rfl (by decide) (by decide) b!"x" (by decide) (by decide)⟩

example : ∃ u v, Waiting sE sW u ⟨List.replicate 26 120 ++ b!" noe", .none⟩ ∧ Steps sE u [cTab] v [] ∧ ∀ io, service sE io v = .error .oob := by
  obtain ⟨u, H⟩ := sTyped (List.replicate 26 120 ++ b!" noe") (by decide) (by decide)
  obtain ⟨v, s, h⟩ := C60_overflow sE rfl sW u _ (List.replicate 26 120 ++ b!" ") b!"noe" (by decide) H (by decide) b!"noexec" (by decide) (by decide) (by decide) []
  exact ⟨u, v, H, s, h⟩

end Ush.Props
