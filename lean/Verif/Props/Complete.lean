import Verif.Proof.TabIdeal
import Verif.Props.Samples
import Verif.Props.Utils
/-!
# C27, C28, C29: TAB

`Waiting E W u e`: the shell waits for a key, `e.line` has been typed, the world (commands, directories, working directory) is
`W`.  `W.candidates w`: the names of the commands, of the files of the working directory and of its sub-directories that begin
with `w`, in this order.

Preconditions of the theorems:
* the feature is enabled (`E.autocomplete`; see Props/Features.lean for shells without it);
* no NUL has been typed (`cNul ∉ e.line`);
* the words `.` and `..` (and the empty word, of which they are continuations) are not completed where directories have names
  that begin with a dot (`W.Usual`; for these words the code looks at the sub-directories of another directory, see
  `C27_hidden`);
* no other directory has been mounted in place of an unmounted working directory (`W.Usual`; the code looks at the files of
  the old one and at the sub-directories of the new one, see the examples of Props/Loose.lean);
* the candidates fit the input buffer and, together with the working directory, the buffers for paths (`W.Typable`; the code does
  not check, see `C27_overflow`).
-/
namespace Ush.Props
open Spec

/-! ## The specification is what it says -/

/-- The common prefix is a prefix of every candidate. -/
theorem C27_common (cs : List Str) (c : Str) (hc : c ∈ cs) : commonPrefix cs <+: c := commonPrefix_prefix hc

example : commonPrefix [b!"cat", b!"cd"] <+: b!"cd" := C27_common _ _ (by decide)

/-- It is the longest one. -/
theorem C27_longest (cs : List Str) (hne : cs ≠ []) (p : Str) (h : ∀ c ∈ cs, p <+: c) : p <+: commonPrefix cs := prefix_commonPrefix hne h

/-- What a candidate is. -/
theorem C27_candidates (W : World) (w n : Str) :
    n ∈ W.candidates w ↔ w <+: n ∧ ((∃ g ∈ W.groups, ∃ f ∈ g.files, f.name = n) ∨ (∃ m, W.cwd = some m ∧ ∃ f ∈ m.files, f.name = n) ∨
      (∃ d, W.cwd = some d ∧ d ∈ W.tree ∧ ∃ m ∈ W.tree, m.path ≠ [] ∧ m.path.dropLast = d.path ∧ m.path.getLast? = some n)) := by
  unfold World.candidates World.names
  rw [List.mem_filter, List.isPrefixOf_iff_prefix, and_comm, List.mem_append, List.mem_append, or_assoc]
  refine and_congr_right (fun _ => or_congr ?_ (or_congr ?_ ?_))
  · simp only [Groups.files, List.mem_map, List.mem_flatMap]
    constructor
    · rintro ⟨f, ⟨g, h1, h2⟩, h3⟩; exact ⟨g, h1, f, h2, h3⟩
    · rintro ⟨g, h1, f, h2, h3⟩; exact ⟨f, ⟨g, h1, h2⟩, h3⟩
  · cases W.cwd <;> simp
  · exact mem_below _ _ _

example : commonPrefix [b!"load", b!"ls", b!"led"] = b!"l" := rfl
example : sW.candidates b!"d" = [b!"data", b!"dev"] := by decide
example : sW.candidates [] = sW.names := by decide

instance (W : World) (w : Str) : Decidable (W.Usual w) := by unfold World.Usual; infer_instance
instance (E : Env) (W : World) (h w : Str) : Decidable (W.Typable E h w) := by unfold World.Typable; infer_instance

/-! ## C27 TAB extends to the longest common prefix -/

/-- TAB: new line and printed text are those of `World.tab`.

Missing from the full statement: lines that consist of one space and one word (`C27_false`). -/
theorem C27_tab_partial (E : Env) (on : E.autocomplete = true) (cfg : Config E) (W : World) (u : Ush) (e : Editor) (hh : W.Usual (lastWord e.line)) (H : Waiting E W u e) (hnul : cNul ∉ e.line)
    (hsp : ¬ ∃ w, e.line = cSpace :: w ∧ w ≠ [] ∧ cSpace ∉ w)
    (ht : W.Typable E (lineHead e.line) (lastWord e.line)) (inp : List UInt8) :
    ∃ v, Steps E u (cTab :: inp) v inp ∧ Waiting E W v ⟨(W.tab E e.line).1, e.esc⟩ ∧ v.log = u.log ++ .inp cTab :: outs (W.tab E e.line).2 := by
  have e1 := tabTarget_of hsp
  obtain ⟨v, r, h⟩ := tab_run on cfg H inp hnul (by rw [e1]; exact tabOk_ideal hh ht)
  rw [e1] at r h
  rw [tabs_ideal hh (fun c hc => by have := (ht.2 c hc).1; omega)] at r h
  exact ⟨v, r.steps, h, r.log⟩

/-- What TAB does on every line: it completes the last word, but on a line of one space and one word it takes the whole line for the word. -/
theorem C27_target (E : Env) (on : E.autocomplete = true) (cfg : Config E) (W : World) (u : Ush) (e : Editor) (head w : Str) (ht : tabTarget e.line = (head, w))
    (hh : W.Usual w) (H : Waiting E W u e) (hnul : cNul ∉ e.line) (hfit : W.Typable E head w) (inp : List UInt8) :
    ∃ v, Steps E u (cTab :: inp) v inp ∧ Waiting E W v ⟨(W.complete E head w).1, e.esc⟩ ∧ v.log = u.log ++ .inp cTab :: outs (W.complete E head w).2 := by
  obtain ⟨v, r, h⟩ := tab_run on cfg H inp hnul (by rw [ht]; exact tabOk_ideal hh hfit)
  rw [ht] at r h
  have e2 : W.tabs E head w = W.complete E head w := tabs_ideal hh (fun c hc => by have := (hfit.2 c hc).1; omega)
  simp only [e2] at r h
  exact ⟨v, r.steps, h, r.log⟩

example : tabTarget b!" ru" = ([], b!" ru") ∧ tabTarget b!"  ru" = (b!"  ", b!"ru") ∧ tabTarget b!"a ru" = (b!"a ", b!"ru") ∧ tabTarget b!" " = (b!" ", []) ∧
    ∃ u, Waiting sE sW u ⟨b!" ru", .none⟩ ∧ sW.Usual b!" ru" ∧ sW.Typable sE [] b!" ru" := by
  refine ⟨by decide, by decide, by decide, by decide, ?_⟩
  obtain ⟨u, H⟩ := sTyped b!" ru" (by decide) (by decide)
  exact ⟨u, H, by decide, by decide⟩

/-- A line that ends with the word `w`: the parts before and after. -/
theorem split_line (head w : Str) (hw : cSpace ∉ w) (hhead : head = [] ∨ head.getLast? = some cSpace) :
    lineHead (head ++ w) = head ∧ lastWord (head ++ w) = w := by
  have h2 : lastWord (head ++ w) = w := by
    rcases hhead with rfl | h
    · exact lastWord_nospace w hw
    · obtain ⟨q, rfl⟩ : ∃ q, head = q ++ [cSpace] := by
        rcases List.eq_nil_or_concat head with rfl | ⟨q, c, rfl⟩
        · cases h
        · simp at h; subst h; exact ⟨q, by simp⟩
      simpa using lastWord_split q w hw
  refine ⟨?_, h2⟩
  unfold lineHead
  rw [h2]
  simp

theorem not_space_word (head w : Str) (hw : cSpace ∉ w) (hhead : head = [] ∨ head.getLast? = some cSpace) (hsp : head = [cSpace] → w = []) :
    ¬ ∃ z, head ++ w = cSpace :: z ∧ z ≠ [] ∧ cSpace ∉ z := by
  rintro ⟨z, hz, hz0, hzs⟩
  rcases hhead with rfl | h
  · exact hw (by rw [List.nil_append] at hz; rw [hz]; simp)
  · cases head with
    | nil => cases h
    | cons a head =>
      rw [List.cons_append] at hz
      obtain ⟨rfl, rfl⟩ := List.cons.inj hz
      have : head = [] := by
        rcases List.eq_nil_or_concat head with rfl | ⟨q, c, rfl⟩
        · rfl
        · rw [List.concat_eq_append, ← List.cons_append, List.getLast?_append] at h
          simp at h
          subst h
          exact absurd (by simp) hzs
      subst this
      rw [hsp rfl] at hz0
      exact hz0 rfl

/-- The line `head ++ w` ends with the word `w`, it is not one space and one word, and the candidates can be typed. -/
structure Word (E : Env) (W : World) (u : Ush) (head w : Str) (es : EscSt) : Prop where
  on : E.autocomplete = true
  waiting : Waiting E W u ⟨head ++ w, es⟩
  hidden : W.Usual w
  nul : cNul ∉ head ++ w
  word : cSpace ∉ w
  front : head = [] ∨ head.getLast? = some cSpace
  more : head = [cSpace] → w = []
  fits : W.Typable E head w

theorem Word.tab {E : Env} {W : World} {u : Ush} {head w : Str} {es : EscSt} (K : Word E W u head w es) (cfg : Config E) (inp : List UInt8) :
    ∃ v, Steps E u (cTab :: inp) v inp ∧ Waiting E W v ⟨(W.complete E head w).1, es⟩ ∧ v.log = u.log ++ .inp cTab :: outs (W.complete E head w).2 := by
  obtain ⟨h1, h2⟩ := split_line head w K.word K.front
  obtain ⟨v, s, H', hl⟩ := C27_tab_partial E K.on cfg W (u := u) (e := ⟨head ++ w, es⟩) (by rw [h2]; exact K.hidden) K.waiting K.nul (not_space_word head w K.word K.front K.more) (by rw [h1, h2]; exact K.fits) inp
  have he : W.tab E (head ++ w) = W.complete E head w := by
    unfold World.tab
    rw [h1, h2]
  simp only [he] at H' hl
  exact ⟨v, s, H', hl⟩

/-- The word is replaced by the longest common prefix of the candidates; if that makes it longer, just the added characters are
printed. -/
theorem C27_extends_partial (E : Env) (cfg : Config E) (W : World) (u : Ush) (head w : Str) (es : EscSt) (K : Word E W u head w es)
    (hne : W.candidates w ≠ []) (inp : List UInt8) :
    ∃ v, Steps E u (cTab :: inp) v inp ∧ Waiting E W v ⟨head ++ commonPrefix (W.candidates w), es⟩ ∧
      ∀ added, commonPrefix (W.candidates w) = w ++ added → added ≠ [] → v.log = u.log ++ .inp cTab :: outs added := by
  obtain ⟨v, s, H', hl⟩ := K.tab cfg inp
  refine ⟨v, s, ?_, ?_⟩
  · have : (W.complete E head w).1 = head ++ commonPrefix (W.candidates w) := by
      unfold World.complete
      simp only
      rw [if_neg hne]
      by_cases h0 : commonPrefix (W.candidates w) = w
      · rw [if_neg (by simpa using h0), h0]
        split <;> rfl
      · rw [if_pos h0]
    rw [← this]
    exact H'
  · intro added ha hane
    have : (W.complete E head w).2 = added := by
      unfold World.complete
      simp only
      rw [if_neg hne, if_pos (by rw [ha]; simpa using hane), ha]
      simp
    rw [hl, this]

/-- A single candidate: the word becomes that candidate. -/
theorem C27_single_partial (E : Env) (cfg : Config E) (W : World) (u : Ush) (head w : Str) (es : EscSt) (K : Word E W u head w es)
    (added : Str) (hone : W.candidates w = [w ++ added]) (inp : List UInt8) :
    ∃ v, Steps E u (cTab :: inp) v inp ∧ Waiting E W v ⟨head ++ w ++ added, es⟩ ∧ v.log = u.log ++ .inp cTab :: outs added := by
  obtain ⟨v, s, H', hl⟩ := K.tab cfg inp
  have : W.complete E head w = (head ++ w ++ added, added) := by
    unfold World.complete
    simp only [hone, commonPrefix]
    rw [if_neg (by simp)]
    by_cases h0 : added = []
    · simp [h0]
    · rw [if_pos (by simpa using h0)]
      simp
  rw [this] at H' hl
  exact ⟨v, s, H', hl⟩

theorem sWord (head w : Str) (hcs : ∀ c ∈ head ++ w, isText c = true ∧ isErase c = false) (hl : (head ++ w).length < 32) (h1 : cNul ∉ head ++ w) (h2 : cSpace ∉ w)
    (h3 : head = [] ∨ head.getLast? = some cSpace) (h4 : head = [cSpace] → w = []) (h5 : sW.Typable sE head w)
    (h6 : sW.Usual w) : ∃ u, Word sE sW u head w .none := by
  obtain ⟨u, H⟩ := sTyped (head ++ w) hcs hl
  exact ⟨u, rfl, H, h6, h1, h2, h3, h4, h5⟩

/-- `ls d` TAB: `data` and `dev` have nothing more in common; `ls de` TAB and `cat da` TAB complete a name. -/
example : ∃ u v, Word sE sW u b!"cat " b!"da" .none ∧ Steps sE u [cTab] v [] ∧ Waiting sE sW v ⟨b!"cat data", .none⟩ ∧
    v.log = u.log ++ .inp cTab :: outs b!"ta" := by
  obtain ⟨u, K⟩ := sWord b!"cat " b!"da" (by decide) (by decide) (by decide) (by decide) (by decide) (by decide) (by decide) (by decide)
  obtain ⟨v, h⟩ := C27_single_partial sE sConfig.1 sW u _ _ _ K b!"ta" (by decide) []
  exact ⟨u, v, K, h⟩

/-- In a world with the commands `load1` and `load2` the word `l` becomes `load`. -/
def tE : Env := { sE with nodeCount := 7 }
def tHist : List FsOp := [.mount [] 1 [], .addGroup 4 [{ name := b!"load1" }, { name := b!"load2" }]]

example : ∃ u v, Word tE (after tE tHist) u [] b!"lo" .none ∧ Steps tE u [cTab] v [] ∧ Waiting tE (after tE tHist) v ⟨b!"load", .none⟩ ∧
    v.log = u.log ++ .inp cTab :: outs b!"ad" := by
  have hc : CfgOk tE := ⟨by decide, by decide, by decide, by decide, by decide⟩
  have cf : Config tE := ⟨by decide, ⟨by decide, by decide, by decide, by decide, by decide, statusString_nul _ (by decide)⟩⟩
  obtain ⟨u0, H0⟩ := boot_waiting hc cf tHist (by decide) (by decide)
  obtain ⟨u, H⟩ := typed cf H0 b!"lo" (by decide) (by decide)
  have K : Word tE (after tE tHist) u [] b!"lo" .none := ⟨rfl, H, by decide, by decide, by decide, by decide, by decide, by decide⟩
  obtain ⟨v, h1, h2, h3⟩ := C27_extends_partial tE cf (after tE tHist) u _ _ _ K (by decide) []
  have hcp : commonPrefix ((after tE tHist).candidates b!"lo") = b!"load" := by decide
  rw [hcp] at h2 h3
  exact ⟨u, v, K, h1, h2, h3 b!"ad" rfl (by decide)⟩

/-- Lines of one space and one word: the word is not completed.  (The code takes the space for a part of the word.) -/
theorem C27_space (E : Env) (on : E.autocomplete = true) (cfg : Config E) (W : World) (w : Str) (hh : W.Usual (cSpace :: w)) (u : Ush) (es : EscSt) (hw0 : w ≠ []) (hw : cSpace ∉ w)
    (H : Waiting E W u ⟨cSpace :: w, es⟩) (hnul : cNul ∉ w) (hr : W.Room E (cSpace :: w)) (hsp : ∀ n ∈ W.names, n.head? ≠ some cSpace) (inp : List UInt8) :
    ∃ v, Steps E u (cTab :: inp) v inp ∧ Waiting E W v ⟨cSpace :: w, es⟩ ∧ v.log = u.log ++ [.inp cTab] := by
  have hc : W.candidates (cSpace :: w) = [] := by
    unfold World.candidates
    rw [List.filter_eq_nil_iff]
    intro n hn hp
    exact hsp n hn (isPrefixOf_head hp rfl)
  have hty : W.Typable E [] (cSpace :: w) := ⟨hr, by rw [hc]; intro c h; cases h⟩
  obtain ⟨v, r, h⟩ := tab_word (pre := []) (y := cSpace :: w) on cfg H inp (by rw [List.mem_cons]; rintro (h | h); exacts [absurd h (by decide), hnul h]) rfl (C05_single_space w hw0 hw) (tabOk_ideal hh hty)
  rw [tabs_ideal hh (by rw [hc]; intro c h; cases h)] at r h
  have : W.complete E [] (cSpace :: w) = (cSpace :: w, []) := by
    unfold World.complete
    simp [hc]
  rw [this] at r h
  exact ⟨v, r.steps, h, r.log⟩

example : ∃ u v, Waiting sE sW u ⟨b!" run", .none⟩ ∧ Steps sE u [cTab] v [] ∧ Waiting sE sW v ⟨b!" run", .none⟩ := by
  obtain ⟨u, H⟩ := sTyped b!" run" (by decide) (by decide)
  obtain ⟨v, h1, h2, -⟩ := C27_space sE rfl sConfig.1 sW b!"run" (by decide) u .none (by decide) (by decide) H (by decide) (by decide) (by decide) []
  exact ⟨u, v, H, h1, h2⟩

/-- The full statement is false: ` ru` TAB does not complete the only candidate `run`. -/
theorem C27_false : sW.candidates b!"ru" = [b!"run"] ∧ ∃ u, Waiting sE sW u ⟨b!" ru", .none⟩ ∧
    ∃ v, Steps sE u [cTab] v [] ∧ Waiting sE sW v ⟨b!" ru", .none⟩ ∧ v.log = u.log ++ [.inp cTab] := by
  refine ⟨by decide, ?_⟩
  obtain ⟨u, H⟩ := sTyped b!" ru" (by decide) (by decide)
  exact ⟨u, H, C27_space sE rfl sConfig.1 sW b!"ru" (by decide) u .none (by decide) (by decide) H (by decide) (by decide) (by decide) []⟩

/-- Why the candidates have to fit: a single candidate that does not fit is written over the end of the input buffer. -/
theorem C27_overflow (E : Env) (on : E.autocomplete = true) (W : World) (u : Ush) (e : Editor) (hh : W.Usual (lastWord e.line)) (H : Waiting E W u e) (hnul : cNul ∉ e.line)
    (hsp : ¬ ∃ w, e.line = cSpace :: w ∧ w ≠ [] ∧ cSpace ∉ w) (c : Str) (hone : W.candidates (lastWord e.line) = [c])
    (hbig : E.inSize ≤ (lineHead e.line).length + c.length) (hr : W.Room E (lastWord e.line)) (inp : List UInt8) :
    ∃ v, Steps E u (cTab :: inp) v inp ∧ ∀ io, service E io v = .error .oob := by
  obtain ⟨h1, h2⟩ := lineHead_split e.line
  obtain ⟨v, r, T, hv⟩ := tab_start on H inp hnul h1 (h2 hsp)
  obtain ⟨w, r2, h⟩ := overflow_run T hv hr inp (by rw [offers_eq hh (List.prefix_refl _)]; exact hone) hbig
  exact ⟨w, r.steps.trans r2.steps, h⟩

/-- 32 bytes of input buffer, 27 of them used: TAB after `noe` (`noexec`). -/
example : ∃ u, Waiting sE sW u ⟨List.replicate 26 120 ++ b!" noe", .none⟩ ∧ ∃ v, Steps sE u [cTab] v [] ∧ ∀ io, service sE io v = .error .oob := by
  obtain ⟨u, H⟩ := sTyped (List.replicate 26 120 ++ b!" noe") (by decide) (by decide)
  exact ⟨u, H, C27_overflow sE rfl sW u _ (by decide) H (by decide) (by rintro ⟨w, h, -⟩; exact absurd (List.cons.inj h).1 (by decide)) b!"noexec" (by decide) (by decide) (by decide) []⟩

/-- A small shell with the directories `/a`, `/.r`, `/a/.h`, in the directory `/a`. -/
def hE : Env where
  inSize := 8
  outSize := 8
  pathMax := 24
  nodeCount := 6
  hostname := []
  styleReset := []
  colorGreen := []
  colorYellow := []
  colorMagenta := []

def hHist : List FsOp := [.mount [] 1 [], .mount [b!"a"] 2 [], .mount [b!".r"] 3 [], .mount [b!"a", b!".h"] 4 [], .cd false [b!"a"] false]

/-- Why `.` is excluded where directories begin with a dot: there the candidate for `.` is `.h`, but TAB makes it `.r`. -/
theorem C27_hidden : (after hE hHist).candidates b!"." = [b!".h"] ∧
    (run hE (blank (List.replicate 8 0) (List.replicate 8 0)) (steps hHist) >>= fun u => drive hE u [46, cTab] (List.replicate 700 Slot.full)).map
      (fun r => (r.1.state, r.1.inBuf.take 3, r.2)) = .ok (.readChar, b!".r" ++ [cNul], []) := by
  constructor
  · decide
  · decide +kernel

/-! ## C28 TAB lists every candidate exactly once -/

/-- Several candidates without a longer common prefix: they are printed one per line in the order of registration (commands,
files, directories), then the prompt and the line.  The line does not change. -/
theorem C28_list_partial (E : Env) (cfg : Config E) (W : World) (u : Ush) (head w : Str) (es : EscSt) (K : Word E W u head w es)
    (h2 : 2 ≤ (W.candidates w).length) (hcp : commonPrefix (W.candidates w) = w) (inp : List UInt8) :
    ∃ v, Steps E u (cTab :: inp) v inp ∧ Waiting E W v ⟨head ++ w, es⟩ ∧
      v.log = u.log ++ .inp cTab :: outs (crlf ++ (W.candidates w).flatMap (· ++ crlf) ++ W.prompt E ++ (head ++ w)) := by
  obtain ⟨v, s, H', hl⟩ := K.tab cfg inp
  have : W.complete E head w = (head ++ w, crlf ++ (W.candidates w).flatMap (· ++ crlf) ++ W.prompt E ++ (head ++ w)) := by
    unfold World.complete
    simp only [hcp]
    rw [if_neg (by intro h; rw [h] at h2; simp at h2), if_neg (by simp), if_neg (by omega)]
  rw [this] at H' hl
  exact ⟨v, s, H', hl⟩

/-- Without an own longer common prefix means: two candidates continue the word differently, or one is the word itself. -/
theorem C28_when (cs : List Str) (w : Str) (hw : ∀ c ∈ cs, w <+: c) (hne : cs ≠ []) :
    commonPrefix cs = w ↔ ¬ ∃ a, ∀ c ∈ cs, w ++ [a] <+: c := by
  constructor
  · rintro h ⟨a, ha⟩
    have := (prefix_commonPrefix hne ha).length_le
    rw [h, List.length_append] at this
    simp at this
    omega
  · intro h
    obtain ⟨t, ht⟩ := prefix_commonPrefix hne hw
    cases t with
    | nil => simpa using ht.symm
    | cons a t =>
      exact absurd ⟨a, fun c hc => (show w ++ [a] <+: commonPrefix cs from ⟨t, by rw [← ht]; simp⟩).trans (commonPrefix_prefix hc)⟩ h

example : ∃ u v, Word sE sW u b!"ls " b!"d" .none ∧ Steps sE u [cTab] v [] ∧ Waiting sE sW v ⟨b!"ls d", .none⟩ ∧
    v.log = u.log ++ .inp cTab :: outs (crlf ++ b!"data\r\ndev\r\n" ++ sW.prompt sE ++ b!"ls d") := by
  obtain ⟨u, K⟩ := sWord b!"ls " b!"d" (by decide) (by decide) (by decide) (by decide) (by decide) (by decide) (by decide) (by decide)
  obtain ⟨v, h1, h2, h3⟩ := C28_list_partial sE sConfig.1 sW u _ _ _ K (by decide) (by decide) []
  have hc : sW.candidates b!"d" = [b!"data", b!"dev"] := by decide
  rw [hc] at h3
  exact ⟨u, v, K, h1, h2, h3⟩

/-! ## C29 TAB never changes what was typed -/

/-- The line after TAB begins with the line before TAB, for every line (also with one space and one word); without candidates
nothing changes and nothing is printed.

Missing from the full statement: the words `.` and `..` where directories have names that begin with a dot (`C29_false`). -/
theorem C29_keeps_partial (E : Env) (on : E.autocomplete = true) (cfg : Config E) (W : World) (u : Ush) (e : Editor) (hh : W.Usual (lastWord e.line)) (H : Waiting E W u e) (hnul : cNul ∉ e.line)
    (ht : W.Typable E (lineHead e.line) (lastWord e.line)) (hr : e.line.head? = some cSpace → W.Room E e.line) (hsp : ∀ n ∈ W.names, n.head? ≠ some cSpace) (inp : List UInt8) :
    ∃ v line out, Steps E u (cTab :: inp) v inp ∧ Waiting E W v ⟨line, e.esc⟩ ∧ v.log = u.log ++ .inp cTab :: outs out ∧ e.line <+: line ∧
      (W.candidates (lastWord e.line) = [] → line = e.line ∧ out = []) := by
  by_cases hs : ∃ w, e.line = cSpace :: w ∧ w ≠ [] ∧ cSpace ∉ w
  · obtain ⟨w, hw, hw0, hws⟩ := hs
    have hdots : W.Usual (cSpace :: w) := by
      refine ⟨hh.1, fun d hd hp => ?_, hh.2.2⟩
      have hd' : d.head? = some 46 := by
        rcases List.mem_cons.mp hd with rfl | hd
        · rfl
        · rw [List.mem_singleton.mp hd]; rfl
      obtain ⟨t, rfl⟩ := hp
      exact absurd (Option.some.inj hd') (by decide)
    have H1 : Waiting E W u ⟨cSpace :: w, e.esc⟩ := by rw [← hw]; exact H
    obtain ⟨v, s, H', hl⟩ := C27_space E on cfg W w hdots u e.esc hw0 hws H1 (fun h => hnul (by rw [hw]; simp [h])) (hw ▸ hr (by rw [hw]; rfl)) hsp inp
    rw [hw]
    exact ⟨v, cSpace :: w, [], s, H', hl, List.prefix_refl _, fun _ => ⟨rfl, rfl⟩⟩
  · obtain ⟨v, s, H', hl⟩ := C27_tab_partial E on cfg W u e hh H hnul hs ht inp
    refine ⟨v, _, _, s, H', hl, ?_, fun h => ?_⟩
    · obtain ⟨h1, -⟩ := lineHead_split e.line
      unfold World.tab World.complete
      simp only
      split
      · simp only [← h1, List.prefix_refl]
      · next hne =>
        split
        · have hp := prefix_commonPrefix hne (p := lastWord e.line) (fun c hc => List.isPrefixOf_iff_prefix.mp (List.mem_filter.mp hc).2)
          show e.line <+: lineHead e.line ++ _
          conv_lhs => rw [h1]
          exact (List.prefix_append_right_inj _).mpr hp
        · split <;> simp only [← h1, List.prefix_refl]
    · unfold World.tab World.complete
      simp only
      rw [if_pos h, ← (lineHead_split e.line).1]
      exact ⟨rfl, rfl⟩

/-- The full statement is false: in `/a` there is no candidate for `.`, but TAB makes it `.r`. -/
theorem C29_false :
    let hist := [FsOp.mount [] 1 [], .mount [b!"a"] 2 [], .mount [b!".r"] 3 [], .cd false [b!"a"] false]
    (after hE hist).candidates b!"." = [] ∧
    (run hE (blank (List.replicate 8 0) (List.replicate 8 0)) (steps hist) >>= fun u => drive hE u [46, cTab] (List.replicate 700 Slot.full)).map
      (fun r => (r.1.state, r.1.inBuf.take 3, r.2)) = .ok (.readChar, b!".r" ++ [cNul], []) := by
  constructor
  · decide
  · decide +kernel

example : ∃ u v line out, Waiting sE sW u ⟨b!"ls q", .none⟩ ∧ Steps sE u [cTab] v [] ∧ Waiting sE sW v ⟨line, .none⟩ ∧
    v.log = u.log ++ .inp cTab :: outs out ∧ line = b!"ls q" ∧ out = [] := by
  obtain ⟨u, H⟩ := sTyped b!"ls q" (by decide) (by decide)
  obtain ⟨v, line, out, h1, h2, h3, -, h4⟩ := C29_keeps_partial sE rfl sConfig.1 sW u _ (by decide) H (by decide) (by decide) (by decide) (by decide) []
  obtain ⟨h5, h6⟩ := h4 (by decide)
  exact ⟨u, v, line, out, H, h1, h2, h3, h5, h6⟩

end Ush.Props
