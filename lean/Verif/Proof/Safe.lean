import Verif.Spec.Safe
import Verif.Proof.Tab
import Verif.Proof.Xxd
import Verif.Proof.Calls
/-!
# An invariant of the whole shell

`Inv E L W k u`: the shell is in order and will be back at the line editor after at most `k` steps that are not steps of the
write engine (states of the parser are counted separately).
-/
namespace Ush
open Spec

/-- The line editor can go on. -/
structure LineAt (E : Env) (buf : List UInt8) (p e : Nat) : Prop where
  pos : p < E.inSize
  nul : buf[p]? = some cNul
  esc : e ≤ 2

abbrev LineOk (E : Env) (u : Ush) : Prop := LineAt E u.inBuf u.inPos u.ansiEsc

/-- Steps needed for the files of some groups. -/
def cost : Groups → Nat
  | [] => 0
  | g :: gs => 3 * g.files.length + 1 + cost gs

/-- Steps needed from the given place on. -/
def left : Groups → Nat → Nat → Nat
  | [], _, _ => 0
  | g :: gs, item, idx => (3 * (g.files.length - item) - idx) + 1 + cost gs

/-- The files of the working directory. -/
def cwdFiles (W : World) : List FileDesc := (W.cwd.map Mount.files).getD []

/-- Steps of a scan for candidates. -/
def scanCost (W : World) : Nat := cost W.groups + 3 * (cwdFiles W).length + 3 * W.tree.length + 4

/-- `help` is running. -/
structure HelpAt (W : World) (nodes : NodeId → Node) (node : Option NodeId) (item i k : Nat) : Prop where
  at' : ∃ gs, gs <:+ W.groups ∧ IsChain nodes node (gs.map Group.id) ∧ left gs item i + 8 ≤ k
  idx : i ≤ 2
  desc : i = 1 → ∃ n f d, node = some n ∧ (nodes n).files[item]? = some f ∧ f.description = some d

abbrev HelpLive (W : World) (u : Ush) (k : Nat) : Prop := HelpAt W u.nodes u.procNode u.procItem u.procIndex k

/-- `ls` is running. -/
def LsLive (W : World) (u : Ush) (k : Nat) : St → Prop
  | .processStart => ∃ m ∈ W.dirs, u.procNode = some m.id ∧ 4 * W.tree.length + 4 * m.files.length + 10 ≤ k
  | .processService => ∃ m ∈ W.dirs, u.procNode = some m.id ∧ u.procIndex ≤ 3 ∧ ∃ ms : List Mount, ms <:+ W.tree.under m ∧
      IsChain u.nodes u.procChild (ms.map Mount.id) ∧ (4 * ms.length - u.procIndex) + 4 * m.files.length + 9 ≤ k
  | .processFinish => ∃ m ∈ W.dirs, u.procNode = some m.id ∧ u.procIndex ≤ 3 ∧ (4 * (m.files.length - u.procItem) - u.procIndex) + 8 ≤ k ∧
      (u.procIndex = 2 → ∃ f d, m.files[u.procItem]? = some f ∧ f.description = some d)
  | _ => False

/-- The arguments of `cat` are there and are readable files. -/
def CatArgs (L : Nat) (W : World) (u : Ush) : Prop :=
  ∃ argv, getArgs u = .ok argv ∧ argv.length = u.argsCount ∧ ∀ o ∈ argv.tail, ∃ a f id, cstrAt u.inBuf o = .ok a ∧ a.length < L ∧ W.file? a = some f ∧
    f.getData = some id

/-- `cat` is running. -/
def CatLive (L : Nat) (W : World) (u : Ush) (k : Nat) : St → Prop
  | .processStart => CatArgs L W u ∧ u.argsCount + 10 ≤ k
  | .processService => CatArgs L W u ∧ 1 ≤ u.procItem ∧ (u.argsCount - u.procItem) + 9 ≤ k
  | .processFinish => 8 ≤ k
  | _ => False

/-- Steps needed by `xxd`. -/
def xxdCost (idx item size : Nat) : Nat :=
  if idx = 3 then (if size ≤ item then 1 else 4 * (size - item) + 5) else 4 * (size - item) + 4 - idx

/-- The data of `xxd` came from a file. -/
def XxdData (E : Env) (u : Ush) : Prop :=
  ∃ d, u.procData = some d ∧ u.procDataSize = d.length ∧ d.length ≤ 16 ^ 8 ∧ ∃ id w, E.userGet id w = some d

/-- `xxd` is running. -/
def XxdLive (E : Env) (u : Ush) (k : Nat) : St → Prop
  | .processStart => XxdData E u ∧ 4 * u.procDataSize + 13 ≤ k
  | .processService => XxdData E u ∧ u.procIndex ≤ 3 ∧
      (u.procIndex ≤ 2 → u.procItem = 0 ∨ u.procItem < u.procDataSize) ∧ xxdCost u.procIndex u.procItem u.procDataSize + 8 ≤ k
  | .processFinish => 8 ≤ k
  | _ => False

/-- A process is running. -/
def ProcLive (E : Env) (L : Nat) (W : World) (u : Ush) (k : Nat) (s : St) : Prop :=
  ∃ f, u.procFile = some f ∧
    match f.process with
    | none => 9 ≤ k
    | some (.user _) => True
    | some (.builtin .help) => s = .processStart ∧ HelpLive W u k
    | some (.builtin .ls) => LsLive W u k s
    | some (.builtin .cat) => CatLive L W u k s
    | some (.builtin .xxd) => XxdLive E u k s
    | some (.builtin _) => False

/-- The word that is completed. -/
structure WordAt (b : List UInt8) (input p e : Nat) (x : Str) : Prop where
  buf : ∃ pre rest, b = pre ++ (x ++ cNul :: rest) ∧ input = pre.length ∧ cNul ∉ pre
  nul : cNul ∉ x
  pos : p = input + x.length
  esc : e ≤ 2

abbrev TabWord (u : Ush) (x : Str) : Prop := WordAt u.inBuf u.acInput u.inPos u.ansiEsc x

/-- The word and the names that begin with it fit. -/
def NamesFit (L : Nat) (W : World) (off : Nat) (x : Str) : Prop := off + x.length < L ∧ ∀ n ∈ W.tabNames, x <+: n → off + n.length < L

/-- The last candidate. -/
def CandOk (W : World) (u : Ush) (x : Str) : Prop := 0 < u.acCount → ∃ c, u.acCand = some c ∧ x <+: c ∧ c ∈ W.tabNames

/-- A scan for candidates that needs at most `c` more steps; there were at least as many steps as candidates. -/
def ScanAt (W : World) (u : Ush) (c : Nat) : Prop :=
  u.procIndex ≤ 2 ∧ u.acCount + c ≤ scanCost W ∧
  ((u.procStage = 0 ∧ ∃ gs, gs <:+ W.groups ∧ IsChain u.nodes u.procNode (gs.map Group.id) ∧
      left gs u.procItem u.procIndex + 3 * (cwdFiles W).length + 3 * W.tree.length + 4 ≤ c) ∨
   (u.procStage = 1 ∧ u.procNode = none ∧ 3 * W.tree.length + 2 ≤ c) ∨
   (u.procStage = 1 ∧ u.procNode = u.current ∧ (3 * ((cwdFiles W).length - u.procItem) - u.procIndex) + 3 * W.tree.length + 3 ≤ c) ∨
   (u.procStage = 2 ∧ ∃ ms : List Mount, (∀ m ∈ ms, m ∈ W.tree) ∧ IsChain u.nodes u.procNode (ms.map Mount.id) ∧
      (3 * ms.length - u.procIndex) + 1 ≤ c))

/-- Steps needed after a scan. -/
def finCost (E : Env) (W : World) (pos : Nat) : Nat := scanCost W + 10 + (E.inSize - pos) * (scanCost W + 2)

def isNewline (c : UInt8) : Prop := c = cLf ∨ c = cCr

/-- The parser can go on: there is a line end, it does not overtake itself, and every argument but the current one is terminated. -/
structure ParseAt (E : Env) (L : Nat) (buf : List UInt8) (p o argc : Nat) (e : Bool) (s : St) (k : Nat) : Prop where
  line : ∃ (n : Nat) (c : UInt8), p ≤ n ∧ n < L ∧ buf[n]? = some c ∧ isNewline c
  out : o + (if e then 1 else 0) ≤ p
  args : argc ≤ (buf.take o).count cNul + (if s = .parseSearchArg then 0 else 1)
  esc : s = .parseSearchArg → e = false
  cost : E.inSize + 1 ≤ k + p

abbrev ParseOk (E : Env) (L : Nat) (u : Ush) (s : St) (k : Nat) : Prop := ParseAt E L u.inBuf u.inPos u.outPos u.argsCount u.escapeFlag s k

/-- What holds in the state `s`. -/
def Live (E : Env) (L : Nat) (W : World) (u : Ush) (k : Nat) : St → Prop
  | .reset => 8 ≤ k
  | .resetPrompt => 7 ≤ k
  | .promptPrefix => (u.promptNext = .readPrepare ∨ u.promptNext = .acRecall ∧ LineOk E u) ∧ 6 ≤ k
  | .promptHost => (u.promptNext = .readPrepare ∨ u.promptNext = .acRecall ∧ LineOk E u) ∧ 5 ≤ k
  | .promptSpace => (u.promptNext = .readPrepare ∨ u.promptNext = .acRecall ∧ LineOk E u) ∧ 4 ≤ k
  | .promptPath => (u.promptNext = .readPrepare ∨ u.promptNext = .acRecall ∧ LineOk E u) ∧ 3 ≤ k
  | .promptSuffix => (u.promptNext = .readPrepare ∨ u.promptNext = .acRecall ∧ LineOk E u) ∧ 2 ≤ k
  | .readPrepare => 1 ≤ k
  | .readChar => LineOk E u
  | .parsePrepare => (∃ (n : Nat) (c : UInt8), n < L ∧ u.inBuf[n]? = some c ∧ isNewline c) ∧ E.inSize + 2 ≤ k
  | .parseSearchArg => ParseOk E L u .parseSearchArg k
  | .parseQuoteArg => ParseOk E L u .parseQuoteArg k
  | .parseStandardArg => ParseOk E L u .parseStandardArg k
  | .writeChar => False
  | .processStart => ProcLive E L W u k .processStart
  | .processService => ProcLive E L W u k .processService
  | .processFinish => ProcLive E L W u k .processFinish
  | .acPrepare => LineOk E u ∧ cNul ∉ u.inBuf.take u.inPos ∧
      NamesFit L W (lineHead (u.inBuf.take u.inPos)).length (lastWord (u.inBuf.take u.inPos)) ∧ NamesFit L W 0 (u.inBuf.take u.inPos) ∧ scanCost W + 3 + finCost E W u.inPos ≤ k
  | .acCandStart => ∃ x, TabWord u x ∧ NamesFit L W u.acInput x ∧ scanCost W + 2 + finCost E W u.inPos ≤ k
  | .acCandCount => ∃ x c, TabWord u x ∧ NamesFit L W u.acInput x ∧ CandOk W u x ∧ ScanAt W u c ∧ c + 1 + finCost E W u.inPos ≤ k
  | .acCandOptimise => ∃ x c, TabWord u x ∧ NamesFit L W u.acInput x ∧ CandOk W u x ∧ ScanAt W u c ∧ 1 ≤ u.acPrevCount ∧ 1 ≤ u.acSuffixLen ∧
      u.acSuffixLen ≤ x.length ∧ c + 1 + finCost E W u.inPos ≤ k
  | .acCandPrint => ∃ x c, TabWord u x ∧ u.inPos < L ∧ ScanAt W u c ∧ c + 9 ≤ k
  | .acCandFinish =>
      (u.acPrevState = .acCandPrint ∧ LineOk E u ∧ 8 ≤ k) ∨
      (u.acPrevState = .acCandCount ∧ (∃ x, TabWord u x ∧ NamesFit L W u.acInput x ∧ CandOk W u x) ∧ finCost E W u.inPos ≤ k) ∨
      (u.acPrevState = .acCandOptimise ∧ (∃ x, TabWord u x ∧ NamesFit L W u.acInput x ∧ CandOk W u x ∧ u.acSuffixLen ≤ x.length) ∧
        1 ≤ u.acPrevCount ∧ 1 ≤ u.acSuffixLen ∧ finCost E W u.inPos ≤ k)
  | .acPromptPrepare => False
  | .acPrompt => LineOk E u ∧ 7 ≤ k
  | .acRecall => LineOk E u ∧ 1 ≤ k
  | .acRecallSuffix => ∃ x, TabWord u x ∧ u.inPos < L ∧ u.acSuffixLen ≤ x.length ∧ scanCost W + 10 ≤ k

/-- What the write engine reads is there. -/
def WriteOk (E : Env) (u : Ush) : Prop :=
  match u.writeBuf with
  | .null => u.writeSize = 0
  | .str s => u.writeSize ≤ s.length + 1
  | .data d => u.writeSize ≤ d.length
  | .inBuf off => off + u.writeSize ≤ E.inSize
  | .outBuf => u.writeSize ≤ E.outSize

/-- When the output buffer is being printed, its text is the one that is printed (after an overflow of `ush_printf`: including the
NUL). -/
def OutOk (E : Env) (u : Ush) : Prop :=
  u.writeBuf = .outBuf → ∃ t rest, u.outBuf = t ++ cNul :: rest ∧ cNul ∉ t ∧
    (u.writeSize ≤ t.length ∨ (u.writeSize = E.outSize ∧ t.length + 1 = E.outSize))

structure Base (E : Env) (L : Nat) (W : World) (u : Ush) : Prop extends Holds E W u where
  fits : W.Fits E L
  outp : OutOk E u
  wok : WriteOk E u

structure Inv (E : Env) (L : Nat) (W : World) (k : Nat) (u : Ush) : Prop extends Base E L W u where
  live : Live E L W u k (next u)

variable {E : Env} {L : Nat} {W : World} {u v : Ush} {k : Nat}

theorem Base.room (B : Base E L W u) {a : Str} (hl : a.length < L) : W.Room E a := by
  obtain ⟨m, h0, h1, -, -, -, h5⟩ := B.toHolds.cwd
  have := fullText_room (render m.path) a
  have := B.fits.paths m h5
  unfold World.Room
  rw [h1]
  omega

theorem Base.near (B : Base E L W u) {a : Str} (hl : a.length < L) : W.Near E a := .inr (B.room hl)

theorem Base.keep (B : Base E L W u) (S : SameFs u v) (hi : v.inBuf.length = u.inBuf.length) (ho : v.outBuf = u.outBuf)
    (hw : v.writeBuf = u.writeBuf) (hz : v.writeSize = u.writeSize) : Base E L W v :=
  { toHolds := B.toHolds.same S ⟨hi.trans B.sized.inLen, by rw [ho]; exact B.sized.outLen⟩
    fits := B.fits
    outp := by unfold OutOk; rw [hw, ho, hz]; exact B.outp
    wok := by unfold WriteOk; rw [hw, hz]; exact B.wok }

/-- Only the write engine differs. -/
theorem Live.bin {s : St} (p : Ptr) (n : Nat) (nx : St) (h : Live E L W u k s) : Live E L W (writePointerBin u p n nx) k s := by
  cases s <;> exact h

theorem Live.state {s : St} (t : St) (h : Live E L W u k s) : Live E L W { u with state := t } k s := by
  cases s <;> exact h

theorem Live.log {s : St} (l : List Event) (h : Live E L W u k s) : Live E L W { u with log := l } k s := by
  cases s <;> exact h

theorem Live.notWrite {s : St} (h : Live E L W u k s) : s ≠ .writeChar := by
  rintro rfl; exact h

theorem next_bin (u : Ush) (p : Ptr) (n : Nat) (nx : St) : next (writePointerBin u p n nx) = nx := rfl

theorem next_of {s : St} (h : u.state = s) (hs : s ≠ .writeChar) : next u = s := by
  unfold next; rw [h, if_neg hs]

theorem ptrStr_write {p : Ptr} {s : Str} (z : Sized E u) (nx : St) (hs : ptrStr u p = .ok s) : WriteOk E (writePointerBin u p s.length nx) := by
  unfold WriteOk
  cases p with
  | null => cases hs
  | str t =>
    obtain ⟨-, r, h⟩ := cstrAt_eq_ok (b := t ++ [cNul]) (off := 0) hs
    have := congrArg List.length h
    simp at this ⊢
    show s.length ≤ t.length + 1
    omega
  | data d =>
    obtain ⟨-, r, h⟩ := cstrAt_eq_ok (b := d) (off := 0) hs
    have := congrArg List.length h
    simp at this
    show s.length ≤ d.length
    omega
  | inBuf off =>
    obtain ⟨-, r, h⟩ := cstrAt_eq_ok (b := u.inBuf) (off := off) hs
    have := congrArg List.length h
    simp at this
    have := z.inLen
    show off + s.length ≤ E.inSize
    omega
  | outBuf =>
    obtain ⟨-, r, h⟩ := cstrAt_eq_ok (b := u.outBuf) (off := 0) hs
    have := congrArg List.length h
    simp at this
    have := z.outLen
    show s.length ≤ E.outSize
    omega

theorem ptrStr_out {p : Ptr} {s : Str} (nx : St) (hs : ptrStr u p = .ok s) : OutOk E (writePointerBin u p s.length nx) := by
  intro hp
  have hp : p = .outBuf := hp
  subst hp
  obtain ⟨h1, r, h⟩ := cstrAt_eq_ok (b := u.outBuf) (off := 0) hs
  exact ⟨s, r, h, h1, .inl (Nat.le_refl _)⟩

/-- Starting to print. -/
theorem say_inv {p : Ptr} {s : Str} {nx : St} (H : Holds E W u) (F : W.Fits E L) (hp : p ≠ .null) (hs : ptrStr u p = .ok s)
    (hl : Live E L W u k nx) : ∃ v, writePointer u p nx = .ok v ∧ Inv E L W k v ∧ next v = nx := by
  refine ⟨_, writePointer_of nx hp hs, ?_, rfl⟩
  exact { toHolds := H.same ⟨rfl, rfl, rfl, rfl⟩ ⟨H.sized.inLen, H.sized.outLen⟩, fits := F, outp := ptrStr_out nx hs,
          wok := ptrStr_write H.sized nx hs, live := hl.bin p s.length nx }

theorem ptrStr_str_any (u : Ush) (t : Str) : ∃ s, ptrStr u (.str t) = .ok s := by
  show ∃ s, cstrAt (t ++ [cNul]) 0 = .ok s
  unfold cstrAt
  rw [if_pos (by simp)]
  exact ⟨_, rfl⟩

theorem sayStr_inv {t : Str} {nx : St} (H : Holds E W u) (F : W.Fits E L) (hl : Live E L W u k nx) :
    ∃ v, writePointer u (.str t) nx = .ok v ∧ Inv E L W k v ∧ next v = nx := by
  obtain ⟨s, hs⟩ := ptrStr_str_any u t
  exact say_inv H F (by simp) hs hl

/-- Printing a text stored in the output buffer. -/
theorem sayOut_inv {s : Str} {nx : St} (H : Holds E W u) (F : W.Fits E L) (hs : s.length < E.outSize) (hl : Live E L W u k nx) :
    ∃ o, storeStr u.outBuf 0 s = .ok o ∧ ∃ v, writePointer { u with outBuf := o } .outBuf nx = .ok v ∧ Inv E L W k v ∧ next v = nx := by
  have hz := H.sized.outLen
  obtain ⟨t, ht⟩ := storeStr_zero (b := u.outBuf) (s := s) (by omega)
  refine ⟨_, ht, ?_⟩
  have hl2 := storeStr_length ht
  have hst : ∃ s', ptrStr { u with outBuf := s ++ cNul :: t } .outBuf = .ok s' := by
    show ∃ s', cstrAt (s ++ cNul :: t) 0 = .ok s'
    unfold cstrAt
    rw [if_pos (by simp)]
    exact ⟨_, rfl⟩
  obtain ⟨s', hs'⟩ := hst
  exact say_inv (H.same ⟨rfl, rfl, rfl, rfl⟩ ⟨H.sized.inLen, hl2.trans hz⟩) F (by simp) hs' (by cases nx <;> exact hl)

/-- Is it a state of the parser? -/
def isParse : St → Bool
  | .parsePrepare | .parseSearchArg | .parseQuoteArg | .parseStandardArg => true
  | _ => false

/-- Is it a state of the completion? -/
def isTab : St → Bool
  | .acPrepare | .acCandStart | .acCandCount | .acCandOptimise | .acCandPrint | .acCandFinish | .acPromptPrepare | .acPrompt | .acRecall
  | .acRecallSuffix => true
  | _ => false

/-- The step succeeds, and fewer steps remain. -/
def Goes (E : Env) (L : Nat) (W : World) (k : Nat) (m : M Ush) : Prop :=
  ∃ v j, m = .ok v ∧ j < k ∧ Inv E L W j v ∧ isParse (next v) = false

theorem Goes.say {p : Ptr} {s : Str} {nx : St} {j : Nat} (H : Holds E W u) (F : W.Fits E L) (hp : p ≠ .null) (hs : ptrStr u p = .ok s)
    (hl : Live E L W u j nx) (hj : j < k) (hn : isParse nx = false) : Goes E L W k (writePointer u p nx) := by
  obtain ⟨v, e, i, n⟩ := say_inv H F hp hs hl
  exact ⟨v, j, e, hj, i, by rw [n]; exact hn⟩

theorem Goes.sayStr {t : Str} {nx : St} {j : Nat} (H : Holds E W u) (F : W.Fits E L) (hl : Live E L W u j nx) (hj : j < k)
    (hn : isParse nx = false) : Goes E L W k (writePointer u (.str t) nx) := by
  obtain ⟨v, e, i, n⟩ := sayStr_inv (t := t) H F hl
  exact ⟨v, j, e, hj, i, by rw [n]; exact hn⟩

/-- A step that does not print. -/
theorem Goes.set {s : St} {j : Nat} (B : Base E L W v) (hs : v.state = s) (hl : Live E L W v j s) (hj : j < k) (hn : isParse s = false) :
    Goes E L W k (.ok v) :=
  have hx := next_of hs hl.notWrite
  ⟨v, j, rfl, hj, { toBase := B, live := by rw [hx]; exact hl }, by rw [hx]; exact hn⟩

end Ush
