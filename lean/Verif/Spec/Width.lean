import Verif.Spec.Safe
/-!
# Specification: how large the counters of the shell object get

The model has natural numbers where the code has `size_t`, `int` and `uint8_t`.  The bounds here say that no counter gets larger than the
objects the application hands over, so that nothing wraps around.
-/
namespace Ush.Spec

/-- No array of descriptors has more than `B` entries. -/
def Api.Small (B : Nat) : Api → Prop
  | .mount _ _ fs => fs.length ≤ B
  | .commandsAdd _ fs => fs.length ≤ B
  | _ => True

def Move.Small (B : Nat) : Move → Prop
  | .service _ => True
  | .calls as => ∀ a ∈ as, Api.Small B a

/-- The same for what the callbacks hand over; no file has more than `B` bytes. -/
structure Env.Small (E : Env) (B : Nat) : Prop where
  table : (builtinTable E).length ≤ B
  hook : ∀ h, E.hook = some h → ∀ argv u, ∀ a ∈ h argv u, Api.Small B a
  exec : ∀ id argv u, ∀ a ∈ E.userExec id argv u, Api.Small B a
  proc : ∀ id u, ∀ a ∈ E.userProc id u, Api.Small B a
  set : ∀ id d u, ∀ a ∈ E.userSet id d u, Api.Small B a
  get : ∀ id u d, E.userGet id u = some d → d.length ≤ B

/-- How many bytes there are from the given place on. -/
def extent (E : Env) : Ptr → Nat
  | .null => 0
  | .str s => s.length + 1
  | .data d => d.length
  | .inBuf off => E.inSize - off
  | .outBuf => E.outSize

/-- Bounds for all counters of the shell object: positions lie in the buffers, there are not more arguments than bytes, text to print lies
in its object, the numbers of a step, a file, a directory and a candidate are bounded by their number.  (The number of candidates
is bounded by the number of steps of the search, three for every name; there are at most `E.nodeCount` directories and groups of
commands.) -/
structure Counters (E : Env) (B : Nat) (u : Ush) : Prop where
  inPos : u.inPos ≤ E.inSize
  outPos : u.outPos ≤ E.inSize
  args : u.argsCount ≤ E.inSize
  esc : u.ansiEsc ≤ 2
  writePos : u.writePos ≤ u.writeSize
  writeSize : u.writeSize ≤ extent E u.writeBuf
  index : u.procIndex ≤ 3
  stage : u.procStage ≤ 2
  item : u.procItem ≤ max (B + E.xxdColumns) E.inSize
  data : u.procDataSize ≤ B
  word : u.acInput ≤ E.inSize
  suffix : u.acSuffixLen ≤ E.inSize
  count : u.acCount ≤ 4 * (E.nodeCount + 1) * (B + 1)
  prev : u.acPrevCount ≤ 4 * (E.nodeCount + 1) * (B + 1)

end Ush.Spec
