import Verif.Model.Basic
/-!
# Model of `src/src/ush_utils.c` (path and string helpers)
-/
namespace Ush

/-- `ush_utils_join_path`, ush_utils.c:31-43. `cap` is the size of the caller's `out_path`. -/
def joinPath (cap : Nat) (inPath name : Str) : M Str := do
  let o ← strcpy cap inPath
  if o = b!"/" then
    strcat cap o name
  else
    let o ← strcat cap o b!"/"
    strcat cap o name

/-- Loop of `ush_utils_get_path_levels_count`, ush_utils.c:137-141. -/
def levelsLoop : Str → Nat → Nat
  | [], n => n
  | _ :: rest, n => levelsLoop rest (if rest.head? = some cSlash then n + 1 else n)

/-- `ush_utils_get_path_levels_count`, ush_utils.c:126-144. -/
def pathLevelsCount (p : Str) : Nat :=
  if p = b!"/" then 0
  else if p = [] then 0
  else levelsLoop p 1

/-- Scanning loop of `ush_utils_get_collapse_path`, ush_utils.c:59-78.
`buf` is the memory of `in_path` (including the NUL), `pos` the current position, `st1` is `state == 1`,
`nodes` the positions stored so far in `nodes[levels]`.
The fuel only bounds the recursion: `pos` grows in each step and reading past `buf` faults. -/
def collapseScan (levels : Nat) : Nat → List UInt8 → Nat → Bool → List Nat → M (List UInt8 × List Nat)
  | 0, _, _, _, _ => .error .diverge
  | fuel + 1, buf, pos, st1, nodes => do
    let ch ← rd buf pos
    if st1 = false then
      if ch = cNul then
        return (buf, nodes)
      else if ch = cSlash then
        let buf ← wr buf pos cNul
        collapseScan levels fuel buf (pos + 1) true nodes
      else
        collapseScan levels fuel buf (pos + 1) false nodes
    else
      if nodes.length < levels then
        if ch = cNul then
          return (buf, nodes ++ [pos])
        else
          collapseScan levels fuel buf (pos + 1) false (nodes ++ [pos])
      else .error .oob

/-- Loop over the parts of `ush_utils_get_collapse_path`, ush_utils.c:82-91.
`out` is `nodes_out[0..count)`. -/
def collapseFilter (levels : Nat) (buf : List UInt8) : List Nat → List Nat → M (List Nat)
  | [], out => .ok out
  | n :: ns, out => do
    let s ← cstrAt buf n
    if s = b!".." then
      collapseFilter levels buf ns (if out.length > 0 then out.dropLast else out)
    else if s = b!"." then
      collapseFilter levels buf ns out
    else if out.length < levels then
      collapseFilter levels buf ns (out ++ [n])
    else .error .oob

/-- Output loop of `ush_utils_get_collapse_path`, ush_utils.c:99-102. -/
def collapseEmit (cap : Nat) (buf : List UInt8) : List Nat → Str → M Str
  | [], out => .ok out
  | n :: ns, out => do
    let out ← strcat cap out b!"/"
    let s ← cstrAt buf n
    let out ← strcat cap out s
    collapseEmit cap buf ns out

/-- `ush_utils_get_collapse_path`, ush_utils.c:45-103.  `s` is the string in `in_path`, `cap` the size of
the caller's `out_path`.  The two arrays `nodes`, `nodes_out` are VLAs of size `levels`. -/
def collapsePath (cap : Nat) (s : Str) : M Str := do
  let o ← strcpy cap s
  if s = b!"/" then
    return o
  else
    let levels := pathLevelsCount s
    vla levels
    let (buf, nodes) ← collapseScan levels (s.length + 2) (s ++ [cNul]) 0 false []
    let out ← collapseFilter levels buf nodes []
    if out.length = 0 then
      strcat cap [] b!"/"
    else
      collapseEmit cap buf out []

/-- Loop of `ush_utils_get_path_level`, ush_utils.c:115-122; `out` is what was written so far. -/
def pathLevelLoop (level : Nat) : Nat → Str → Str → Str
  | _, [], out => out
  | i, c :: rest, out =>
    if i ≤ level then
      pathLevelLoop level (if rest.head? = some cSlash then i + 1 else i) rest (out ++ [c])
    else out

/-- `ush_utils_get_path_level`, ush_utils.c:105-124; `cap` is the size of `out_path` (the bound is checked
once, for the longest write, which is the final NUL). -/
def pathLevel (cap level : Nat) (inPath : Str) : M Str :=
  if level = 0 then strcpy cap b!"/"
  else strcpy cap (pathLevelLoop level 1 inPath [])

/-- Loop of `ush_utils_path_upper`, ush_utils.c:157-168, from the given value of `len` downwards. -/
def pathUpperLoop (p : Str) : Nat → Str
  | 0 => p
  | len + 1 =>
    if p[len]? ≠ some cSlash then pathUpperLoop p len
    else if len = 0 then p.take 1
    else p.take len

/-- `ush_utils_path_upper`, ush_utils.c:146-169: new contents of the string. -/
def pathUpper (p : Str) : Str :=
  if p.length = 1 then [] else pathUpperLoop p p.length

/-- Loop of `ush_utils_path_last`, ush_utils.c:183-190: offset of the result. -/
def pathLastLoop (p : Str) : Nat → Nat
  | 0 => 0
  | i + 1 => if p[i]? ≠ some cSlash then pathLastLoop p i else i + 1

/-- `ush_utils_path_last`, ush_utils.c:171-193: the returned pointer as an offset into the argument. -/
def pathLastOff (p : Str) : Nat :=
  if p.length = 1 then 0 else pathLastLoop p p.length

/-- The string `ush_utils_path_last` points to. -/
def pathLast (p : Str) : Str := p.drop (pathLastOff p)

/-- Loop of `ush_utils_get_last_arg`, ush_utils.c:208-213, from the given value of `len` downwards. -/
def lastArgLoop (s : Str) : Nat → Nat
  | 0 => 0
  | len + 1 => if s[len + 1]? = some cSpace then len + 2 else lastArgLoop s len

/-- `ush_utils_get_last_arg`, ush_utils.c:195-216: the returned pointer as an offset into the argument. -/
def lastArgOff (s : Str) : Nat :=
  if s.length = 0 then 0
  else if s[s.length - 1]? = some cSpace then s.length
  else lastArgLoop s (s.length - 1)

/-- `ush_utils_startswith`, ush_utils.c:218-221 (`strncmp` over `strlen(prefix)` characters). -/
def startsWith (input pre : Str) : Bool := pre.isPrefixOf input

/-- `ush_utils_is_printable`, ush_utils.c:261-264. -/
def isPrintable (ch : UInt8) : Bool := 0x20 ≤ ch && ch ≤ 0x7E

/-- `hex_to_dec`, ush_utils.c:266-276. -/
def hexToDec (ch : UInt8) : UInt8 :=
  if 48 ≤ ch && ch ≤ 57 then ch - 48
  else if 65 ≤ ch && ch ≤ 70 then ch - 65 + 10
  else if 97 ≤ ch && ch ≤ 102 then ch - 97 + 10
  else 0

/-- Loop of `ush_utils_decode_ascii` with `output == input` (the way `echo` calls it), ush_utils.c:285-320.
`ip`, `op` are the positions of `input` and `output` in the buffer, `st` is `state`, `val` the partial value,
`ret` is `ret_size`.  The fuel only bounds the recursion (`ip` grows in each step). -/
def decodeInPlaceLoop (maxSize : Nat) :
    Nat → List UInt8 → Nat → Nat → Nat → UInt8 → Nat → M (List UInt8 × Nat)
  | 0, _, _, _, _, _, _ => .error .diverge
  | fuel + 1, buf, ip, op, st, val, ret => do
    let ch ← rd buf ip
    if ch ≠ cNul && ret < maxSize then
      if st = 0 then
        if ch = cBackslash then
          decodeInPlaceLoop maxSize fuel buf (ip + 1) op 1 val ret
        else
          let buf ← wr buf op ch
          decodeInPlaceLoop maxSize fuel buf (ip + 1) (op + 1) 0 val (ret + 1)
      else if st = 1 then
        if ch = cX then
          decodeInPlaceLoop maxSize fuel buf (ip + 1) op 2 val ret
        else
          let buf ← wr buf op ch
          decodeInPlaceLoop maxSize fuel buf (ip + 1) (op + 1) 0 val (ret + 1)
      else if st = 2 then
        decodeInPlaceLoop maxSize fuel buf (ip + 1) op 3 (hexToDec ch <<< 4) ret
      else
        let v := val ||| hexToDec ch
        let buf ← wr buf op v
        decodeInPlaceLoop maxSize fuel buf (ip + 1) (op + 1) 0 v (ret + 1)
    else
      return (buf, ret)

/-- `ush_utils_decode_ascii(&buf[off], &buf[off], maxSize)`, ush_utils.c:278-323, in place. -/
def decodeInPlace (buf : List UInt8) (off maxSize : Nat) : M (List UInt8 × Nat) :=
  decodeInPlaceLoop maxSize (buf.length + 1) buf off off 0 0 0

/-- Loop of `ush_utils_decode_ascii` with distinct buffers, ush_utils.c:285-320: `out` is the contents of the
output buffer so far (its size is at least `maxSize`). -/
def decodeLoop (maxSize : Nat) : Str → Nat → UInt8 → Str → Str
  | [], _, _, out => out
  | ch :: rest, st, val, out =>
    if out.length < maxSize then
      if st = 0 then
        if ch = cBackslash then decodeLoop maxSize rest 1 val out
        else decodeLoop maxSize rest 0 val (out ++ [ch])
      else if st = 1 then
        if ch = cX then decodeLoop maxSize rest 2 val out
        else decodeLoop maxSize rest 0 val (out ++ [ch])
      else if st = 2 then
        decodeLoop maxSize rest 3 (hexToDec ch <<< 4) out
      else
        decodeLoop maxSize rest 0 (val ||| hexToDec ch) (out ++ [val ||| hexToDec ch])
    else out

/-- `ush_utils_decode_ascii`, ush_utils.c:278-323, with distinct input and output buffers: the bytes
written to `output` (their number is the return value). -/
def decodeAscii (input : Str) (maxSize : Nat) : Str := decodeLoop maxSize input 0 0 []

end Ush
