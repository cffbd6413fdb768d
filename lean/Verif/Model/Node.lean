import Verif.Model.Types
/-!
# Model of `ush_node.c`, `ush_node_utils.c`, `ush_node_mount.c`, `ush_commands.c`, `ush_file.c`
-/
namespace Ush

/-- Inner loop of `ush_node_get_by_path`, ush_node.c:49-55: first node of the list whose path is `lp`. -/
def findPath (nodes : NodeId → Node) (lp : Str) : Nat → Option NodeId → M (Option NodeId)
  | _, none => .ok none
  | 0, some _ => .error .diverge
  | fuel + 1, some id =>
    match (nodes id).path with
    | none => .error .null
    | some p => if p = lp then .ok (some id) else findPath nodes lp fuel (nodes id).next

/-- Outer loop of `ush_node_get_by_path`, ush_node.c:45-64; the first argument is `levels + 1 - i`. -/
def getByPathLoop (E : Env) (nodes : NodeId → Node) (path : Str) :
    Nat → Nat → Option NodeId → M (Option NodeId)
  | 0, _, _ => .ok none
  | rem + 1, i, curr => do
    let lp ← pathLevel E.pathMax i path
    let found ← findPath nodes lp E.nodeCount curr
    match found with
    | none => return none
    | some id => if rem = 0 then return some id else getByPathLoop E nodes path rem (i + 1) (nodes id).children

/-- `ush_node_get_by_path`, ush_node.c:30-68. -/
def getByPath (E : Env) (u : Ush) (path : Str) : M (Option NodeId) := do
  vla E.pathMax
  let levels := pathLevelsCount path
  if levels = 0 then
    return u.root
  else
    match u.root with
    | none => return none
    | some r => getByPathLoop E u.nodes path levels 1 (u.nodes r).children

/-- `self->current_node->path`. -/
def currentPath (u : Ush) : M Str :=
  match u.current with
  | none => .error .null
  | some c =>
    match (u.nodes c).path with
    | none => .error .null
    | some p => .ok p

/-- `ush_node_get_absolute_path`, ush_node.c:70-92 (all callers pass an `out_path` of `path_max_length`
bytes). -/
def getAbsolutePath (E : Env) (u : Ush) (inPath : Str) : M Str := do
  vla E.pathMax
  let a ← (if inPath.head? = some cSlash then
      strcpy E.pathMax inPath
    else do
      let cp ← currentPath u
      let a ← strcpy E.pathMax cp
      let a ← (if cp ≠ b!"/" then strcat E.pathMax a b!"/" else pure a)
      strcat E.pathMax a inPath)
  let a := if a.length > 1 ∧ a[a.length - 1]? = some cSlash then a.dropLast else a
  collapsePath E.pathMax a

/-- `ush_node_get_parent_by_path`, ush_node_utils.c:30-44. -/
def getParentByPath (E : Env) (u : Ush) (path : Str) : M (Option NodeId) :=
  let pp := pathUpper path
  if pp = [] then .ok none else getByPath E u pp

/-- `ush_node_set_current_dir`, ush_node_utils.c:46-64. -/
def setCurrentDir (E : Env) (u : Ush) (path : Str) : M (Ush × Status) :=
  if path = [] then .ok (u, .nodeNotFound)
  else do
    let abs ← getAbsolutePath E u path
    let node ← getByPath E u abs
    match node with
    | some id => return ({ u with current := some id }, .ok)
    | none => return (u, .nodeNotFound)

/-- `ush_node_mount`, ush_node_mount.c:30-65. -/
def nodeMount (E : Env) (u : Ush) (path : Str) (node : NodeId) (files : List FileDesc) : M (Ush × Status) := do
  let u := { u with nodes := setNode u.nodes node { u.nodes node with files := files, path := some path } }
  let ex ← getByPath E u path
  match ex with
  | some _ => return (u, .nodeAlreadyMounted)
  | none =>
    let par ← getParentByPath E u path
    match par with
    | some p =>
      -- node->next = node_parent->children
      let nodes := setNode u.nodes node { u.nodes node with next := (u.nodes p).children }
      -- node_parent->children = node
      let nodes := setNode nodes p { nodes p with children := some node }
      -- node->parent = node_parent
      let nodes := setNode nodes node { nodes node with parent := some p }
      return ({ u with nodes := nodes }, .ok)
    | none =>
      if path = b!"/" then
        let nodes := setNode u.nodes node { u.nodes node with next := none, parent := none }
        return ({ u with nodes := nodes, root := some node, current := some node }, .ok)
      else
        return (u, .nodeWithoutParent)

/-- Loop shared by `ush_node_unmount` (ush_node_mount.c:86-101) and `ush_commands_remove`
(ush_commands.c:55-70): find `node` in the list and the node before it (`none`: it is the head).
`.ok none` means that the list ends without `node`. -/
def findPrev (nodes : NodeId → Node) (node : NodeId) :
    Nat → Option NodeId → Option NodeId → M (Option (Option NodeId))
  | _, _, none => .ok none
  | 0, _, some _ => .error .diverge
  | fuel + 1, prev, some c =>
    if c ≠ node then findPrev nodes node fuel (some c) (nodes c).next
    else .ok (some prev)

/-- `ush_node_unmount`, ush_node_mount.c:67-104. -/
def nodeUnmount (E : Env) (u : Ush) (path : Str) : M (Ush × Status) := do
  let par ← getParentByPath E u path
  let node ← getByPath E u path
  match node with
  | none => return (u, .nodeNotFound)
  | some id =>
    if some id ≠ u.root ∧ par = none then return (u, .nodeNotFound)
    else if (u.nodes id).children ≠ none then return (u, .nodeWithChilds)
    else
      match par with
      | none => return ({ u with root := none }, .ok)
      | some p =>
        let r ← findPrev u.nodes id E.nodeCount none (u.nodes p).children
        match r with
        | none => return (u, .nodeNotFound)
        | some none =>
          return ({ u with nodes := setNode u.nodes p { u.nodes p with children := (u.nodes id).next } }, .ok)
        | some (some q) =>
          return ({ u with nodes := setNode u.nodes q { u.nodes q with next := (u.nodes id).next } }, .ok)

/-- `ush_commands_add`, ush_commands.c:29-48. -/
def commandsAdd (u : Ush) (node : NodeId) (files : List FileDesc) : M (Ush × Status) := do
  assertM (files.length > 0)
  let nodes := setNode u.nodes node
    { u.nodes node with files := files, path := none, next := u.commands }
  return ({ u with nodes := nodes, commands := some node }, .ok)

/-- `ush_commands_remove`, ush_commands.c:50-73. -/
def commandsRemove (E : Env) (u : Ush) (node : NodeId) : M (Ush × Status) := do
  let r ← findPrev u.nodes node E.nodeCount none u.commands
  match r with
  | none => return (u, .nodeNotFound)
  | some none => return ({ u with commands := (u.nodes node).next }, .ok)
  | some (some q) =>
    return ({ u with nodes := setNode u.nodes q { u.nodes q with next := (u.nodes node).next } }, .ok)

/-- First loop of `ush_file_find_by_name`, ush_file.c:39-47. -/
def findCommand (nodes : NodeId → Node) (name : Str) : Nat → Option NodeId → M (Option FileDesc)
  | _, none => .ok none
  | 0, some _ => .error .diverge
  | fuel + 1, some c =>
    match (nodes c).files.find? (fun f => f.name = name) with
    | some f => .ok (some f)
    | none => findCommand nodes name fuel (nodes c).next

/-- Inner loop of the second search of `ush_file_find_by_name`, ush_file.c:52-57. -/
def findFileIn (E : Env) (dir abs : Str) : List FileDesc → M (Option FileDesc)
  | [] => .ok none
  | f :: fs => do
    let fp ← joinPath E.pathMax dir f.name
    if fp = abs then return some f else findFileIn E dir abs fs

/-- Search in the files of one node, ush_file.c:52-57: the path is only used (and asserted to be there,
ush_utils.c:33) when there is a file. -/
def findFileNode (E : Env) (abs : Str) (n : Node) : M (Option FileDesc) :=
  if n.files = [] then .ok none
  else
    match n.path with
    | none => .error .assert
    | some dir => findFileIn E dir abs n.files

/-- Second loop of `ush_file_find_by_name`, ush_file.c:51-59 (it also walks over the following siblings of
the directory, like the C code). -/
def findFile (E : Env) (nodes : NodeId → Node) (abs : Str) : Nat → Option NodeId → M (Option FileDesc)
  | _, none => .ok none
  | 0, some _ => .error .diverge
  | fuel + 1, some c => do
    let r ← findFileNode E abs (nodes c)
    match r with
    | some f => return some f
    | none => findFile E nodes abs fuel (nodes c).next

/-- `ush_file_find_by_name`, ush_file.c:31-62. -/
def fileFindByName (E : Env) (u : Ush) (name : Str) : M (Option FileDesc) := do
  vla E.pathMax
  let c ← findCommand u.nodes name E.nodeCount u.commands
  match c with
  | some f => return some f
  | none =>
    let abs ← getAbsolutePath E u name
    let par ← getParentByPath E u abs
    findFile E u.nodes abs E.nodeCount par

/-- `ush_node_deinit_recursive`, ush_node.c:94-108. -/
def deinitRec (nodes : NodeId → Node) : Nat → Option NodeId → M (NodeId → Node)
  | _, none => .ok nodes
  | 0, some _ => .error .diverge
  | fuel + 1, some c => do
    let nodes ← (match (nodes c).children with
      | none => .ok nodes
      | some k => deinitRec nodes fuel (some k))
    let tmp := (nodes c).next
    let nodes := setNode nodes c {}
    deinitRec nodes fuel tmp

end Ush
