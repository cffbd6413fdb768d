import Verif.Proof.Edit
import Verif.Proof.Reply
/-!
# Concrete configurations and histories used as witnesses
-/
namespace Ush.Props
open Spec

/-! ### A concrete history used as witness -/

def wE : Env where
  inSize := 16
  outSize := 32
  pathMax := 40
  nodeCount := 6
  hostname := b!"h"

def wFile (s : Str) : FileDesc := { name := s, exec := some (.user 1) }

def wHist : List FsOp :=
  [.mount [] 1 [wFile b!"x"], .mount [b!"a"] 2 [], .mount [b!"a", b!"b"] 3 [wFile b!"x", wFile b!"y"],
   .addGroup 4 [wFile b!"c"], .cd false [b!"a", b!"b"] true, .cd false [b!".."] false, .mount [b!"q", b!"b"] 5 [],
   .unmount b!"/a/b", .mount [b!"a", b!"b"] 5 [wFile b!"z"], .addGroup 3 [wFile b!"c", wFile b!"ls"]]

theorem wE_ok : CfgOk wE := ⟨by decide, by decide, by decide, by decide, by decide⟩

instance (c : Str) : Decidable (GoodComp c) := by unfold GoodComp; infer_instance

instance (W : World) (id : NodeId) : Decidable (W.Unlinked id) := by unfold World.Unlinked; infer_instance

instance (E : Env) (W : World) : (o : FsOp) → Decidable (W.Valid E o)
  | .mount .. => by unfold World.Valid; infer_instance
  | .unmount .. => by unfold World.Valid; infer_instance
  | .cd abs comps slash => by
    unfold World.Valid
    have : Decidable (∃ m, W.cwd = some m ∧
        (render m.path).length + 1 + (argText abs comps slash).length < E.pathMax) :=
      match h : W.cwd with
      | none => isFalse (by simp)
      | some m => if h2 : (render m.path).length + 1 + (argText abs comps slash).length < E.pathMax
          then isTrue ⟨m, rfl, h2⟩ else isFalse (by rintro ⟨m', h', h3⟩; cases h'; exact h2 h3)
    infer_instance
  | .addGroup .. => by unfold World.Valid; infer_instance
  | .removeGroup .. => by unfold World.Valid; infer_instance

instance decValidRun (E : Env) : (W : World) → (os : List FsOp) → Decidable (W.ValidRun E os)
  | _, [] => isTrue trivial
  | W, o :: os => by unfold World.ValidRun; have := decValidRun E (W.step o).1 os; infer_instance

theorem wHist_valid : (initWorld wE).ValidRun wE wHist := by decide

/-! ### A shell with a hook, application commands and files with data -/

instance (f : FileDesc) : Decidable (GoodFile f) :=
  decidable_of_iff (cNul ∉ f.name ∧ (∀ d ∈ f.description.toList, cNul ∉ d) ∧ (∀ d ∈ f.help.toList, cNul ∉ d))
    ⟨fun ⟨h1, h2, h3⟩ => ⟨h1, by simpa using h2, by simpa using h3⟩, fun ⟨h1, h2, h3⟩ => ⟨h1, by simpa using h2, by simpa using h3⟩⟩

instance (E : Env) (W : World) : Decidable (W.Ok E) :=
  decidable_of_iff (W.cwd.isSome = true ∧ (∀ m ∈ W.tree, ∀ f ∈ m.files, GoodComp f.name ∧ (render (m.path ++ [f.name])).length < E.pathMax) ∧
      (∀ m ∈ W.dirs, ∀ f ∈ m.files, GoodFile f) ∧
      (∀ g ∈ W.groups, ∀ f ∈ g.files, GoodFile f))
    ⟨fun ⟨h1, h2, h3, h4⟩ => ⟨Option.isSome_iff_ne_none.mp h1, h2, h3, h4⟩,
     fun ⟨h1, h2, h3, h4⟩ => ⟨Option.isSome_iff_ne_none.mpr h1, h2, h3, h4⟩⟩

instance (E : Env) (W : World) (a : Str) : Decidable (W.Room E a) := by unfold World.Room; infer_instance

instance (E : Env) (W : World) (a : Str) : Decidable (W.Near E a) := by unfold World.Near; infer_instance

/-- The hook prints `?`, command `run` prints `ok` in two pieces, command `say` prints a line. -/
def sE : Env where
  inSize := 32
  outSize := 64
  pathMax := 80
  nodeCount := 6
  hostname := b!"h"
  hook := some (fun _ _ => [.printf (.text b!"?")])
  userExec := fun id _ _ => if id = 1 then [.printf (.text b!"o"), .printf (.text b!"k")] else [.print (.str b!"hello")]

/-- The same without hook. -/
def sE0 : Env := { sE with hook := none }

def sHist : List FsOp :=
  [.mount [] 1 [{ name := b!"say", exec := some (.user 2) }, { name := b!"data", getData := some 7, setData := some 7 }],
   .mount [b!"dev"] 2 [{ name := b!"led", description := some b!"a led", getData := some 8, setData := some 8 }],
   .mount [b!"dev", b!"bus"] 3 [],
   .addGroup 4 [{ name := b!"run", exec := some (.user 1), help := some b!"runs\r\n" }, { name := b!"noexec" }]]

theorem sCfg : CfgOk sE ∧ CfgOk sE0 := ⟨⟨by decide, by decide, by decide, by decide, by decide⟩, ⟨by decide, by decide, by decide, by decide, by decide⟩⟩

theorem statusString_nul (t : Translation) (h : cNul ∉ t.ok ∧ cNul ∉ t.error ∧ cNul ∉ t.directoryNotFound ∧ cNul ∉ t.nestedDirectoriesExist ∧
      cNul ∉ t.cannotFindParentNode ∧ cNul ∉ t.directoryAlreadyMounted ∧ cNul ∉ t.syntaxError ∧ cNul ∉ t.wrongArguments ∧ cNul ∉ t.fileNotExecutable ∧
      cNul ∉ t.fileNotWritable ∧ cNul ∉ t.fileNotReadable ∧ cNul ∉ t.noHelpAvailable ∧ cNul ∉ t.fileNotFound ∧ cNul ∉ t.readOnlyFile) (s : Status) :
    cNul ∉ statusString t s := by
  obtain ⟨h1, h2, h3, h4, h5, h6, h7, h8, h9, h10, h11, h12, h13, h14⟩ := h
  have e : cNul ∉ b!": " := by decide
  cases s <;> simp only [statusString, List.mem_append, not_or] <;> first | exact ⟨⟨h2, e⟩, by assumption⟩ | assumption

theorem sConfig : Config sE ∧ Config sE0 :=
  ⟨⟨by decide, ⟨by decide, by decide, by decide, by decide, by decide, statusString_nul _ (by decide)⟩⟩,
   ⟨by decide, ⟨by decide, by decide, by decide, by decide, by decide, statusString_nul _ (by decide)⟩⟩⟩

theorem sHist_valid : (initWorld sE).ValidRun sE sHist ∧ (initWorld sE0).ValidRun sE0 sHist := by decide

/-- The world after the history. -/
abbrev sW : World := after sE sHist

theorem sW_ok : sW.Ok sE ∧ sW.Ok sE0 := by decide

/-- There is a shell waiting at the first prompt. -/
theorem sWaiting : ∃ u, Waiting sE sW u {} := boot_waiting sCfg.1 sConfig.1 sHist sHist_valid.1 sW_ok.1

theorem sWaiting0 : ∃ u, Waiting sE0 sW u {} := boot_waiting sCfg.2 sConfig.2 sHist sHist_valid.2 sW_ok.2

instance (E : Env) (T : Talk) : (c : Call) → Decidable (T.Valid E c)
  | .fs o => inferInstanceAs (Decidable (T.world.Valid E o))
  | .print s => inferInstanceAs (Decidable (cNul ∉ s))
  | .printNoNewline s => inferInstanceAs (Decidable (cNul ∉ s))
  | .printStatus _ => inferInstanceAs (Decidable True)
  | .printf s => by
    unfold Talk.Valid
    cases h : T.pend <;> (simp only; infer_instance)
  | .flush => inferInstanceAs (Decidable True)
  | .show s => inferInstanceAs (Decidable (cNul ∉ s ∧ s.length < E.outSize))
  | .reset => inferInstanceAs (Decidable (¬ _ = none))

instance decTalkRun (E : Env) : (T : Talk) → (cs : List Call) → Decidable (T.ValidRun E cs)
  | _, [] => isTrue trivial
  | T, c :: cs => by unfold Talk.ValidRun; have := decTalkRun E (T.step E c).1 cs; infer_instance

/-- Typing characters that fit. -/
theorem typed {E : Env} {W : World} {u : Ush} (cfg : Config E) (H : Waiting E W u {}) (cs : Str) (hcs : ∀ c ∈ cs, isText c = true ∧ isErase c = false)
    (hl : cs.length < E.inSize) : ∃ v, Waiting E W v ⟨cs, .none⟩ := by
  obtain ⟨h1, h2⟩ := keys_wrap E.inSize cs [] hcs (by simp; omega)
  obtain ⟨v, -, h⟩ := H.keys cfg cs [] h1
  rw [h2] at h
  exact ⟨v, by simpa [Nat.div_eq_of_lt hl] using h⟩

/-- There is a shell with the line `cs` typed. -/
theorem sTyped (cs : Str) (hcs : ∀ c ∈ cs, isText c = true ∧ isErase c = false) (hl : cs.length < 32) : ∃ v, Waiting sE sW v ⟨cs, .none⟩ := by
  obtain ⟨u, H⟩ := sWaiting
  exact typed sConfig.1 H cs hcs hl

theorem sTyped0 (cs : Str) (hcs : ∀ c ∈ cs, isText c = true ∧ isErase c = false) (hl : cs.length < 32) : ∃ v, Waiting sE0 sW v ⟨cs, .none⟩ := by
  obtain ⟨u, H⟩ := sWaiting0
  exact typed sConfig.2 H cs hcs hl

/-- Without hook, with contents of the files: `data` holds three bytes, `led` holds a text and its setter prints. -/
def sE1 : Env := { sE0 with userGet := fun id _ => some (if id = 7 then [0, 65, 255] else b!"on"), userSet := fun id _ _ => if id = 8 then [.print (.str b!"set")] else [] }

theorem sCfg1 : CfgOk sE1 := ⟨by decide, by decide, by decide, by decide, by decide⟩

theorem sConfig1 : Config sE1 :=
  ⟨by decide, ⟨by decide, by decide, by decide, by decide, by decide, statusString_nul _ (by decide)⟩⟩

theorem sW_ok1 : sW.Ok sE1 := by decide

/-- There is a shell of the second kind in which Enter is pressed with the line `cs`. -/
theorem sEntered (cs : Str) (hcs : ∀ c ∈ cs, isText c = true ∧ isErase c = false) (hl : cs.length < 31) (argv : List Str)
    (hw : words cs = argv) (hn : ∀ name ∈ argv.head?, sW.Near sE1 name) : ∃ u, Entered sE1 sW u ⟨cs, .none⟩ cLf argv (Talk.start sW cLf) [] := by
  obtain ⟨u, H⟩ := boot_waiting sCfg1 sConfig1 sHist (by decide) sW_ok1
  have hin : sE1.inSize = 32 := rfl
  obtain ⟨v, H⟩ := typed sConfig1 H cs hcs (by omega)
  refine ⟨v, { waiting := H, esc := rfl, enter := Or.inl rfl, inSize := by rw [hin]; omega, words := (congrArg words (sent_fit (by simp [hin]; omega))).trans hw, hook := ⟨[], rfl, trivial, rfl⟩, ok := sW_ok1, near := hn }⟩

end Ush.Props
