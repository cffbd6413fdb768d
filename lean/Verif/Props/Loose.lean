import Verif.Proof.SafeRun
import Verif.Props.Builtin
import Verif.Props.Tab
import Verif.Props.Tree
/-!
# C65: the working directory can be unmounted

The application may unmount the directory the shell is in (`C10_false`).  The shell stays there: the prompt and `pwd` go on showing the path, `ls` shows the
files, TAB offers them, relative paths are resolved from there, and `cd` leads out of it.  But the files are not found by their names any more, and what is
mounted at the same path later is another directory.

All theorems about the shell at work (C13 – C64) include this case; `W.cwd` is the working directory, and here it is not in `W.tree`.
-/
namespace Ush.Props
open Spec

theorem ValidRun_snoc {E : Env} (o : FsOp) : ∀ (os : List FsOp) (W : World), W.ValidRun E os → (W.run os).1.Valid E o → W.ValidRun E (os ++ [o])
  | [], _, _, h => ⟨h, trivial⟩
  | _ :: os, _, h1, h2 => ⟨h1.1, ValidRun_snoc o os _ h1.2 h2⟩

theorem run_snoc (o : FsOp) : ∀ (os : List FsOp) (W : World), (W.run (os ++ [o])).1 = ((W.run os).1.step o).1
  | [], _ => rfl
  | _ :: os, _ => run_snoc o os _

theorem Reached_snoc {E : Env} {os : List FsOp} {u u' : Ush} {o : FsOp} (hr : Reached E os u) (hv : (after E os).Valid E o) (e : runApi E u o.api = .ok u') :
    Reached E (os ++ [o]) u' := by
  obtain ⟨h1, inBuf, outBuf, h2⟩ := hr
  refine ⟨ValidRun_snoc o os _ h1 hv, inBuf, outBuf, ?_⟩
  have : steps (os ++ [o]) = steps os ++ [Op.api o.api] := by simp [steps]
  rw [this, run_append, h2]
  simp only [M.ok_bind, run, step, e]

/-! ### Coming there -/

/-- In every reached state: if the directory `m` in which the shell is has no sub-directories, it can be unmounted.  The shell keeps its path; nothing is mounted at that path. -/
theorem C65_unmount (E : Env) (hc : CfgOk E) (os : List FsOp) (u : Ush) (hr : Reached E os u) (m : Mount) (hm : (after E os).cwd = some m)
    (hi : m ∈ (after E os).tree) (hk : ∀ x ∈ (after E os).tree, x.path ≠ [] → x.path.dropLast ≠ m.path) :
    ∃ u', runApi E u (.unmount (render m.path)) = .ok u' ∧ u'.log = u.log ++ [.ret .ok] ∧ Reached E (os ++ [.unmount (render m.path)]) u' ∧
      (after E (os ++ [.unmount (render m.path)])).cwd = some m ∧ m ∉ (after E (os ++ [.unmount (render m.path)])).tree ∧
      currentPath u' = .ok (render m.path) ∧ getByPath E u' (render m.path) = .ok none := by
  obtain ⟨H, -⟩ := hr.inv hc
  have C := H.cwd m hm
  have hv : (after E os).Valid E (.unmount (render m.path)) := ⟨render_ne_nil _, C.fits⟩
  obtain ⟨u', e, H', l⟩ := fsStep_sim H _ hv
  have hkids : (after E os).tree.kids m.path = [] := by
    rw [List.eq_nil_iff_forall_not_mem]
    intro x hx
    obtain ⟨a, b, d⟩ := mem_kids.mp hx
    exact hk x a b d
  have hs : (after E os).tree.unmount (render m.path) = ((after E os).tree.filter (fun x => x.path != m.path), .ok) := by
    unfold Tree.unmount
    rw [findText_render H.tree _ C.good, (find_eq_some H.tree.nodupPath).mpr ⟨hi, rfl⟩]
    simp only
    rw [if_neg (by simp [hkids])]
  have hw : (after E (os ++ [.unmount (render m.path)])) = ((after E os).step (.unmount (render m.path))).1 := run_snoc _ _ _
  have hst : ((after E os).step (.unmount (render m.path))).1.tree = (after E os).tree.filter (fun x => x.path != m.path) := congrArg Prod.fst hs
  have hc' : ((after E os).step (.unmount (render m.path))).1.cwd = some m := hm
  have hnot : ∀ x ∈ ((after E os).step (.unmount (render m.path))).1.tree, x.path ≠ m.path := by
    intro x hx
    rw [hst] at hx
    simpa using (List.mem_filter.mp hx).2
  have hs2 : ((after E os).step (.unmount (render m.path))).2 = .ok := congrArg Prod.snd hs
  rw [hs2] at l
  refine ⟨u', e, l, Reached_snoc hr hv e, by rw [hw]; exact hc', ?_, (H'.cwd m hc').path, ?_⟩
  · rw [hw]
    exact fun h => hnot m h rfl
  · rw [getByPath_eq H'.tree _ C.fits (render_ne_nil _), findText_render H'.tree _ C.good]
    have : ((after E os).step (.unmount (render m.path))).1.tree.find m.path = none := by
      unfold Tree.find
      rw [List.find?_eq_none]
      intro x hx
      simpa using hnot x hx
    rw [this]
    rfl

/-- What the application must not do, if it is to be known where the shell is: use the node object of the unmounted working directory for commands, or for a mount that is refused. -/
def Spares (W : World) : List FsOp → Prop
  | [] => True
  | o :: os =>
    (match o with
      | .mount p id files => (∃ m, W.cwd = some m ∧ m.id = id) → (W.tree.mount p id files).2 = .ok
      | .addGroup id _ => ∀ m, W.cwd = some m → m.id ≠ id
      | _ => True) ∧ Spares (W.step o).1 os

/-- Then there is a working directory, from the first mount of the root on.  (Compare C10: there it is mounted, too.) -/
theorem C65_followed : ∀ (os : List FsOp) (W : World), Spares W os →
    (W.cwd.isSome ∨ ∃ (i : Nat) (id : NodeId) (files : List FileDesc), os[i]? = some (FsOp.mount [] id files) ∧ (W.run os).2[i]? = some Status.ok) →
    (W.run os).1.cwd.isSome
  | [], W, _, h => by
    rcases h with h | ⟨i, id, files, h, -⟩
    · exact h
    · simp at h
  | o :: os, W, hs, h => by
    refine C65_followed os (W.step o).1 hs.2 ?_
    rcases h with h | ⟨i, id, files, h1, h2⟩
    · left
      obtain ⟨m, hm⟩ := Option.isSome_iff_exists.mp h
      have hs := hs.1
      cases o with
      | mount p id files =>
        simp only [World.step]
        split
        · rfl
        · unfold World.remount
          rw [hm]
          simp only
          by_cases hid : m.id = id
          · rw [if_pos hid, if_pos (hs ⟨m, hm, hid⟩)]; rfl
          · rw [if_neg hid]; rfl
      | unmount q => exact h
      | cd abs comps slash =>
        simp only [World.step, hm]
        split
        · rfl
        · rw [hm]; rfl
      | addGroup id files =>
        have : m.id ≠ id := hs m hm
        simp [World.step, hm, Option.filter, this]
      | removeGroup id => exact h
    · cases i with
      | zero =>
        left
        simp only [List.getElem?_cons_zero, Option.some.injEq] at h1
        subst h1
        simp only [World.run, List.getElem?_cons_zero, Option.some.injEq] at h2
        simp only [World.step] at h2 ⊢
        rw [if_pos ⟨h2, trivial⟩]; rfl
      | succ i =>
        right
        exact ⟨i, id, files, by simpa using h1, by simpa [World.run] using h2⟩

/-- Mounting its node object again, anywhere: the shell is there. -/
theorem C65_again (E : Env) (hc : CfgOk E) (os : List FsOp) (u : Ush) (hr : Reached E os u) (m : Mount) (hm : (after E os).cwd = some m)
    (p : List Str) (files : List FileDesc) (hv : (after E os).Valid E (.mount p m.id files)) :
    ∃ u' s, runApi E u (.mount (render p) m.id files) = .ok u' ∧ u'.log = u.log ++ [.ret s] ∧
      (s = .ok → currentPath u' = .ok (render p) ∧ getByPath E u' (render p) = .ok (some m.id)) := by
  obtain ⟨H, -⟩ := hr.inv hc
  obtain ⟨u', e, H', l⟩ := fsStep_sim H _ hv
  refine ⟨u', _, e, l, fun hs => ?_⟩
  have hs : ((after E os).tree.mount p m.id files).2 = .ok := hs
  have hw : ((after E os).step (.mount p m.id files)).1.cwd = some ⟨p, m.id, files⟩ := by
    simp only [World.step]
    split
    · rfl
    · unfold World.remount
      rw [hm]
      simp only
      rw [if_pos trivial, if_pos hs]
  have C := H'.cwd _ hw
  have hin : (⟨p, m.id, files⟩ : Mount) ∈ ((after E os).step (.mount p m.id files)).1.tree := mem_mount_new hs
  refine ⟨C.path, ?_⟩
  rw [getByPath_eq H'.tree _ C.fits (render_ne_nil _), findText_render H'.tree _ C.good, (find_eq_some H'.tree.nodupPath).mpr ⟨hin, rfl⟩]
  rfl

/-! ### Being there -/

section
variable (E : Env) (cfg : Config E) (W : World) (u : Ush) (e : Editor) (c : UInt8) (T : Talk) (rs : List Status) (name : Str) (f : FileDesc) (m : Mount)
  (hm : T.world.cwd = some m) (hi : m ∉ T.world.tree)
include cfg hm hi

omit hi in
/-- `pwd` prints the path; so does the prompt. -/
theorem C65_pwd (h : Entered E W u e c [name] T rs) (hf : T.world.file? name = some f) (hx : f.exec = some (.builtin .pwd)) :
    Replies E u c [name] rs (.exec (.builtin .pwd) [name] :: outs (render m.path ++ crlf ++ promptText E m.path)) T.world := by
  have hp : T.world.path = m.path := by unfold World.path; rw [hm]; rfl
  have := C36_pwd E cfg W u e c T rs name f h hf hx
  unfold World.prompt at this
  rwa [hp] at this

/-- `ls` shows the files, and no directory but `.` and `..`. -/
theorem C65_ls (h : Entered E W u e c [name] T rs) (hf : T.world.file? name = some f) (hx : f.exec = some (.builtin .ls))
    (hp : f.process = some (.builtin .ls)) (hfit : ∀ g ∈ m.files, 7 ≤ E.outSize ∧ (rowHead E g).length < E.outSize) :
    Replies E u c [name] rs (.exec (.builtin .ls) [name] :: outs (dirRow E b!"." ++ (if m.path = [] then [] else dirRow E b!"..") ++
      m.files.flatMap (fun g => flags g ++ fileRow E g) ++ T.world.prompt E)) T.world := by
  have := C32_ls E cfg W u e c T rs name f h hf hx hp m hm hfit
  unfold lsText Tree.under at this
  rw [if_neg hi, List.flatMap_nil, List.append_nil] at this
  exact this

end

/-- All directories have proper names: not empty, without `/` and NUL, and not `.` or `..`. -/
def Named (W : World) : Prop := ∀ d ∈ W.dirs, ∀ x ∈ d.path, GoodComp x ∧ x ≠ b!"." ∧ x ≠ b!".."

instance (W : World) : Decidable (Named W) := by unfold Named; infer_instance

section
variable {W : World} {m : Mount} (hm : W.cwd = some m) (hn : Named W)
include hm hn

omit hm in
theorem named_find (p : List Str) (hp : ∀ x ∈ p, GoodComp x) : W.tree.findText (render p) = W.tree.find p := by
  unfold Tree.findText Tree.find
  refine find?_congr' (fun x hx => ?_)
  rw [Bool.eq_iff_iff]
  simp only [beq_iff_eq]
  exact ⟨fun h => render_inj _ _ (fun c hc => (hn x (mem_dirs_of_tree hx) c hc).1) hp h, fun h => by rw [h]⟩

/-- Where `.`, `..` and a plain name lead. -/
theorem named_dir : W.dir? b!"." = W.tree.find m.path ∧ W.dir? b!".." = W.tree.find m.path.dropLast ∧
    ∀ n, GoodComp n → n ≠ b!"." → n ≠ b!".." → resolveText W.path n = render (m.path ++ [n]) := by
  have hp : W.path = m.path := by unfold World.path; rw [hm]; rfl
  have hd := hn m (mem_dirs.mpr (.inr hm))
  have hg : ∀ x ∈ m.path, GoodComp x := fun x hx => (hd x hx).1
  have hpl : ∀ x ∈ m.path, x ≠ b!"." ∧ x ≠ b!".." := fun x hx => (hd x hx).2
  have h0 := normalize_plain _ hpl
  have key : ∀ n, GoodComp n → resolveText W.path n = render (normalize (m.path ++ [n])) := by
    intro n hgn
    have := resolveText_arg m.path hg false [n] false (by simpa using hgn) (by simp)
    rw [hp]
    have ht : argText false [n] false = n := by
      simp only [argText, Bool.false_eq_true, if_false, List.append_nil]
      rw [render_ne _ (by simp)]
      simp
    rw [ht] at this
    simpa [resolve] using this
  have h1 : normalize (m.path ++ [b!"."]) = m.path := by
    unfold normalize at h0 ⊢
    rw [List.foldl_append, h0]
    rfl
  have h2 : normalize (m.path ++ [b!".."]) = m.path.dropLast := by
    unfold normalize at h0 ⊢
    rw [List.foldl_append, h0]
    rfl
  refine ⟨?_, ?_, ?_⟩
  · unfold World.dir?
    rw [key _ (by decide), h1, named_find hn _ hg]
  · unfold World.dir?
    rw [key _ (by decide), h2, named_find hn _ (fun x hx => hg x ((List.dropLast_sublist _).subset hx))]
  · intro n a b d
    rw [key n a, normalize_plain _ (fun x hx => by
      rcases List.mem_append.mp hx with hx | hx
      · exact hpl x hx
      · rw [List.mem_singleton.mp hx]; exact ⟨b, d⟩)]

/-- Where nothing is mounted at the path of the working directory, a plain name finds a command or nothing: the files that `ls` shows are not found. -/
theorem C65_files (E : Env) (ok : W.Ok E) (hf : W.tree.find m.path = none) (n : Str) (h0 : GoodComp n) (h1 : n ≠ b!".") (h2 : n ≠ b!"..") :
    W.file? n = W.groups.files.find? (fun f => f.name == n) := by
  unfold World.file?
  rw [(named_dir hm hn).2.2 n h0 h1 h2]
  suffices W.tree.findFile (render (m.path ++ [n])) = none by rw [this, Option.or_none]
  unfold Tree.findFile
  rw [List.findSome?_eq_none_iff]
  intro d hd
  rw [List.find?_eq_none]
  intro f hfd he
  simp only [beq_iff_eq] at he
  have hg : ∀ d ∈ W.dirs, ∀ n, GoodComp n → ∀ x ∈ d.path ++ [n], GoodComp x := by
    intro d hd n hn' x hx
    rcases List.mem_append.mp hx with hx | hx
    · exact (hn d hd x hx).1
    · rw [List.mem_singleton.mp hx]; exact hn'
  have := render_inj _ _ (hg d (mem_dirs_of_tree hd) _ (ok.names d hd f hfd).1) (hg m (mem_dirs.mpr (.inr hm)) n h0) he
  have he := List.append_inj_left' this rfl
  unfold Tree.find at hf
  have := List.find?_eq_none.mp hf d hd
  exact this (by simpa using he)

/-- There, TAB offers the commands and the files of the unmounted directory, and no directories. -/
theorem C65_tab (hf : W.tree.find m.path = none) (w : Str) (h1 : w ≠ b!".") (h2 : w ≠ b!"..") :
    W.offers w = (W.groups.files.map (·.name) ++ m.files.map (·.name)).filter (fun n => w.isPrefixOf n) := by
  have hp : W.path = m.path := by unfold World.path; rw [hm]; rfl
  have hd : W.tabDir w = some m := by
    by_cases h0 : w = []
    · unfold World.tabDir
      rw [if_pos (.inl h0), hm]
    · rw [tabDir_plain (fun c hc => (hn m (mem_dirs.mpr (.inr hm)) c (hp ▸ hc)).2) h0 h1 h2, hp, hf, hm]
      rfl
  have hi : m ∉ W.tree := fun h => by
    unfold Tree.find at hf
    exact List.find?_eq_none.mp hf m h (by simp)
  unfold World.offers
  rw [hd, hm]
  simp only [Option.map_some, Option.getD_some]
  unfold Tree.under
  rw [if_neg hi]
  simp

end

section
variable (E : Env) (cfg : Config E) (W : World) (u : Ush) (e : Editor) (c : UInt8) (T : Talk) (rs : List Status) (name : Str) (f : FileDesc) (m : Mount)
  (hm : T.world.cwd = some m) (hn : Named T.world)
include cfg hm hn

/-- `ls .` and `cd .` fail, if nothing is mounted at the path. -/
theorem C65_dot (b : Builtin) (hb : b = .ls ∨ b = .cd) (h : Entered E W u e c [name, b!"."] T rs) (hf : T.world.file? name = some f) (hx : f.exec = some (.builtin b))
    (hr : T.world.Room E b!".") (hnone : T.world.tree.find m.path = none) :
    Replies E u c [name, b!"."] rs (.exec (.builtin b) [name, b!"."] :: complains E T .nodeNotFound) T.world := by
  have hd : T.world.dir? b!"." = none := (named_dir hm hn).1.trans hnone
  rcases hb with rfl | rfl
  · exact C32_missing E cfg W u e c T rs name f _ hr h hf hx hd
  · refine C09_cd_missing E cfg W u e c T rs name f _ (fun _ => hr) h hf hx ?_
    unfold World.cd
    rw [if_neg (by decide), hd]
    rfl

/-- `cd ..` leads to the directory above, if that is mounted. -/
theorem C65_up (h : Entered E W u e c [name, b!".."] T rs) (hf : T.world.file? name = some f) (hx : f.exec = some (.builtin .cd))
    (hr : T.world.Room E b!"..") (d : Mount) (hd : T.world.tree.find m.path.dropLast = some d) :
    Replies E u c [name, b!".."] rs (.exec (.builtin .cd) [name, b!".."] :: outs (T.output ++ promptText E d.path)) { T.world with cwd := some d } := by
  refine C09_cd E cfg W u e c T rs name f _ (fun _ => hr) h hf hx _ ?_
  unfold World.cd
  rw [if_neg (by decide), (named_dir hm hn).2.1, hd]
  rfl

end

/-! ### Examples -/

/-- The shell is in `/a`, which has been unmounted. -/
def looseHist : List FsOp := [.mount [] 1 [wFile b!"r"], .mount [b!"a"] 2 [wFile b!"f"], .cd true [b!"a"] false, .unmount b!"/a"]

/-- Then another directory has been mounted at `/a`, with a directory below it. -/
def looseHist2 : List FsOp := looseHist ++ [.mount [b!"a"] 3 [wFile b!"y"], .mount [b!"a", b!"b"] 4 []]

def looseW : World := after sE1 looseHist

theorem looseW_ok : (initWorld sE1).ValidRun sE1 looseHist ∧ looseW.Ok sE1 ∧ Named looseW ∧ looseW.cwd = some ⟨[b!"a"], 2, [wFile b!"f"]⟩ ∧
    looseW.tree = [⟨[], 1, [wFile b!"r"]⟩] := by decide

/-- The shell is in that state when Enter is pressed with the line `cs`. -/
theorem looseEntered (cs : Str) (hcs : ∀ c ∈ cs, isText c = true ∧ isErase c = false) (hl : cs.length < 31) (argv : List Str)
    (hw : words cs = argv) (hn : ∀ name ∈ argv.head?, looseW.Near sE1 name) : ∃ u, Entered sE1 looseW u ⟨cs, .none⟩ cLf argv (Talk.start looseW cLf) [] := by
  obtain ⟨u, H⟩ := boot_waiting sCfg1 sConfig1 looseHist looseW_ok.1 looseW_ok.2.1
  have hin : sE1.inSize = 32 := rfl
  obtain ⟨v, H⟩ := typed sConfig1 H cs hcs (by omega)
  exact ⟨v, { waiting := H, esc := rfl, enter := Or.inl rfl, inSize := by rw [hin]; omega, words := (congrArg words (sent_fit (by simp [hin]; omega))).trans hw, hook := ⟨[], rfl, trivial, rfl⟩, ok := looseW_ok.2.1, near := hn }⟩

example : ∃ u, Replies sE1 u cLf [b!"pwd"] [] (.exec (.builtin .pwd) [b!"pwd"] :: outs (b!"/a\r\n" ++ promptText sE1 [b!"a"])) looseW := by
  obtain ⟨u, H⟩ := looseEntered b!"pwd" (by decide) (by decide) [b!"pwd"] (by decide) (by decide)
  exact ⟨u, C65_pwd sE1 sConfig1 _ _ _ _ _ _ _ _ ⟨[b!"a"], 2, [wFile b!"f"]⟩ looseW_ok.2.2.2.1 H rfl rfl⟩

example : ∃ u, Replies sE1 u cLf [b!"ls"] [] (.exec (.builtin .ls) [b!"ls"] ::
    outs (dirRow sE1 b!"." ++ dirRow sE1 b!".." ++ (flags (wFile b!"f") ++ fileRow sE1 (wFile b!"f")) ++ looseW.prompt sE1)) looseW := by
  obtain ⟨u, H⟩ := looseEntered b!"ls" (by decide) (by decide) [b!"ls"] (by decide) (by decide)
  refine ⟨u, ?_⟩
  have := C65_ls sE1 sConfig1 _ _ _ _ _ _ _ _ _ looseW_ok.2.2.2.1 (by decide) H rfl rfl rfl (by decide)
  simpa [Talk.start] using this

example : ∃ u, Replies sE1 u cLf [b!"cd", b!"."] [] (.exec (.builtin .cd) [b!"cd", b!"."] :: complains sE1 (Talk.start looseW cLf) .nodeNotFound) looseW := by
  obtain ⟨u, H⟩ := looseEntered b!"cd ." (by decide) (by decide) [b!"cd", b!"."] (by decide) (by decide)
  exact ⟨u, C65_dot sE1 sConfig1 _ _ _ _ _ _ _ _ _ looseW_ok.2.2.2.1 looseW_ok.2.2.1 .cd (.inr rfl) H rfl rfl (by decide) (by decide)⟩

example : ∃ u, Replies sE1 u cLf [b!"cd", b!".."] [] (.exec (.builtin .cd) [b!"cd", b!".."] :: outs (promptText sE1 []))
    { looseW with cwd := some ⟨[], 1, [wFile b!"r"]⟩ } := by
  obtain ⟨u, H⟩ := looseEntered b!"cd .." (by decide) (by decide) [b!"cd", b!".."] (by decide) (by decide)
  exact ⟨u, C65_up sE1 sConfig1 _ _ _ _ _ _ _ _ _ looseW_ok.2.2.2.1 looseW_ok.2.2.1 H rfl rfl (by decide) _ (by decide)⟩

/-- The file `f` is listed and offered, but not found. -/
example : looseW.file? b!"f" = none ∧ looseW.offers b!"f" = [b!"f"] := by
  constructor
  · exact (C65_files looseW_ok.2.2.2.1 looseW_ok.2.2.1 sE1 looseW_ok.2.1 (by decide) b!"f" (by decide) (by decide) (by decide)).trans (by decide)
  · exact (C65_tab looseW_ok.2.2.2.1 looseW_ok.2.2.1 (by decide) b!"f" (by decide) (by decide)).trans (by decide)

/-- With another directory at `/a`: for the empty word the file of the old one is offered; for the word `b`, the sub-directory of the new one. -/
example : (after sE1 looseHist2).cwd = some ⟨[b!"a"], 2, [wFile b!"f"]⟩ ∧ b!"f" ∈ (after sE1 looseHist2).offers [] ∧ b!"b" ∉ (after sE1 looseHist2).offers [] ∧
    (after sE1 looseHist2).offers b!"b" = [b!"b"] ∧ (after sE1 looseHist2).file? b!"y" = some (wFile b!"y") ∧ (after sE1 looseHist2).file? b!"f" = none := by decide

example : ∃ u u', Reached sE1 (looseHist.take 3) u ∧ runApi sE1 u (.unmount b!"/a") = .ok u' ∧ currentPath u' = .ok b!"/a" ∧ getByPath sE1 u' b!"/a" = .ok none := by
  obtain ⟨u, e, -⟩ := run_history sCfg1 [] [] (looseHist.take 3) (by decide)
  have hr : Reached sE1 (looseHist.take 3) u := ⟨by decide, [], [], e⟩
  obtain ⟨u', h1, -, -, -, -, h2, h3⟩ := C65_unmount sE1 sCfg1 _ u hr ⟨[b!"a"], 2, [wFile b!"f"]⟩ (by decide) (by decide) (by decide)
  exact ⟨u, u', hr, h1, h2, h3⟩

example : ∃ u u', Reached sE1 looseHist u ∧ runApi sE1 u (.mount b!"/b" 2 []) = .ok u' ∧ u'.log = u.log ++ [.ret .ok] ∧ currentPath u' = .ok b!"/b" := by
  obtain ⟨u, e, H, -⟩ := run_history sCfg1 [] [] looseHist (by decide)
  have hr : Reached sE1 looseHist u := ⟨by decide, [], [], e⟩
  have hv : (after sE1 looseHist).Valid sE1 (.mount [b!"b"] 2 []) := by decide
  obtain ⟨u', s, h1, h2, h3⟩ := C65_again sE1 sCfg1 _ u hr ⟨[b!"a"], 2, [wFile b!"f"]⟩ (by decide) [b!"b"] [] hv
  obtain ⟨v, k1, -, k2⟩ := fsStep_sim H _ hv
  have : v = u' := by
    have := k1.symm.trans h1
    cases this; rfl
  subst this
  have hs : s = .ok := by
    have := k2.symm.trans h2
    have := List.append_cancel_left this
    cases this
    decide
  subst hs
  exact ⟨u, v, hr, h1, h2, (h3 rfl).1⟩

example : Spares (initWorld sE1) looseHist2 ∧ (after sE1 looseHist2).cwd.isSome := by
  have h : Spares (initWorld sE1) looseHist2 := by
    refine ⟨?_, ?_, trivial, trivial, ?_, ?_, trivial⟩
    · intro _; decide
    · intro _; decide
    · intro _; decide
    · intro _; decide
  exact ⟨h, C65_followed looseHist2 _ h (.inr ⟨0, 1, [wFile b!"r"], rfl, by decide⟩)⟩

end Ush.Props
