import Verif.Spec.Torn
import Verif.Proof.Own
import Verif.Proof.Service
/-!
# Texts and data that change while they are being printed: the shell does the same
-/
namespace Ush
open Spec

/-! ## Buffers -/

theorem Spec.sameNuls.refl (a : List UInt8) : sameNuls a a := rfl

theorem Spec.sameNuls.length {a b : List UInt8} (h : sameNuls a b) : b.length = a.length := by
  simpa using (congrArg List.length h).symm

theorem Spec.sameNuls.append {a b c d : List UInt8} (h : sameNuls a b) (k : sameNuls c d) : sameNuls (a ++ c) (b ++ d) := by
  unfold sameNuls at *; simp [h, k]

theorem Spec.sameNuls.take {a b : List UInt8} (h : sameNuls a b) (n : Nat) : sameNuls (a.take n) (b.take n) := by
  unfold sameNuls at *; rw [List.map_take, List.map_take, h]

theorem Spec.sameNuls.drop {a b : List UInt8} (h : sameNuls a b) (n : Nat) : sameNuls (a.drop n) (b.drop n) := by
  unfold sameNuls at *; rw [List.map_drop, List.map_drop, h]

theorem Spec.sameNuls.set {a b : List UInt8} (h : sameNuls a b) (n : Nat) (c : UInt8) : sameNuls (a.set n c) (b.set n c) := by
  unfold sameNuls at *; rw [List.map_set, List.map_set, h]

theorem Spec.sameNuls.wr {a b : List UInt8} (h : sameNuls a b) (n : Nat) (c : UInt8) : Sim sameNuls (Ush.wr a n c) (Ush.wr b n c) := by
  unfold Ush.wr
  rw [h.length]
  split
  · exact h.set n c
  · rfl

theorem Spec.sameNuls.store {a b s t : List UInt8} (h : sameNuls a b) (k : sameNuls s t) (n : Nat) : Sim sameNuls (storeStr a n s) (storeStr b n t) := by
  unfold storeStr
  rw [h.length, k.length]
  split
  · exact (((h.take n).append k).append (.refl _)).append (h.drop _)
  · rfl

theorem Spec.sameNuls.mem : ∀ {a b : List UInt8}, sameNuls a b → (cNul ∈ b ↔ cNul ∈ a) := by
  intro a
  induction a with
  | nil => intro b h; cases b with
    | nil => rfl
    | cons _ _ => cases h
  | cons x a ih => intro b h; cases b with
    | nil => cases h
    | cons y b =>
      obtain ⟨h1, h2⟩ := List.cons.inj h
      have h1 : (y = cNul) ↔ (x = cNul) := by
        have := congrArg (· = true) h1
        simp only [beq_iff_eq] at this
        exact this ▸ Iff.rfl
      rw [List.mem_cons, List.mem_cons, ih h2, eq_comm, h1, eq_comm]

theorem Spec.sameNuls.len : ∀ {a b : List UInt8}, sameNuls a b → (b.takeWhile (· ≠ cNul)).length = (a.takeWhile (· ≠ cNul)).length := by
  intro a
  induction a with
  | nil => intro b h; cases b with
    | nil => rfl
    | cons _ _ => cases h
  | cons x a ih => intro b h; cases b with
    | nil => cases h
    | cons y b =>
      obtain ⟨h1, h2⟩ := List.cons.inj h
      have h1 : (y = cNul) ↔ (x = cNul) := by
        have := congrArg (· = true) h1
        simp only [beq_iff_eq] at this
        exact this ▸ Iff.rfl
      rw [List.takeWhile_cons, List.takeWhile_cons]
      by_cases hx : x = cNul
      · simp [hx, h1.mpr hx]
      · have hy : y ≠ cNul := fun e => hx (h1.mp e)
        simp only [ne_eq, hx, hy, not_false_eq_true, decide_true, if_true, List.length_cons]
        exact congrArg (· + 1) (ih h2)

theorem Spec.sameNuls.cstr {a b : List UInt8} (h : sameNuls a b) (n : Nat) : Sim (fun s t : Str => t.length = s.length) (cstrAt a n) (cstrAt b n) := by
  unfold cstrAt
  have h := h.drop n
  by_cases hm : cNul ∈ a.drop n
  · rw [if_pos hm, if_pos (h.mem.mpr hm)]
    exact h.len
  · rw [if_neg hm, if_neg (fun k => hm (h.mem.mp k))]
    rfl

theorem Sim.eq {α : Type} {m m' : M α} (h : Sim (fun a b => b = a) m m') : m' = m := by
  cases m with
  | ok a => cases m' with
    | ok b => exact congrArg Except.ok h
    | error f => exact h.elim
  | error e => cases m' with
    | ok b => exact h.elim
    | error f => exact congrArg Except.error (Eq.symm h)

theorem Spec.sameNuls.strlen {a b : List UInt8} (h : sameNuls a b) (n : Nat) : strlenAt b n = strlenAt a n :=
  Sim.eq (Sim.bind (h.cstr n) fun _ _ e => e)

theorem Spec.sameNuls.appendStr {a b s t : List UInt8} (h : sameNuls a b) (k : sameNuls s t) : Sim sameNuls (Ush.appendStr a s) (Ush.appendStr b t) := by
  unfold Ush.appendStr
  exact .eq_same (h.strlen 0) fun n _ => h.store k n

theorem Spec.samePlace.refl (p : Ptr) : samePlace p p := by cases p <;> rfl

theorem Spec.sameSize.refl (d : Option (List UInt8)) : sameSize d d := by cases d <;> trivial

theorem Spec.sameEvents.refl (l : List Event) : sameEvents l l := rfl

theorem Spec.sameEvents.snoc {l k : List Event} (h : sameEvents l k) {e f : Event} (g : byteless e = byteless f) : sameEvents (l ++ [e]) (k ++ [f]) := by
  unfold sameEvents at *; simp [h, g]

theorem Spec.samePlace.outBuf {p q : Ptr} (h : samePlace p q) : (q = .outBuf) ↔ (p = .outBuf) := by
  cases p <;> cases q <;> simp_all [samePlace]

theorem Spec.Like.refl (u : Ush) : Like u u :=
  ⟨⟨u.writeBuf, u.procData, u.outBuf, u.log⟩, rfl, samePlace.refl _, sameSize.refl _, .refl _, rfl⟩

variable {E : Env} {u : Ush} {x : Contents}

/-- What fits the shell `u`. -/
abbrev Fits (u : Ush) (x : Contents) : Prop := x.Fit u.writeBuf u.procData u.outBuf u.log

/-- Related results that come with a value. -/
def LikeR {α : Type} (a b : Ush × α) : Prop := Like a.1 b.1 ∧ b.2 = a.2

theorem Spec.Contents.Fit.emit (h : Fits u x) (e : Event) : ∃ y : Contents, (x.put u).emit e = y.put (u.emit e) ∧ Fits (u.emit e) y :=
  ⟨{ x with log := x.log ++ [e] }, rfl, h.buf, h.data, h.out, h.log.snoc rfl⟩

theorem Spec.Contents.Fit.outb (h : Fits u x) {o o' : List UInt8} (k : sameNuls o o') : Fits { u with outBuf := o } { x with out := o' } :=
  ⟨h.buf, h.data, k, h.log⟩

theorem Spec.Contents.Fit.ptr (h : Fits u x) (p : Ptr) : Fits { u with writeBuf := p } { x with buf := p } :=
  ⟨.refl p, h.data, h.out, h.log⟩

theorem writePointer_like (h : Fits u x) (p : Ptr) (s : St) : Sim Like (writePointer u p s) (writePointer (x.put u) p s) := by
  unfold writePointer
  refine .same _ fun _ _ => ?_
  refine Sim.bind (r := fun s t : Str => t.length = s.length) ?_ fun a b e => ?_
  · cases p
    case outBuf => exact h.out.cstr 0
    case null => rfl
    case str s => show Sim _ (cstrAt _ _) (cstrAt _ _); exact (sameNuls.refl _).cstr 0
    case data s => show Sim _ (cstrAt _ _) (cstrAt _ _); exact (sameNuls.refl _).cstr 0
    case inBuf => show Sim _ (cstrAt _ _) (cstrAt _ _); exact (sameNuls.refl _).cstr _
  · rw [e]
    exact ⟨{ x with buf := p }, rfl, h.ptr p⟩

theorem printfError_like (h : Fits u x) (m : Str) : Sim Like (printfError E u m) (printfError E (x.put u) m) := by
  unfold printfError
  refine .eq_same (h.out.strlen 0) fun n _ => ?_
  split
  · refine Sim.bind (h.out.store (.refl m) n) fun o o' k => ?_
    refine .eq_same (k.strlen n) fun _ _ => ?_
    exact ⟨_, rfl, h.outb k⟩
  · split
    · rfl
    · refine Sim.bind (h.out.store (.refl m) _) fun o o' k => ?_
      exact ⟨_, rfl, h.outb k⟩

theorem ushPrintf_like (h : Fits u x) (f : Fmt) : Sim Like (ushPrintf E u f) (ushPrintf E (x.put u) f) := by
  unfold ushPrintf
  refine Sim.bind (r := Like) ?_ ?_
  · by_cases hb : u.writeBuf = .outBuf
    · rw [if_neg (fun k => k hb), if_neg (fun k => k (h.buf.outBuf.mpr hb))]
      exact ⟨x, rfl, h⟩
    · rw [if_pos hb, if_pos (fun k => hb (h.buf.outBuf.mp k))]
      refine Sim.bind (h.out.wr 0 cNul) fun o o' k => ?_
      exact writePointer_like (h.outb k) _ _
  · rintro v _ ⟨y, rfl, k⟩
    refine .eq_same (k.out.strlen 0) fun idx _ => ?_
    refine Sim.bind (k.out.store (.refl _) idx) fun o o' q => ?_
    refine .eq_same (q.strlen idx) fun real _ => ?_
    have q : Fits { v with outBuf := o, writeSize := v.writeSize + real } { y with out := o' } := k.outb q
    cases f with
    | error s => exact printfError_like q _
    | text s =>
      simp only
      split
      · exact printfError_like q _
      · exact ⟨_, rfl, q⟩

theorem emit_like {m m' : M (Ush × Status)} (k : Status → Event) (h : Sim LikeR m m') :
    Sim Like (do let (v, s) ← m; return v.emit (k s)) (do let (v, s) ← m'; return v.emit (k s)) := by
  refine Sim.bind h ?_
  rintro ⟨v, s⟩ ⟨_, t⟩ ⟨⟨y, rfl, O⟩, ht⟩
  obtain rfl : t = s := ht
  exact O.emit _

/-! ## Directories and commands -/

theorem nodeMount_like (h : Fits u x) (p : Str) (i : NodeId) (fs : List FileDesc) : Sim LikeR (nodeMount E u p i fs) (nodeMount E (x.put u) p i fs) := by
  unfold nodeMount
  refine .eq_same (by rfl) fun r _ => ?_
  cases r with
  | some _ => exact ⟨⟨x, rfl, h⟩, rfl⟩
  | none =>
    refine .eq_same (by rfl) fun r _ => ?_
    cases r with
    | some _ => exact ⟨⟨x, rfl, h⟩, rfl⟩
    | none =>
      simp only
      split
      · exact ⟨⟨x, rfl, h⟩, rfl⟩
      · exact ⟨⟨x, rfl, h⟩, rfl⟩

theorem nodeUnmount_like (h : Fits u x) (p : Str) : Sim LikeR (nodeUnmount E u p) (nodeUnmount E (x.put u) p) := by
  unfold nodeUnmount
  refine .eq_same (by rfl) fun par _ => ?_
  refine .eq_same (by rfl) fun r _ => ?_
  cases r with
  | none => exact ⟨⟨x, rfl, h⟩, rfl⟩
  | some id =>
    simp only
    split
    · exact ⟨⟨x, rfl, h⟩, rfl⟩
    · split
      · exact ⟨⟨x, rfl, h⟩, rfl⟩
      · cases par with
        | none => exact ⟨⟨x, rfl, h⟩, rfl⟩
        | some p =>
          refine .same _ fun r _ => ?_
          match r with
          | none => exact ⟨⟨x, rfl, h⟩, rfl⟩
          | some none => exact ⟨⟨x, rfl, h⟩, rfl⟩
          | some (some q) => exact ⟨⟨x, rfl, h⟩, rfl⟩

theorem setCurrentDir_like (h : Fits u x) (p : Str) : Sim LikeR (setCurrentDir E u p) (setCurrentDir E (x.put u) p) := by
  unfold setCurrentDir
  split
  · exact ⟨⟨x, rfl, h⟩, rfl⟩
  · refine .eq_same (by rfl) fun abs _ => ?_
    refine .eq_same (by rfl) fun r _ => ?_
    cases r with
    | none => exact ⟨⟨x, rfl, h⟩, rfl⟩
    | some _ => exact ⟨⟨x, rfl, h⟩, rfl⟩

theorem commandsAdd_like (h : Fits u x) (i : NodeId) (fs : List FileDesc) : Sim LikeR (commandsAdd u i fs) (commandsAdd (x.put u) i fs) := by
  unfold commandsAdd
  refine .same _ fun _ _ => ?_
  exact ⟨⟨x, rfl, h⟩, rfl⟩

theorem commandsRemove_like (h : Fits u x) (i : NodeId) : Sim LikeR (commandsRemove E u i) (commandsRemove E (x.put u) i) := by
  unfold commandsRemove
  refine .same _ fun r _ => ?_
  match r with
  | none => exact ⟨⟨x, rfl, h⟩, rfl⟩
  | some none => exact ⟨⟨x, rfl, h⟩, rfl⟩
  | some (some q) => exact ⟨⟨x, rfl, h⟩, rfl⟩

theorem runApi_like (h : Fits u x) (a : Api) : Sim Like (runApi E u a) (runApi E (x.put u) a) := by
  cases a with
  | print p => exact writePointer_like h _ _
  | printNoNewline p => exact writePointer_like h _ _
  | printStatus s => exact writePointer_like h _ _
  | printf f => exact ushPrintf_like h f
  | flush => exact writePointer_like h _ _
  | reset => exact writePointer_like (u := { u with current := u.root }) h _ _
  | mount p i fs => exact emit_like .ret (nodeMount_like h p i fs)
  | unmount p => exact emit_like .ret (nodeUnmount_like h p)
  | setCurrentDir p => exact emit_like .ret (setCurrentDir_like h p)
  | commandsAdd i fs => exact emit_like .ret (commandsAdd_like h i fs)
  | commandsRemove i => exact emit_like .ret (commandsRemove_like h i)
  | processStart f => exact ⟨x, rfl, h⟩
  | setState s => exact ⟨x, rfl, h⟩
  | fillOut s =>
    refine Sim.bind (h.out.store (.refl s) 0) fun o o' k => ?_
    exact ⟨_, rfl, h.outb k⟩

theorem runApis_like : ∀ (as : List Api) {u : Ush} {x : Contents}, Fits u x → Sim Like (runApis E u as) (runApis E (x.put u) as) := by
  intro as
  induction as with
  | nil => intro u x h; exact ⟨x, rfl, h⟩
  | cons a as ih =>
    intro u x h
    refine Sim.bind (runApi_like h a) ?_
    rintro v _ ⟨y, rfl, k⟩
    exact ih k

/-! ## Line reader -/

theorem readEcho_like (h : Fits u x) (ch : UInt8) : Sim Like (readEcho u ch) (readEcho (x.put u) ch) := by
  unfold readEcho
  refine Sim.bind (r := sameNuls) ?_ fun o o' k => ?_
  · split
    · refine Sim.bind (h.out.wr _ _) fun _ _ k => ?_
      refine Sim.bind (k.wr _ _) fun _ _ k => ?_
      exact k.wr _ _
    · split
      · refine Sim.bind (h.out.wr _ _) fun _ _ k => ?_
        refine Sim.bind (k.wr _ _) fun _ _ k => ?_
        refine Sim.bind (k.wr _ _) fun _ _ k => ?_
        exact k.wr _ _
      · refine Sim.bind (h.out.wr _ _) fun _ _ k => ?_
        exact k.wr _ _
  · exact writePointer_like (h.outb k) _ _

theorem readCharByEscape_like (h : Fits u x) (ch : UInt8) : Sim LikeR (readCharByEscape E u ch) (readCharByEscape E (x.put u) ch) := by
  unfold readCharByEscape
  split
  · refine .same _ fun _ _ => ?_
    refine .same _ fun _ _ => ?_
    exact ⟨⟨x, rfl, h⟩, rfl⟩
  · split
    · split
      · exact ⟨⟨x, rfl, h⟩, rfl⟩
      · exact ⟨⟨x, rfl, h⟩, rfl⟩
    · split
      · exact ⟨⟨x, rfl, h⟩, rfl⟩
      · exact ⟨⟨x, rfl, h⟩, rfl⟩

theorem readChar_like (h : Fits u x) (io : Io) : Sim LikeR (readChar E io u) (readChar E io (x.put u)) := by
  unfold readChar
  split
  · exact ⟨⟨x, rfl, h⟩, rfl⟩
  · rename_i ch _
    obtain ⟨y, e, O1⟩ := h.emit (.inp ch)
    simp only [e]
    generalize u.emit (.inp ch) = w at O1
    refine Sim.bind (r := LikeR) ?_ ?_
    · split
      · refine Sim.bind (writePointer_like O1 _ _) ?_
        intro v w k
        exact ⟨k, rfl⟩
      · split
        · split
          · refine .same _ fun _ _ => ?_
            exact ⟨⟨y, rfl, O1⟩, rfl⟩
          · exact ⟨⟨y, rfl, O1⟩, rfl⟩
        · split
          · cases E.autocomplete
            · exact ⟨⟨y, rfl, O1⟩, rfl⟩
            · exact ⟨⟨y, rfl, O1⟩, rfl⟩
          · split
            · exact ⟨⟨y, rfl, O1⟩, rfl⟩
            · exact readCharByEscape_like O1 ch
    · rintro ⟨v, b⟩ ⟨_, b'⟩ ⟨⟨z, rfl, O2⟩, ht⟩
      obtain rfl : b' = b := ht
      refine Sim.bind (r := Like) ?_ ?_
      · simp only
        split
        · exact readEcho_like O2 ch
        · exact ⟨z, rfl, O2⟩
      · intro v w k
        exact ⟨k, rfl⟩

theorem readStart_like (h : Fits u x) : Sim Like (readStart u) (readStart (x.put u)) := by
  unfold readStart
  refine .same _ fun _ _ => ?_
  exact ⟨x, rfl, h⟩

theorem rd_like {a b : List UInt8} (h : a.length = b.length) (i : Nat) : Sim (fun _ _ => True) (rd a i) (rd b i) := by
  unfold rd
  by_cases hi : i < a.length
  · rw [List.getElem?_eq_getElem hi, List.getElem?_eq_getElem (h ▸ hi)]
    trivial
  · rw [List.getElem?_eq_none (by omega), List.getElem?_eq_none (by omega)]
    rfl

theorem writeChar_like (h : Fits u x) (io : Io) : Sim Like (writeChar io u) (writeChar io (x.put u)) := by
  unfold writeChar
  split
  · exact ⟨x, rfl, h⟩
  · refine Sim.bind (r := fun _ _ => True) ?_ fun c d _ => ?_
    · have hb := h.buf
      show Sim _ (ptrRead u u.writeBuf _) (ptrRead (x.put u) x.buf _)
      cases hu : u.writeBuf <;> cases hx : x.buf <;> rw [hu, hx] at hb <;> simp only [samePlace, reduceCtorEq] at hb
      case null.null => rfl
      case str.str s t => exact rd_like (by simp [hb]) _
      case data.data s t => exact rd_like hb _
      case inBuf.inBuf a b => cases hb; exact rd_like rfl _
      case outBuf.outBuf => exact rd_like h.out.length.symm _
    · split
      · exact ⟨{ x with log := x.log ++ [.out d] }, rfl, h.buf, h.data, h.out, h.log.snoc rfl⟩
      · exact ⟨x, rfl, h⟩

theorem promptPathStep_like (h : Fits u x) : Sim Like (promptPathStep u) (promptPathStep (x.put u)) := by
  unfold promptPathStep
  cases hc : u.current with
  | none => exact rfl
  | some c =>
    simp only
    cases (u.nodes c).path with
    | none => exact rfl
    | some p => exact writePointer_like h _ _

/-! ## Parser and callbacks -/

theorem putOut_like (h : Fits u x) (ch : UInt8) : Sim Like (putOut u ch) (putOut (x.put u) ch) := by
  unfold putOut
  refine .same _ fun _ _ => ?_
  exact ⟨x, rfl, h⟩

theorem parseEscaped_like (h : Fits u x) (ch : UInt8) : Sim Like (parseEscaped u ch) (parseEscaped (x.put u) ch) := by
  unfold parseEscaped
  refine Sim.bind (r := Like) ?_ ?_
  · split
    · exact putOut_like h _
    · exact ⟨x, rfl, h⟩
  · rintro v _ ⟨y, rfl, O1⟩
    refine Sim.bind (putOut_like O1 ch) ?_
    rintro w _ ⟨z, rfl, O2⟩
    exact ⟨z, rfl, O2⟩

theorem parseCharStandard_like (h : Fits u x) (ch : UInt8) : Sim Like (parseCharStandard u ch) (parseCharStandard (x.put u) ch) := by
  unfold parseCharStandard
  cases hs : u.state
  case parseSearchArg =>
    simp only
    split
    · exact ⟨x, rfl, h⟩
    · split
      · exact ⟨x, rfl, h⟩
      · split
        · exact ⟨x, rfl, h⟩
        · refine Sim.bind (putOut_like h ch) ?_
          rintro v _ ⟨y, rfl, O1⟩
          exact ⟨y, rfl, O1⟩
  case parseQuoteArg =>
    simp only
    split
    · exact parseEscaped_like h ch
    · split
      · exact ⟨x, rfl, h⟩
      · split
        · exact ⟨x, rfl, h⟩
        · exact putOut_like h ch
  case parseStandardArg =>
    simp only
    split
    · exact parseEscaped_like h ch
    · split
      · refine Sim.bind (putOut_like h cNul) ?_
        rintro v _ ⟨y, rfl, O1⟩
        exact ⟨y, rfl, O1⟩
      · split
        · exact ⟨x, rfl, h⟩
        · split
          · exact ⟨x, rfl, h⟩
          · exact putOut_like h ch
  all_goals exact rfl

theorem callSet_like (P : Unseeing E) (h : Fits u x) (id : Nat) (d : List UInt8) : Sim Like (callSet E u id d) (callSet E (x.put u) id d) := by
  unfold callSet
  rw [P.set id d u _ ⟨x, rfl, h⟩]
  obtain ⟨y, e, k⟩ := h.emit (.setData id d)
  rw [e]
  exact runApis_like _ k

theorem callHook_like (P : Unseeing E) (h : Fits u x) (strs : List Str) : Sim Like (callHook E u strs) (callHook E (x.put u) strs) := by
  unfold callHook
  cases hh : E.hook with
  | none => exact ⟨x, rfl, h⟩
  | some f =>
    simp only
    rw [P.hook f hh strs u _ ⟨x, rfl, h⟩]
    obtain ⟨y, e, k⟩ := h.emit (.hook strs)
    rw [e]
    exact runApis_like _ k

theorem fileFindByName_put (u : Ush) (x : Contents) (name : Str) : fileFindByName E (x.put u) name = fileFindByName E u name := rfl

theorem catCheck_put (u : Ush) (x : Contents) : ∀ (os : List Nat), catCheck E (x.put u) os = catCheck E u os := by
  intro os
  induction os with
  | nil => rfl
  | cons o os ih => simp only [catCheck, fileFindByName_put, ih]

theorem catCallback_like (h : Fits u x) (f : FileDesc) (argv : List Nat) : Sim Like (catCallback E u f argv) (catCallback E (x.put u) f argv) := by
  unfold catCallback
  split
  · exact writePointer_like h _ _
  · refine .eq_same (catCheck_put u x _) fun r _ => ?_
    cases r with
    | some s => exact writePointer_like h _ _
    | none => exact ⟨x, rfl, h⟩

theorem catService_like (P : Unseeing E) (h : Fits u x) : Sim Like (catService E u) (catService E (x.put u)) := by
  unfold catService
  cases hs : u.state
  case processStart => exact ⟨x, rfl, h⟩
  case processService =>
    simp only
    split
    · exact ⟨x, rfl, h⟩
    · refine .same _ fun argv _ => ?_
      refine .same _ fun o _ => ?_
      refine .same _ fun name _ => ?_
      refine .eq_same (fileFindByName_put u x name) fun r _ => ?_
      cases r with
      | none => exact rfl
      | some f =>
        simp only
        cases f.getData with
        | none => exact rfl
        | some id =>
          simp only [callGet, P.get id u _ ⟨x, rfl, h⟩]
          cases E.userGet id u with
          | none => exact rfl
          | some d =>
            obtain ⟨y, e, k⟩ := h.emit (.getData id)
            simp only [e]
            exact ⟨_, rfl, k.ptr (.data d)⟩
  case processFinish => exact ⟨x, rfl, h⟩
  all_goals exact ⟨x, rfl, h⟩

theorem cdCallback_like (h : Fits u x) (argv : List Nat) : Sim Like (cdCallback E u argv) (cdCallback E (x.put u) argv) := by
  unfold cdCallback
  split
  · exact writePointer_like h _ _
  · refine .same _ fun o _ => ?_
    refine .same _ fun path _ => ?_
    refine Sim.bind (setCurrentDir_like h path) ?_
    rintro ⟨v, s⟩ ⟨_, s'⟩ ⟨⟨y, rfl, O1⟩, ht⟩
    obtain rfl : s' = s := ht
    simp only
    split
    · exact writePointer_like O1 _ _
    · exact ⟨y, rfl, O1⟩

theorem pwdCallback_like (h : Fits u x) (argv : List Nat) : Sim Like (pwdCallback E u argv) (pwdCallback E (x.put u) argv) := by
  unfold pwdCallback
  split
  · exact writePointer_like h _ _
  · cases hc : u.current with
    | none => exact rfl
    | some c =>
      simp only
      cases (u.nodes c).path with
      | none => exact rfl
      | some p => exact writePointer_like h _ _

theorem echoDecode_like (h : Fits u x) (argv : List Nat) : Sim LikeR (echoDecode u argv) (echoDecode (x.put u) argv) := by
  unfold echoDecode
  refine .same _ fun o _ => ?_
  refine .same _ fun max _ => ?_
  refine .same _ fun r _ => ?_
  exact ⟨⟨x, rfl, h⟩, rfl⟩

theorem echoCallback_like (P : Unseeing E) (h : Fits u x) (argv : List Nat) : Sim Like (echoCallback E u argv) (echoCallback E (x.put u) argv) := by
  unfold echoCallback
  split
  · refine .same _ fun o2 _ => ?_
    refine .same _ fun s2 _ => ?_
    split
    · exact writePointer_like h _ _
    · refine .same _ fun o3 _ => ?_
      refine .same _ fun s3 _ => ?_
      refine .eq_same (fileFindByName_put u x s3) fun r _ => ?_
      cases r with
      | none => exact writePointer_like h _ _
      | some f =>
        simp only
        cases f.setData with
        | none => exact writePointer_like h _ _
        | some id =>
          refine Sim.bind (echoDecode_like h argv) ?_
          rintro ⟨v, o, sz⟩ ⟨_, o', sz'⟩ ⟨⟨y, rfl, O1⟩, ht⟩
          obtain ⟨rfl, rfl⟩ : o' = o ∧ sz' = sz := by simpa using ht
          exact callSet_like P O1 id _
  · refine Sim.bind (echoDecode_like h argv) ?_
    rintro ⟨v, o, sz⟩ ⟨_, o', sz'⟩ ⟨⟨y, rfl, O1⟩, ht⟩
    obtain ⟨rfl, rfl⟩ : o' = o ∧ sz' = sz := by simpa using ht
    exact writePointer_like O1 _ _
  · exact ⟨x, rfl, h⟩
  · exact writePointer_like h _ _

theorem helpCallback_like (h : Fits u x) (f : FileDesc) (argv : List Nat) : Sim Like (helpCallback E u f argv) (helpCallback E (x.put u) f argv) := by
  unfold helpCallback
  split
  · exact ⟨x, rfl, h⟩
  · refine .same _ fun o _ => ?_
    refine .same _ fun name _ => ?_
    refine .eq_same (fileFindByName_put u x name) fun r _ => ?_
    cases r with
    | none => exact writePointer_like h _ _
    | some f =>
      simp only
      cases f.help with
      | none => exact writePointer_like h _ _
      | some t => exact writePointer_like h _ _
  · exact writePointer_like h _ _

theorem helpService_like (h : Fits u x) : Sim Like (helpService E u) (helpService E (x.put u)) := by
  unfold helpService
  cases hs : u.state
  case processStart =>
    simp only
    try rw [← hs]
    cases hn : u.procNode with
    | none => exact ⟨x, rfl, h⟩
    | some n =>
      simp only
      try rw [← hn]
      try rw [← hs]
      split
      · exact ⟨x, rfl, h⟩
      · cases (u.nodes n).files[u.procItem]? with
        | none => exact rfl
        | some f =>
          simp only
          try dsimp only [Contents.put]
          split
          · cases f.description with
            | some d =>
              refine Sim.bind (h.out.store (.refl _) 0) fun o o' k => ?_
              exact writePointer_like (u := { u with outBuf := o, procIndex := 1 }) (h.outb k) _ _
            | none =>
              refine Sim.bind (h.out.store (.refl _) 0) fun o o' k => ?_
              exact writePointer_like (u := { u with outBuf := o, procIndex := 2 }) (h.outb k) _ _
          · cases f.description with
            | some d => exact writePointer_like (u := { u with procIndex := 2 }) h _ _
            | none => exact rfl
          · exact writePointer_like (u := { u with procIndex := 0, procItem := u.procItem + 1 }) h _ _
          · exact rfl
  all_goals exact ⟨x, rfl, h⟩

theorem lsCallback_like (h : Fits u x) (f : FileDesc) (argv : List Nat) : Sim Like (lsCallback E u f argv) (lsCallback E (x.put u) f argv) := by
  unfold lsCallback
  split
  · exact ⟨x, rfl, h⟩
  · refine .same _ fun o _ => ?_
    refine .same _ fun path _ => ?_
    refine .eq_same (by rfl) fun abs _ => ?_
    refine .eq_same (by rfl) fun r hr => ?_
    cases r with
    | none => exact writePointer_like (u := { u with procNode := none }) h _ _
    | some n => exact ⟨x, rfl, h⟩
  · exact writePointer_like h _ _

theorem lsService_like (h : Fits u x) : Sim Like (lsService E u) (lsService E (x.put u)) := by
  unfold lsService
  cases hs : u.state
  case processStart =>
    simp only
    try rw [← hs]
    cases hn : u.procNode with
    | none => exact rfl
    | some n =>
      simp only
      try rw [← hn]
      try rw [← hs]
      refine Sim.bind (writePointer_like h _ _) ?_
      rintro v _ ⟨y, rfl, O1⟩
      exact ⟨y, rfl, O1⟩
  case processService =>
    simp only
    try rw [← hs]
    cases hn : u.procChild with
    | none =>
      simp only
      exact ⟨x, rfl, h⟩
    | some c =>
      simp only
      try rw [← hn]
      try rw [← hs]
      try dsimp only [Contents.put]
      split
      · exact writePointer_like (u := { u with procIndex := 1 }) h _ _
      · cases (u.nodes c).path with
        | none => exact rfl
        | some p => exact writePointer_like (u := { u with procIndex := 2 }) h _ _
      · exact writePointer_like (u := { u with procIndex := 3 }) h _ _
      · exact ⟨x, rfl, h⟩
      · exact rfl
  case processFinish =>
    simp only
    try rw [← hs]
    cases hn : u.procNode with
    | none => exact rfl
    | some n =>
      simp only
      try rw [← hn]
      try rw [← hs]
      split
      · exact ⟨x, rfl, h⟩
      · cases (u.nodes n).files[u.procItem]? with
        | none => exact rfl
        | some f =>
          simp only
          try dsimp only [Contents.put]
          split
          · refine Sim.bind (h.out.store (.refl _) 0) fun o o' k => ?_
            exact writePointer_like (u := { u with outBuf := o, procIndex := 1 }) (h.outb k) _ _
          · cases f.description with
            | some d =>
              refine Sim.bind (h.out.store (.refl _) 0) fun o o' k => ?_
              exact writePointer_like (u := { u with outBuf := o, procIndex := 2 }) (h.outb k) _ _
            | none =>
              refine Sim.bind (h.out.store (.refl _) 0) fun o o' k => ?_
              exact writePointer_like (u := { u with outBuf := o, procIndex := 3 }) (h.outb k) _ _
          · cases f.description with
            | some d => exact writePointer_like (u := { u with procIndex := 3 }) h _ _
            | none => exact rfl
          · exact writePointer_like (u := { u with procIndex := 0, procItem := u.procItem + 1 }) h _ _
          · exact rfl
  all_goals exact ⟨x, rfl, h⟩

theorem xxdCallback_like (P : Unseeing E) (h : Fits u x) (f : FileDesc) (argv : List Nat) : Sim Like (xxdCallback E u f argv) (xxdCallback E (x.put u) f argv) := by
  unfold xxdCallback
  split
  · exact writePointer_like h _ _
  · refine .same _ fun o _ => ?_
    refine .same _ fun name _ => ?_
    refine .eq_same (fileFindByName_put u x name) fun r _ => ?_
    cases r with
    | none => exact writePointer_like h _ _
    | some f =>
      simp only
      cases f.getData with
      | none => exact writePointer_like h _ _
      | some id =>
        obtain ⟨y, e, k⟩ := h.emit (.getData id)
        simp only [callGet, P.get id u _ ⟨x, rfl, h⟩, e]
        cases E.userGet id u with
        | none => exact ⟨y, rfl, k⟩
        | some d => exact ⟨{ y with data := some d }, rfl, k.buf, rfl, k.out, k.log⟩

theorem procDataAt_like (h : Fits u x) (i : Nat) : Sim (fun _ _ => True) (procDataAt u i) (procDataAt (x.put u) i) := by
  unfold procDataAt
  have hd := h.data
  show Sim _ (match u.procData with | none => _ | some d => _) (match x.data with | none => _ | some d => _)
  cases hu : u.procData <;> cases hx : x.data <;> rw [hu, hx] at hd
  · rfl
  · exact hd.elim
  · exact hd.elim
  · exact rd_like hd i

theorem hexDigit_nul {n : Nat} (h : n < 16) : (hexDigit n == cNul) = false := by
  have : ∀ m < 16, (hexDigit m == cNul) = false := by decide
  exact this n h

theorem hex2_nuls (b c : UInt8) : sameNuls (hex2 b ++ b!" ") (hex2 c ++ b!" ") := by
  have hb := b.toNat_lt
  have hc := c.toNat_lt
  unfold sameNuls hex2
  simp only [List.cons_append, List.nil_append, List.map_cons, List.map_nil]
  rw [hexDigit_nul (by omega), hexDigit_nul (by omega), hexDigit_nul (by omega), hexDigit_nul (by omega)]

theorem xxdHexLoop_like (h : Fits u x) : ∀ (c i : Nat) (a b : List UInt8), sameNuls a b → Sim sameNuls (xxdHexLoop u c i a) (xxdHexLoop (x.put u) c i b) := by
  intro c
  induction c with
  | zero => intro i a b k; exact k
  | succ n ih =>
    intro i a b k
    unfold xxdHexLoop
    refine Sim.bind (r := sameNuls) ?_ fun a b k => ih _ _ _ k
    split
    · refine Sim.bind (procDataAt_like h i) fun c d _ => ?_
      exact k.appendStr (hex2_nuls c d)
    · exact k.appendStr (.refl _)

theorem text_nuls (c : UInt8) : sameNuls (if isPrintable c then [c] else b!".") b!"." := by
  split
  · rename_i h
    have : c ≠ cNul := by rintro rfl; revert h; decide
    have : (c == cNul) = false := by simpa using this
    show [c == cNul] = [false]
    rw [this]
  · rfl

theorem xxdTextLoop_like (h : Fits u x) : ∀ (c i : Nat) (a b : List UInt8), sameNuls a b →
    Sim (fun r s => sameNuls r.1 s.1 ∧ s.2 = r.2) (xxdTextLoop u c i a) (xxdTextLoop (x.put u) c i b) := by
  intro c
  induction c with
  | zero => intro i a b k; exact ⟨k, rfl⟩
  | succ n ih =>
    intro i a b k
    unfold xxdTextLoop
    refine Sim.bind (r := sameNuls) ?_ fun a b k => ih _ _ _ k
    split
    · refine Sim.bind (procDataAt_like h i) fun c d _ => ?_
      have e : ∀ (a : List UInt8) (c : UInt8), (if isPrintable c = true then appendStr a [c] else appendStr a b!".") = appendStr a (if isPrintable c then [c] else b!".") := by
        intro a c; split <;> rfl
      rw [e, e]
      exact k.appendStr ((text_nuls c).trans (text_nuls d).symm)
    · exact k.appendStr (.refl _)

theorem xxdService_like (h : Fits u x) : Sim Like (xxdService E u) (xxdService E (x.put u)) := by
  unfold xxdService
  cases hs : u.state
  case processStart => exact ⟨x, rfl, h⟩
  case processService =>
    simp only
    try rw [← hs]
    try dsimp only [Contents.put]
    split
    · refine Sim.bind (h.out.store (.refl _) 0) fun o o' k => ?_
      exact writePointer_like (u := { u with outBuf := o, procIndex := 1 }) (h.outb k) _ _
    · refine Sim.bind (h.out.wr 0 cNul) fun o o' k => ?_
      refine Sim.bind (xxdHexLoop_like h _ _ _ _ k) fun o o' k => ?_
      refine Sim.bind (k.appendStr (.refl _)) fun o o' k => ?_
      exact writePointer_like (u := { u with outBuf := o, procIndex := 2 }) (h.outb k) _ _
    · refine Sim.bind (h.out.wr 0 cNul) fun o o' k => ?_
      refine Sim.bind (xxdTextLoop_like h _ _ _ _ k) ?_
      rintro ⟨o, i⟩ ⟨o', i'⟩ ⟨k, e⟩
      obtain rfl : i' = i := e
      exact writePointer_like (u := { u with outBuf := o, procIndex := 3, procItem := i' }) (h.outb k) _ _
    · split
      · exact writePointer_like h _ _
      · exact writePointer_like (u := { u with procIndex := 0 }) h _ _
    · exact rfl
  case processFinish => exact ⟨x, rfl, h⟩
  all_goals exact ⟨x, rfl, h⟩

theorem callExec_like (P : Unseeing E) (h : Fits u x) (f : FileDesc) (cb : Cb) (argv : List Nat) (strs : List Str) :
    Sim Like (callExec E u f cb argv strs) (callExec E (x.put u) f cb argv strs) := by
  unfold callExec
  obtain ⟨y, e, O1⟩ := h.emit (.exec cb strs)
  simp only [e]
  generalize u.emit (.exec cb strs) = w at O1
  cases cb with
  | user id =>
    simp only
    rw [P.exec id strs w _ ⟨y, rfl, O1⟩]
    exact runApis_like _ O1
  | builtin b =>
    cases b
    · exact helpCallback_like O1 f argv
    · exact lsCallback_like O1 f argv
    · exact cdCallback_like O1 argv
    · exact pwdCallback_like O1 argv
    · exact catCallback_like O1 f argv
    · exact xxdCallback_like P O1 f argv
    · exact echoCallback_like P O1 argv

theorem processCall_like (P : Unseeing E) (h : Fits u x) : Sim Like (processCall E u) (processCall E (x.put u)) := by
  unfold processCall
  cases hf : u.procFile with
  | none => exact rfl
  | some f =>
    simp only
    cases f.process with
    | none => exact ⟨x, rfl, h⟩
    | some cb =>
      cases cb with
      | user id =>
        simp only
        rw [P.proc id u _ ⟨x, rfl, h⟩]
        obtain ⟨y, e, k⟩ := h.emit (.proc id)
        rw [e]
        exact runApis_like _ k
      | builtin b =>
        cases b
        · exact helpService_like h
        · exact lsService_like h
        · exact rfl
        · exact rfl
        · exact catService_like P h
        · exact xxdService_like h
        · exact rfl

theorem parseFinish_like (P : Unseeing E) (h : Fits u x) : Sim Like (parseFinish E u) (parseFinish E (x.put u)) := by
  unfold parseFinish
  refine .same _ fun argv _ => ?_
  split
  · exact ⟨x, rfl, h⟩
  · refine .same _ fun strs _ => ?_
    refine Sim.bind (callHook_like P h strs) ?_
    rintro v _ ⟨y, rfl, O1⟩
    refine .same _ fun o _ => ?_
    refine .same _ fun name _ => ?_
    refine .eq_same (fileFindByName_put v y name) fun r _ => ?_
    cases r with
    | none => exact writePointer_like O1 _ _
    | some f =>
      simp only
      cases f.exec with
      | none => exact writePointer_like O1 _ _
      | some cb => exact callExec_like P O1 f cb argv strs

theorem parseChar_like (P : Unseeing E) (h : Fits u x) : Sim Like (parseChar E u) (parseChar E (x.put u)) := by
  unfold parseChar
  refine .same _ fun ch _ => ?_
  simp only
  split
  · refine Sim.bind (putOut_like (u := { u with inPos := u.inPos + 1 }) h cNul) ?_
    rintro v _ ⟨y, rfl, O1⟩
    exact parseFinish_like (u := { v with state := .resetPrompt }) P O1
  · exact parseCharStandard_like (u := { u with inPos := u.inPos + 1 }) h ch

/-! ## Completion -/

theorem acOptimizeContinue_like (h : Fits u x) : Sim Like (acOptimizeContinue E u) (acOptimizeContinue E (x.put u)) := by
  unfold acOptimizeContinue
  refine .same _ fun pos _ => ?_
  simp only
  cases hc : u.acCand with
  | none => exact rfl
  | some cand =>
    simp only
    split
    · exact ⟨x, rfl, h⟩
    · refine .same _ fun ch _ => ?_
      refine .same _ fun buf _ => ?_
      refine .same _ fun buf _ => ?_
      exact ⟨x, rfl, h⟩

theorem acCheckForFinish_like (h : Fits u x) : Sim Like (acCheckForFinish E u) (acCheckForFinish E (x.put u)) := by
  unfold acCheckForFinish
  refine .same _ fun _ _ => ?_
  match hp : u.procStage with
  | 0 => exact ⟨x, rfl, h⟩
  | 1 =>
    refine .same _ fun input _ => ?_
    refine .eq_same (by rfl) fun abs _ => ?_
    refine Sim.bind (r := fun a b => b = a) ?_ ?_
    · split
      · exact rfl
      · refine .eq_same (by rfl) fun r hr => ?_
        cases r with
        | some n => exact rfl
        | none => exact rfl
    · rintro a b rfl
      cases b with
      | none => exact rfl
      | some n => exact ⟨x, rfl, h⟩
  | 2 => exact ⟨x, rfl, h⟩
  | _ + 3 => exact rfl

theorem acCheckForNext_like (h : Fits u x) (n : NodeId) : Sim LikeR (acCheckForNext u n) (acCheckForNext (x.put u) n) := by
  unfold acCheckForNext
  dsimp only [Contents.put]
  split
  · split
    · exact ⟨⟨x, rfl, h⟩, rfl⟩
    · exact ⟨⟨x, rfl, h⟩, rfl⟩
  · split
    · exact ⟨⟨x, rfl, h⟩, rfl⟩
    · exact ⟨⟨x, rfl, h⟩, rfl⟩
  · exact ⟨⟨x, rfl, h⟩, rfl⟩
  · exact rfl

theorem acFilePrepare_like (h : Fits u x) (n : NodeId) : Sim LikeR (acFilePrepare u n) (acFilePrepare (x.put u) n) := by
  unfold acFilePrepare
  dsimp only [Contents.put]
  refine .same _ fun input _ => ?_
  have file : Sim LikeR (match (u.nodes n).files[u.procItem]? with
      | none => .error .oob
      | some f => if startsWith f.name input = false then pure ({ u with procItem := u.procItem + 1, procIndex := 0 }, some f, true)
          else pure (u, some f, false)) (match (u.nodes n).files[u.procItem]? with
      | none => .error .oob
      | some f => if startsWith f.name input = false then pure ({ x.put u with procItem := u.procItem + 1, procIndex := 0 }, some f, true)
          else pure (x.put u, some f, false)) := by
    cases (u.nodes n).files[u.procItem]? with
    | none => exact rfl
    | some f =>
      simp only
      split
      · exact ⟨⟨x, rfl, h⟩, rfl⟩
      · exact ⟨⟨x, rfl, h⟩, rfl⟩
  split
  · exact file
  · exact file
  · cases (u.nodes n).path with
    | none => exact rfl
    | some p =>
      simp only
      split
      · exact ⟨⟨x, rfl, h⟩, rfl⟩
      · exact ⟨⟨x, rfl, h⟩, rfl⟩
  · exact rfl

theorem acFileIndex_like (h : Fits u x) (n : NodeId) (f : Option FileDesc) : Sim Like (acFileIndex u n f) (acFileIndex (x.put u) n f) := by
  unfold acFileIndex
  dsimp only [Contents.put]
  split
  · refine .same _ fun name _ => ?_
    refine Sim.bind (r := Like) ?_ ?_
    · split
      · exact writePointer_like h _ _
      · exact ⟨x, rfl, h⟩
    · rintro v _ ⟨y, rfl, O1⟩
      exact ⟨y, rfl, O1⟩
  · refine Sim.bind (r := Like) ?_ ?_
    · split
      · exact writePointer_like h _ _
      · exact ⟨x, rfl, h⟩
    · rintro v _ ⟨y, rfl, O1⟩
      exact ⟨y, rfl, O1⟩
  · split
    · exact ⟨x, rfl, h⟩
    · exact ⟨x, rfl, h⟩
    · exact ⟨x, rfl, h⟩
    · exact rfl
  · exact rfl

theorem acRecallSuffix_like (h : Fits u x) : Sim Like (acRecallSuffix u) (acRecallSuffix (x.put u)) := by
  unfold acRecallSuffix
  refine .same _ fun len _ => ?_
  split
  · exact rfl
  · refine .same _ fun slen _ => ?_
    split
    · exact writePointer_like h _ _
    · exact writePointer_like (u := acPrepareCandidates u) h _ _

theorem acCandidatesProcess_like (h : Fits u x) : Sim Like (acCandidatesProcess E u) (acCandidatesProcess E (x.put u)) := by
  unfold acCandidatesProcess
  cases hn : u.procNode with
  | none => exact acCheckForFinish_like h
  | some n =>
    simp only
    refine Sim.bind (acCheckForNext_like h n) ?_
    rintro ⟨v, b⟩ ⟨_, b'⟩ ⟨⟨y, rfl, O1⟩, ht⟩
    obtain rfl : b' = b := ht
    simp only
    split
    · exact ⟨y, rfl, O1⟩
    · refine Sim.bind (acFilePrepare_like O1 n) ?_
      rintro ⟨w, f, b2⟩ ⟨_, f', b2'⟩ ⟨⟨z, rfl, O2⟩, ht⟩
      obtain ⟨rfl, rfl⟩ : f' = f ∧ b2' = b2 := by simpa using ht
      simp only
      split
      · exact ⟨z, rfl, O2⟩
      · exact acFileIndex_like O2 n _

theorem acCandidatesFinish_like (h : Fits u x) : Sim Like (acCandidatesFinish E u) (acCandidatesFinish E (x.put u)) := by
  unfold acCandidatesFinish
  cases hp : u.acPrevState
  case acCandPrint => exact ⟨x, rfl, h⟩
  case acCandCount =>
    simp only
    try dsimp only [Contents.put]
    split
    · exact ⟨x, rfl, h⟩
    · refine .same _ fun len _ => ?_
      cases hc : u.acCand with
      | none => exact rfl
      | some cand =>
        refine .same _ fun buf _ => ?_
        refine .same _ fun p _ => ?_
        rw [← hp, ← hc]
        exact writePointer_like (u := { u with inBuf := buf, inPos := p }) h _ _
    · rw [← hp]
      exact acOptimizeContinue_like (u := { u with acSuffixLen := 0 }) h
  case acCandOptimise =>
    simp only
    split
    · refine .same _ fun buf _ => ?_
      split
      · exact rfl
      · exact ⟨x, rfl, h⟩
    · exact acOptimizeContinue_like h
  all_goals exact rfl

/-! ## One step -/

theorem innerStep_like (P : Unseeing E) (h : Fits u x) : Sim Like (innerStep E u) (innerStep E (x.put u)) := by
  unfold innerStep
  cases hs : u.state <;> simp only
  case readPrepare => exact readStart_like h
  case promptPath => exact promptPathStep_like h
  case resetPrompt => exact ⟨x, rfl, h⟩
  case readChar => exact ⟨x, rfl, h⟩
  case writeChar => exact ⟨x, rfl, h⟩
  case parsePrepare => exact ⟨x, rfl, h⟩
  case parseSearchArg => exact parseChar_like P h
  case parseQuoteArg => exact parseChar_like P h
  case parseStandardArg => exact parseChar_like P h
  case processStart => exact processCall_like P h
  case processService => exact processCall_like P h
  case processFinish => exact processCall_like P h
  case acPrepare =>
    refine .same _ fun s _ => ?_
    exact ⟨x, rfl, h⟩
  case acCandStart => exact ⟨x, rfl, h⟩
  case acCandCount => exact acCandidatesProcess_like h
  case acCandOptimise => exact acCandidatesProcess_like h
  case acCandPrint => exact acCandidatesProcess_like h
  case acCandFinish => exact acCandidatesFinish_like h
  case acPrompt => exact ⟨x, rfl, h⟩
  case acRecallSuffix => exact acRecallSuffix_like h
  all_goals exact writePointer_like h _ _

theorem service_like (P : Unseeing E) (h : Fits u x) (io : Io) : Sim LikeR (service E io u) (service E io (x.put u)) := by
  by_cases hc : u.current.isSome = true
  · rw [service_eq E io u hc, service_eq E io (x.put u) hc]
    have lift : ∀ {m m' : M Ush} (b : Bool), Sim Like m m' → Sim LikeR (m >>= fun v => .ok (v, b)) (m' >>= fun v => .ok (v, b)) := by
      intro m m' b h
      exact Sim.bind h fun v w k => ⟨k, rfl⟩
    have I := lift true (innerStep_like P h)
    cases hs : u.state <;> simp only
    case readChar => exact readChar_like h io
    case readPrepare => exact lift false (readStart_like h)
    case writeChar => exact lift true (writeChar_like h io)
    all_goals exact I
  · have hn : u.current.isSome = false := by simpa using hc
    have e1 : ∀ v : Ush, v.current = u.current → service E io v = .error .assert := by
      intro v hv
      unfold service
      rw [hv, hn]
      rfl
    rw [e1 u rfl, e1 (x.put u) rfl]
    exact rfl

theorem step_like (P : Unseeing E) {u v : Ush} (H : Like u v) (o : Op) : Sim Like (step E u o) (step E v o) := by
  obtain ⟨x, rfl, h⟩ := H
  cases o with
  | service io => exact Sim.bind (service_like P h io) fun _ _ k => k.1
  | api a => exact runApi_like h a
  | init =>
    show Sim _ (ushInit E u) (ushInit E (x.put u))
    unfold ushInit
    refine .same _ fun _ _ => ?_
    refine .same _ fun _ _ => ?_
    refine Sim.bind (r := Like) ?_ ?_
    · split
      · exact Sim.bind (commandsAdd_like (u := { u with root := none }) h 0 (builtinTable E)) fun _ _ k => k.1
      · exact ⟨x, rfl, h⟩
    rintro v _ ⟨y, rfl, O1⟩
    exact writePointer_like (u := { v with current := v.root }) O1 _ _
  | deinit =>
    show Sim _ (ushDeinit E u) (ushDeinit E (x.put u))
    unfold ushDeinit
    refine .same _ fun nodes _ => ?_
    exact ⟨⟨.null, none, x.out, x.log⟩, rfl, rfl, trivial, h.out, h.log⟩

/-! ## Rewriting -/

theorem Spec.samePlace.trans {p q r : Ptr} (h : samePlace p q) (k : samePlace q r) : samePlace p r := by
  cases p <;> cases q <;> cases r <;> simp_all [samePlace]

theorem Spec.sameSize.trans {p q r : Option (List UInt8)} (h : sameSize p q) (k : sameSize q r) : sameSize p r := by
  cases p <;> cases q <;> cases r <;> simp_all [sameSize]

theorem Spec.Like.rewritten {u v w : Ush} (H : Like u v) (R : Rewritten v w) : Like u w := by
  obtain ⟨x, rfl, h⟩ := H
  obtain ⟨p, d, rfl, h1, h2⟩ := R
  exact ⟨⟨p, d, x.out, x.log⟩, rfl, samePlace.trans h.buf h1, sameSize.trans h.data h2, h.out, h.log⟩

theorem Spec.Like.state {u v : Ush} (H : Like u v) : v.state = u.state := by obtain ⟨x, rfl, _⟩ := H; rfl

theorem runR_like (P : Unseeing E) {p : Nat → Ush → Ush} (hp : Rewriter p) : ∀ (os : List Op) (n : Nat) {u v : Ush}, Like u v → Sim Like (run E u os) (runR E p n v os) := by
  intro os
  induction os with
  | nil => intro n u v h; exact h
  | cons o os ih => intro n u v h; exact Sim.bind (step_like P (h.rewritten (hp n v)) o) fun _ _ k => ih _ k

theorem drive1_like (P : Unseeing E) {u v : Ush} (H : Like u v) (inp : List UInt8) (s : Slot) : Sim LikeR (drive1 E u inp s) (drive1 E v inp s) := by
  obtain ⟨x, rfl, h⟩ := H
  exact Sim.bind (service_like P h _) fun _ _ k => ⟨k.1, rfl⟩

theorem driveR_like (P : Unseeing E) {p : Nat → Ush → Ush} (hp : Rewriter p) : ∀ (ss : List Slot) (n : Nat) {u v : Ush} (inp : List UInt8), Like u v →
    Sim LikeR (drive E u inp ss) (driveR E p n v inp ss) := by
  intro ss
  induction ss with
  | nil => intro n u v inp h; exact ⟨h, rfl⟩
  | cons s ss ih =>
    intro n u v inp h
    refine Sim.bind (drive1_like P (h.rewritten (hp n v)) inp s) ?_
    rintro ⟨u', r⟩ ⟨v', r'⟩ ⟨k, e⟩
    obtain rfl : r' = r := e
    exact ih _ _ k

end Ush
