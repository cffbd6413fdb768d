import Verif.Spec.Deeds
/-! # When the application is asked to do something: lemmas -/
namespace Ush
open Spec

@[simp] theorem deeds_append (a b : List Event) : deeds (a ++ b) = deeds a ++ deeds b := List.filter_append ..

@[simp] theorem deeds_outs (s : Str) : deeds (outs s) = [] := by
  unfold deeds outs
  rw [List.filter_eq_nil_iff]
  intro e he
  obtain ⟨c, -, rfl⟩ := List.mem_map.mp he
  simp [isDeed]

@[simp] theorem deeds_ret (rs : List Status) : deeds (rs.map .ret) = [] := by
  unfold deeds
  rw [List.filter_eq_nil_iff]
  intro e he
  obtain ⟨c, -, rfl⟩ := List.mem_map.mp he
  simp [isDeed]

@[simp] theorem deeds_nil : deeds [] = [] := rfl
@[simp] theorem deeds_inp (c : UInt8) (l : List Event) : deeds (.inp c :: l) = deeds l := rfl
@[simp] theorem deeds_get (i : Nat) (l : List Event) : deeds (.getData i :: l) = deeds l := rfl
@[simp] theorem deeds_exec (c : Cb) (as : List Str) (l : List Event) : deeds (.exec c as :: l) = .exec c as :: deeds l := rfl
@[simp] theorem deeds_set (i : Nat) (d : Str) (l : List Event) : deeds (.setData i d :: l) = .setData i d :: deeds l := rfl

@[simp] theorem deeds_cat (rs : List (Nat × Str)) : deeds (catLog rs) = [] := by
  unfold catLog
  induction rs with
  | nil => rfl
  | cons c s ih => rw [List.flatMap_cons, deeds_append, ih]; simp

@[simp] theorem deeds_hook (E : Env) (argv : List Str) : deeds (hookEvents E argv) = [] := by
  unfold hookEvents
  split <;> rfl

@[simp] theorem deeds_tells (E : Env) (W : World) (s : Str) : deeds (tells E W s).1 = [] := deeds_outs _
@[simp] theorem deeds_errs (E : Env) (W : World) (s : Status) : deeds (errs E W s).1 = [] := deeds_outs _

variable {E : Env} {A : App}

theorem deeds_builtin (T : Talk) (l : List Event) (b : Builtin) (as : List Str) :
    deeds (builtinAnswer E A T l b as).1 = if b = .echo then T.world.written as else [] := by
  cases b with
  | pwd => rcases as with _ | ⟨a, as⟩ <;> simp [builtinAnswer]
  | cd =>
    rcases as with _ | ⟨a, _ | ⟨a', as⟩⟩ <;> simp only [builtinAnswer]
    · simp
    · split <;> simp
    · simp
  | cat =>
    rcases as with _ | ⟨a, as⟩ <;> simp only [builtinAnswer]
    · simp
    · split <;> simp
  | xxd =>
    rcases as with _ | ⟨a, _ | ⟨a', as⟩⟩ <;> simp only [builtinAnswer]
    · simp
    · split
      · simp
      · split <;> simp
    · simp
  | ls =>
    rcases as with _ | ⟨a, _ | ⟨a', as⟩⟩ <;> simp only [builtinAnswer]
    · split <;> simp
    · split <;> simp
    · simp
  | help =>
    rcases as with _ | ⟨a, _ | ⟨a', as⟩⟩ <;> simp only [builtinAnswer]
    · simp
    · split
      · simp
      · split <;> simp
    · simp
  | echo =>
    rcases as with _ | ⟨a, _ | ⟨s, _ | ⟨t, _ | ⟨z, as⟩⟩⟩⟩ <;> simp only [builtinAnswer, World.written, if_true]
    · simp
    · simp
    · simp
    · by_cases hs : s = b!">"
      · simp only [hs, ne_eq, not_true, if_false, if_true]
        cases hf : T.world.file? t with
        | none => simp
        | some g =>
          cases hg : g.setData with
          | none => simp [hg]
          | some id => simp [hg]
      · simp [hs]
    · simp

theorem deeds_line (hA : A.Aside E) (W : World) (c : UInt8) (l : List Event) (argv : List Str) :
    deeds (lineAnswer E A W c l argv).1 = W.did argv := by
  rcases argv with _ | ⟨name, as⟩
  · simp [lineAnswer, World.did]
  · have hw := hA W c l (name :: as)
    simp only [lineAnswer, World.did, deeds_append, deeds_hook, deeds_ret, List.nil_append]
    revert hw
    generalize (Talk.start W c).run E (A.hook l (name :: as)) = r
    intro hw
    rw [hw]
    cases hf : W.file? name with
    | none => simp
    | some f =>
      simp only [Option.bind_some, fileAnswer]
      cases hx : f.exec with
      | none => simp
      | some cb =>
        cases cb with
        | user id => simp
        | builtin b => simp [deeds_builtin, hw]

theorem deeds_key (hA : A.Aside E) (t : Term) (c : UInt8) : deeds (t.key E A c).log =
    deeds t.log ++ (if isEnter c && t.ed.esc == .none then t.world.did (words (sent E.inSize t.ed.line)) else []) := by
  unfold Term.key
  by_cases h1 : c = cEtx
  · subst h1
    simp only [if_true, Term.add, show isEnter cEtx = false from rfl, Bool.false_and, Bool.false_eq_true, if_false, deeds_append, deeds_inp, deeds_outs]
  · rw [if_neg h1]
    by_cases h2 : c = cTab
    · subst h2
      rw [if_pos rfl]
      split <;> simp [Term.add, show isEnter cTab = false from rfl]
    · rw [if_neg h2]
      cases h3 : isEnter c && t.ed.esc == .none with
      | false => simp [Term.add]
      | true => simp [Term.add, deeds_line hA]

end Ush
