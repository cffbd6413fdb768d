import Verif.Spec.Forget
/-!
# The specified terminal depends on what `Term.Alike` compares
-/
namespace Ush
open Spec

variable {E : Env} {A : App}

theorem noticed_append (l k : List Event) : noticed (l ++ k) = noticed l ++ noticed k := List.filter_append ..

theorem noticed_more {l l' : List Event} (h : noticed l = noticed l') (k : List Event) : noticed (l ++ k) = noticed (l' ++ k) := by
  rw [noticed_append, noticed_append, h]

theorem catAll_blind (hA : A.Blind) (W : World) : ∀ (as : List Str) (l l' : List Event), noticed l = noticed l' → catAll A W l as = catAll A W l' as
  | [], _, _, _ => rfl
  | a :: as, l, l', h => by
    unfold catAll
    split
    · next id _ =>
      rw [hA.get id l l' h, catAll_blind hA W as _ _ (noticed_more h _)]
    · rfl

theorem builtinAnswer_blind (hA : A.Blind) (T : Talk) {l l' : List Event} (h : noticed l = noticed l') (b : Builtin) (as : List Str) :
    builtinAnswer E A T l b as = builtinAnswer E A T l' b as := by
  unfold builtinAnswer
  have hg : ∀ id, A.get id l = A.get id l' := fun id => hA.get id l l' h
  have hs : ∀ id d, A.set id l d = A.set id l' d := fun id d => hA.set id l l' d h
  have hc : ∀ as, catAll A T.world l as = catAll A T.world l' as := fun as => catAll_blind hA _ as l l' h
  simp only [hg, hs, hc]

theorem builtinOk_blind (hA : A.Blind) (T : Talk) {l l' : List Event} (h : noticed l = noticed l') (f : FileDesc) (b : Builtin) (as : List Str) :
    builtinOk E A T l f b as = builtinOk E A T l' f b as := by
  unfold builtinOk
  have hg : ∀ id, A.get id l = A.get id l' := fun id => hA.get id l l' h
  have hs : ∀ id d, A.set id l d = A.set id l' d := fun id d => hA.set id l l' d h
  simp only [hg, hs]

theorem fileAnswer_blind (hA : A.Blind) (T : Talk) {l l' : List Event} (h : noticed l = noticed l') (f : FileDesc) (name : Str) (as : List Str) :
    fileAnswer E A T l f name as = fileAnswer E A T l' f name as := by
  unfold fileAnswer
  have hx : ∀ id k argv, A.exec id (l ++ k) argv = A.exec id (l' ++ k) argv := fun id k argv => hA.exec id _ _ argv (noticed_more h k)
  have hb : ∀ k b as, builtinAnswer E A T (l ++ k) b as = builtinAnswer E A T (l' ++ k) b as := fun k b as => builtinAnswer_blind hA T (noticed_more h k) b as
  simp only [hx, hb]

theorem fileOk_blind (hA : A.Blind) (T : Talk) {l l' : List Event} (h : noticed l = noticed l') (f : FileDesc) (name : Str) (as : List Str) :
    fileOk E A T l f name as = fileOk E A T l' f name as := by
  unfold fileOk
  have hx : ∀ id k argv, A.exec id (l ++ k) argv = A.exec id (l' ++ k) argv := fun id k argv => hA.exec id _ _ argv (noticed_more h k)
  have hb : ∀ k b as, builtinOk E A T (l ++ k) f b as = builtinOk E A T (l' ++ k) f b as := fun k b as => builtinOk_blind hA T (noticed_more h k) f b as
  simp only [hx, hb]

theorem lineAnswer_blind (hA : A.Blind) (W : World) (c : UInt8) {l l' : List Event} (h : noticed l = noticed l') (argv : List Str) :
    lineAnswer E A W c l argv = lineAnswer E A W c l' argv := by
  cases argv with
  | nil => rfl
  | cons name as =>
    unfold lineAnswer
    have hf : ∀ T k f, fileAnswer E A T (l ++ k) f name as = fileAnswer E A T (l' ++ k) f name as := fun T k f => fileAnswer_blind hA T (noticed_more h k) f name as
    simp only [hA.hook l l' _ h, hf]

theorem lineOk_blind (hA : A.Blind) (W : World) (c : UInt8) {l l' : List Event} (h : noticed l = noticed l') (argv : List Str) :
    lineOk E A W c l argv = lineOk E A W c l' argv := by
  cases argv with
  | nil => rfl
  | cons name as =>
    unfold lineOk
    have hf : ∀ T k f, fileOk E A T (l ++ k) f name as = fileOk E A T (l' ++ k) f name as := fun T k f => fileOk_blind hA T (noticed_more h k) f name as
    simp only [hA.hook l l' _ h, hf]

theorem Ok_same (hA : A.Blind) {t t' : Term} (h : t.Alike t') (c : UInt8) : t.Ok E A c = t'.Ok E A c := by
  obtain ⟨W, e, l⟩ := t
  obtain ⟨W', e', l'⟩ := t'
  obtain ⟨rfl, rfl, h⟩ := h
  unfold Term.Ok
  simp only [lineOk_blind hA W c (noticed_more h _)]

theorem key_same (hA : A.Blind) {t t' : Term} (h : t.Alike t') (c : UInt8) :
    (t.key E A c).Alike (t'.key E A c) ∧ ∃ k, (t.key E A c).log = t.log ++ k ∧ (t'.key E A c).log = t'.log ++ k := by
  obtain ⟨W, e, l⟩ := t
  obtain ⟨W', e', l'⟩ := t'
  obtain ⟨rfl, rfl, h⟩ := h
  have : ∃ V d k, ∀ x, noticed x = noticed l → Term.key E A ⟨W, e, x⟩ c = ⟨V, d, x ++ k⟩ := by
    by_cases h1 : c = cEtx
    · exact ⟨W, {}, .inp c :: outs (b!"^C" ++ crlf ++ W.prompt E), fun x _ => by unfold Term.key; rw [if_pos h1]; rfl⟩
    · by_cases h2 : c = cTab
      · by_cases h3 : E.autocomplete = true
        · exact ⟨W, ⟨(W.press E e.line).1, e.esc⟩, .inp c :: outs (W.press E e.line).2,
            fun x _ => by unfold Term.key; rw [if_neg h1, if_pos h2, if_pos h3]; rfl⟩
        · exact ⟨W, e, [.inp c], fun x _ => by unfold Term.key; rw [if_neg h1, if_pos h2, if_neg h3]; rfl⟩
      · by_cases h3 : (isEnter c && e.esc == .none) = true
        · refine ⟨(lineAnswer E A W c (l ++ .inp c :: outs (enterEcho c)) (words (sent E.inSize e.line))).2, {}, .inp c :: outs (enterEcho c) ++ (lineAnswer E A W c (l ++ .inp c :: outs (enterEcho c)) (words (sent E.inSize e.line))).1, fun x hx => ?_⟩
          unfold Term.key
          rw [if_neg h1, if_neg h2, if_pos h3]
          simp only [lineAnswer_blind hA W c (noticed_more hx _)]
          rfl
        · exact ⟨W, (e.key E.inSize c).1, .inp c :: outs (e.key E.inSize c).2, fun x _ => by unfold Term.key; rw [if_neg h1, if_neg h2, if_neg h3]; rfl⟩
  obtain ⟨V, d, k, hk⟩ := this
  rw [hk l rfl, hk l' h.symm]
  exact ⟨⟨rfl, rfl, noticed_more h k⟩, k, rfl, rfl⟩

theorem keys_same (hA : A.Blind) : ∀ (cs : List UInt8) {t t' : Term}, t.Alike t' →
    (t.keys E A cs).Alike (t'.keys E A cs) ∧ ∃ k, (t.keys E A cs).log = t.log ++ k ∧ (t'.keys E A cs).log = t'.log ++ k
  | [], t, t', h => ⟨h, [], by simp [Term.keys], by simp [Term.keys]⟩
  | c :: cs, t, t', h => by
    obtain ⟨h1, k, k1, k2⟩ := key_same (E := E) hA h c
    obtain ⟨h2, j, j1, j2⟩ := keys_same hA cs h1
    refine ⟨h2, k ++ j, ?_, ?_⟩
    · rw [Term.keys, j1, k1, List.append_assoc]
    · rw [Term.keys, j2, k2, List.append_assoc]

theorem OkAll_same (hA : A.Blind) : ∀ (cs : List UInt8) {t t' : Term}, t.Alike t' → (t.OkAll E A cs ↔ t'.OkAll E A cs)
  | [], _, _, _ => Iff.rfl
  | c :: cs, _, _, h => by
    unfold Term.OkAll
    rw [Ok_same hA h, OkAll_same hA cs (key_same hA h c).1]

/-- Keys handled by the line editor. -/
theorem keys_typed : ∀ (cs : Str) (t : Term), t.ed.takesAll E.inSize cs = true →
    t.OkAll E A cs ∧ t.keys E A cs = ⟨t.world, (t.ed.keys E.inSize cs).1, t.log ++ (t.ed.keys E.inSize cs).2⟩
  | [], t, _ => ⟨trivial, by simp [Term.keys, Editor.keys]⟩
  | c :: cs, t, h => by
    obtain ⟨h0, h⟩ := (Bool.and_eq_true _ _).mp h
    unfold Editor.takes isSpecial at h0
    obtain ⟨h1, h3⟩ := (Bool.and_eq_true _ _).mp h0
    have h1' : c ≠ cEtx ∧ c ≠ cTab := by simpa using h1
    have h3' : ¬ (isEnter c && t.ed.esc == .none) = true := by
      cases hx : (isEnter c && t.ed.esc == .none) with
      | false => decide
      | true => rw [hx] at h3; cases h3
    have e : t.key E A c = ⟨t.world, (t.ed.key E.inSize c).1, t.log ++ .inp c :: outs (t.ed.key E.inSize c).2⟩ := by
      unfold Term.key
      rw [if_neg h1'.1, if_neg h1'.2, if_neg h3']
      rfl
    have ok : t.Ok E A c := by
      unfold Term.Ok
      rw [if_neg h1'.1, if_neg h1'.2, if_neg h3']
      trivial
    obtain ⟨i1, i2⟩ := keys_typed cs (t.key E A c) (by rw [e]; exact h)
    refine ⟨⟨ok, i1⟩, ?_⟩
    rw [Term.keys, i2, e]
    simp [Editor.keys, outs]

theorem noticed_keys (cap : Nat) : ∀ (cs : Str) (e : Editor), noticed (e.keys cap cs).2 = []
  | [], _ => rfl
  | c :: cs, e => by
    have := noticed_keys cap cs (e.key cap c).1
    have h : ∀ s : Str, noticed (s.map Event.out) = [] := by
      intro s
      simp [noticed, Event.isIo]
    show noticed (.inp c :: ((e.key cap c).2.map .out ++ ((e.key cap c).1.keys cap cs).2)) = []
    have h2 : ∀ l, noticed (.inp c :: l) = noticed l := fun l => rfl
    rw [h2, noticed_append, h, this]
    rfl

end Ush
