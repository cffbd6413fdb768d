import Verif.Proof.PathFns
import Verif.Model.Types
/-!
# C01, C02, C04, C05, C44: path and text helpers
-/
namespace Ush.Props
open Spec

/-! ## C01 Path normalisation is stack normalisation -/

/-- On an absolute path with the components `cs` the C function returns the path with the components
`normalize cs`, without touching memory outside the two path buffers. -/
theorem C01_collapse (cap : Nat) (cs : List Str) (hc : ∀ c ∈ cs, GoodComp c) (hcap : (render cs).length < cap) :
    collapsePath cap (render cs) = .ok (render (normalize cs)) :=
  collapsePath_render cap cs hc hcap

/-- The result has no `.` and no `..` component. -/
theorem C01_no_dots (cs : List Str) : b!"." ∉ normalize cs ∧ b!".." ∉ normalize cs := by
  have : ∀ (cs st : List Str), (b!"." ∉ st ∧ b!".." ∉ st) →
      b!"." ∉ cs.foldl pushComp st ∧ b!".." ∉ cs.foldl pushComp st := by
    intro cs
    induction cs with
    | nil => intro st h; exact h
    | cons c cs ih =>
      intro st h
      apply ih
      unfold pushComp
      split
      · exact h
      · split
        · exact ⟨fun h' => h.1 (List.dropLast_subset _ h'), fun h' => h.2 (List.dropLast_subset _ h')⟩
        · rename_i h1 h2
          simp only [List.mem_append, List.mem_singleton, not_or]
          exact ⟨⟨h.1, fun h' => h1 h'.symm⟩, ⟨h.2, fun h' => h2 h'.symm⟩⟩
  exact this cs [] (by simp)

/-- Components other than `.` and `..` are kept as they are. -/
theorem C01_keep (cs : List Str) (h : ∀ c ∈ cs, c ≠ b!"." ∧ c ≠ b!"..") : normalize cs = cs := by
  have : ∀ (cs st : List Str), (∀ c ∈ cs, c ≠ b!"." ∧ c ≠ b!"..") → cs.foldl pushComp st = st ++ cs := by
    intro cs
    induction cs with
    | nil => intro st _; simp
    | cons c cs ih =>
      intro st h
      rw [List.foldl_cons, ih _ (fun d hd => h d (by simp [hd]))]
      have := h c (by simp)
      simp [pushComp, this.1, this.2]
  simpa [normalize] using this cs [] h

example : normalize [b!"usr", b!"...", b!"bin"] = [b!"usr", b!"...", b!"bin"] := C01_keep _ (by decide)

/-- `..` cancels an ordinary component in front of it, anywhere in a path; at the root it does nothing. -/
theorem C01_dotdot (cs ds : List Str) (c : Str) (h : c ≠ b!"." ∧ c ≠ b!"..") :
    normalize (cs ++ c :: b!".." :: ds) = normalize (cs ++ ds) ∧ normalize (b!".." :: ds) = normalize ds ∧
      normalize (cs ++ b!"." :: ds) = normalize (cs ++ ds) := by
  refine ⟨?_, rfl, ?_⟩
  · simp [normalize, List.foldl_append, pushComp, h.1, h.2]
  · simp [normalize, List.foldl_append, pushComp]

example : normalize ([b!"usr"] ++ b!"x" :: b!".." :: [b!"bin"]) = normalize ([b!"usr"] ++ [b!"bin"]) := (C01_dotdot [b!"usr"] [b!"bin"] b!"x" (by decide)).1

/-- Normalising twice is normalising once. -/
theorem C01_idempotent (cap : Nat) (cs : List Str) (hc : ∀ c ∈ cs, GoodComp c) (hcap : (render cs).length < cap) :
    ∃ p, collapsePath cap (render cs) = .ok p ∧ collapsePath cap p = .ok p ∧ p.length ≤ (render cs).length ∧
      p.head? = some cSlash := by
  have hlen : (render (normalize cs)).length ≤ (render cs).length := by
    by_cases h : normalize cs = []
    · rw [h]; exact render_length_pos cs
    · have h' : cs ≠ [] := by rintro rfl; exact h rfl
      rw [render_ne _ h, render_ne _ h']
      simpa [normalize] using foldl_pushComp_length cs []
  refine ⟨render (normalize cs), C01_collapse cap cs hc hcap, ?_, hlen, ?_⟩
  · have := C01_collapse cap (normalize cs) (good_of_normalize cs hc) (by omega)
    rw [this, C01_keep (normalize cs)]
    intro c h
    exact ⟨fun e => (C01_no_dots cs).1 (e ▸ h), fun e => (C01_no_dots cs).2 (e ▸ h)⟩
  · unfold render
    split
    · rfl
    · cases hn : normalize cs with
      | nil => contradiction
      | cons c cs => simp

example : ∃ p, collapsePath 64 b!"/usr/./x/../bin" = .ok p ∧ collapsePath 64 p = .ok p ∧ p.length ≤ 15 ∧ p.head? = some cSlash :=
  C01_idempotent 64 [b!"usr", b!".", b!"x", b!"..", b!"bin"] (by decide) (by decide)

/-- Without the restriction to non-empty components the property is false: an empty component swallows the
following `..` (the second `/` becomes the first character of the next part). -/
theorem C01_false_with_empty_component : collapsePath 64 b!"/a//.." = .ok b!"/a//.." := by decide

/-- The empty path makes arrays of length 0, which is undefined in C. -/
theorem C01_empty (cap : Nat) (h : 0 < cap) : collapsePath cap [] = .error .vla := by
  have e : strcpy cap [] = .ok [] := by simp [strcpy, h]
  unfold collapsePath
  rw [e]
  rfl

example : collapsePath 64 [] = .error .vla := C01_empty 64 (by decide)

example : collapsePath 64 b!"/usr/./local/../bin" = .ok b!"/usr/bin" :=
  C01_collapse 64 [b!"usr", b!".", b!"local", b!"..", b!"bin"] (by decide) (by decide)
example : collapsePath 64 b!"/../a/../.." = .ok b!"/" :=
  C01_collapse 64 [b!"..", b!"a", b!"..", b!".."] (by decide) (by decide)

/-! ## C02 Path split functions agree with component structure -/

/-- Level count and level prefixes. -/
theorem C02_levels (cs : List Str) (hc : ∀ c ∈ cs, GoodComp c) :
    pathLevelsCount (render cs) = cs.length ∧
    ∀ cap i, cs ≠ [] → (render cs).length < cap → pathLevel cap i (render cs) = .ok (render (cs.take i)) :=
  ⟨pathLevelsCount_render cs hc, fun cap i hne hcap => pathLevel_render cap i cs hc hne hcap⟩

/-- Upper part, last part, and joining them again. -/
theorem C02_split_join (cs : List Str) (c : Str) (hcs : ∀ c ∈ cs, GoodComp c) (hc : GoodComp c) :
    pathUpper (render (cs ++ [c])) = render cs ∧ pathLast (render (cs ++ [c])) = c ∧
    ∀ cap, (render (cs ++ [c])).length < cap →
      joinPath cap (pathUpper (render (cs ++ [c]))) (pathLast (render (cs ++ [c]))) = .ok (render (cs ++ [c])) := by
  refine ⟨pathUpper_concat cs c hc, pathLast_concat cs c hc, fun cap hcap => ?_⟩
  rw [pathUpper_concat cs c hc, pathLast_concat cs c hc]
  exact joinPath_render cap cs c hcs hcap

/-- The root has no levels, no upper path, and its last part is `/`. -/
theorem C02_root : pathLevelsCount (render []) = 0 ∧ pathUpper (render []) = [] ∧ pathLast (render []) = b!"/" := by
  decide

example : pathUpper b!"/usr/bin" = b!"/usr" ∧ pathLast b!"/usr/bin" = b!"bin" :=
  let h := C02_split_join [b!"usr"] b!"bin" (by decide) (by decide); ⟨h.1, h.2.1⟩
example : pathLevel 32 2 b!"/usr/bin/x" = .ok b!"/usr/bin" :=
  (C02_levels [b!"usr", b!"bin", b!"x"] (by decide)).2 32 2 (by decide) (by decide)

/-! ## C04 `\xNN` decoding -/

/-- Decoding into another buffer gives the first `max` bytes of the meaning of the text. -/
theorem C04_decode (s : Str) (max : Nat) : decodeAscii s max = (decodeSpec s).take max := by
  have := decodeLoop_eq max s 0 [] (by simp)
  simpa [decodeAscii] using this

/-- Never more than `max` bytes, never more bytes than the text has. -/
theorem C04_size (s : Str) (max : Nat) : (decodeAscii s max).length ≤ max ∧ (decodeAscii s max).length ≤ s.length := by
  rw [C04_decode]
  have := decodeSpec_length s
  simp only [List.length_take]
  omega

/-- Decoding in place, anywhere in a larger buffer, produces the same bytes and the same count, and changes no
byte before the text or after the decoded bytes. -/
theorem C04_in_place (pre s tail : List UInt8) (max : Nat) (hs : cNul ∉ s) :
    decodeInPlace (pre ++ (s ++ cNul :: tail)) pre.length max =
      .ok (pre ++ (decodeAscii s max ++ (s ++ cNul :: tail).drop (decodeAscii s max).length),
        (decodeAscii s max).length) := by
  rw [C04_decode]
  exact decodeInPlace_eq pre s tail max hs

example : decodeInPlace (b!"echo" ++ [0] ++ (b!"\\x41b" ++ cNul :: b!"zz")) 5 5 = .ok (b!"echo" ++ [0] ++ b!"Ab41b" ++ [0] ++ b!"zz", 2) :=
  (C04_in_place (b!"echo" ++ [0]) b!"\\x41b" b!"zz" 5 (by decide)).trans (by decide)

/-- Every byte string has an encoding that decodes back to it. -/
theorem C04_roundtrip (bs : Str) : decodeAscii (encode bs) bs.length = bs := by
  rw [C04_decode, decodeSpec_encode]
  simp

/-- Text without a backslash means itself. -/
theorem C04_plain (s : Str) (h : cBackslash ∉ s) : decodeSpec s = s := by
  induction s with
  | nil => rfl
  | cons c s ih =>
    simp only [List.mem_cons, not_or] at h
    rw [decodeSpec_lit c s (fun e => h.1 e.symm), ih h.2]

example : decodeAscii b!"a\\x41\\\\b" 16 = b!"aA\\b" := by decide
example : (decodeInPlace (b!"zz" ++ (b!"\\x00\\xffq" ++ cNul :: b!"w")) 2 16).map (·.2) = .ok 3 := by decide
example : decodeAscii (encode [0, 255, 10]) 3 = [0, 255, 10] := C04_roundtrip [0, 255, 10]

/-! ## C05 Last argument extraction -/

/-- The function returns the last word, except for a line that consists of one space followed by one word.

Missing from the full statement (`s.drop (lastArgOff s) = lastWord s` for every `s`): exactly the lines
`" w"`, for which the code returns the line itself, see `C05_false`. -/
theorem C05_last_arg_partial (s : Str) (h : ¬ ∃ w, s = cSpace :: w ∧ w ≠ [] ∧ cSpace ∉ w) :
    s.drop (lastArgOff s) = lastWord s := by
  by_cases hs : cSpace ∈ s
  · obtain ⟨q, w, rfl, hw⟩ := exists_last_space s hs
    rw [lastWord_split q w hw]
    have : q ≠ [] ∨ w = [] := by
      by_cases hq : q = []
      · subst hq
        right
        by_contra hw0
        exact h ⟨w, rfl, hw0, hw⟩
      · exact Or.inl hq
    rw [lastArgOff_split q w hw this]
    rw [show q.length + 1 = (q ++ [cSpace]).length by simp, show q ++ cSpace :: w = (q ++ [cSpace]) ++ w by simp]
    exact List.drop_left
  · rw [lastArgOff_nospace s hs, lastWord_nospace s hs]
    rfl

/-- For the remaining lines the whole line is returned. -/
theorem C05_single_space (w : Str) (hw0 : w ≠ []) (hw : cSpace ∉ w) :
    lastArgOff (cSpace :: w) = 0 := by
  have hno : ∀ i, 1 ≤ i → (cSpace :: w)[i]? ≠ some cSpace := by
    intro i hi h
    obtain ⟨j, rfl⟩ : ∃ j, i = j + 1 := ⟨i - 1, by omega⟩
    rw [List.getElem?_cons_succ] at h
    exact hw (List.mem_of_getElem? h)
  have hl : 0 < w.length := List.length_pos_iff.mpr hw0
  unfold lastArgOff
  rw [if_neg (by simp), if_neg (hno _ (by simp; omega)), lastArgLoop_none _ _ (fun i h1 _ => hno i h1)]

/-- The last word never contains a space and is the longest such suffix (the specification is what it says). -/
theorem C05_spec (s : Str) : cSpace ∉ lastWord s ∧ ∃ q, s = q ++ lastWord s ∧ (q = [] ∨ q.getLast? = some cSpace) := by
  by_cases hs : cSpace ∈ s
  · obtain ⟨q, w, rfl, hw⟩ := exists_last_space s hs
    rw [lastWord_split q w hw]
    exact ⟨hw, q ++ [cSpace], by simp, Or.inr (by simp)⟩
  · rw [lastWord_nospace s hs]
    exact ⟨hs, [], rfl, Or.inl rfl⟩

/-- The full statement is false. -/
theorem C05_false : ¬ ∀ s : Str, s.drop (lastArgOff s) = lastWord s := by
  intro h
  exact absurd (h b!" test") (by decide)

example : (b!"cd  test").drop (lastArgOff b!"cd  test") = b!"test" :=
  C05_last_arg_partial b!"cd  test" (by rintro ⟨w, h, -⟩; exact absurd (List.cons.inj h).1 (by decide))
example : lastArgOff b!" test" = 0 := C05_single_space b!"test" (by decide) (by decide)

/-! ## C44 Status messages are distinguishable -/

/-- The texts of the twelve errors. -/
def errorTexts (t : Translation) : List Str :=
  [t.directoryNotFound, t.nestedDirectoriesExist, t.cannotFindParentNode, t.directoryAlreadyMounted,
    t.syntaxError, t.wrongArguments, t.fileNotExecutable, t.fileNotWritable, t.fileNotReadable,
    t.noHelpAvailable, t.fileNotFound, t.readOnlyFile]

/-- If the translated texts differ and the text for success does not begin like an error, different statuses
have different texts. -/
theorem C44_injective (t : Translation) (hd : (errorTexts t).Nodup) (hok : ¬ t.error ++ b!": " <+: t.ok)
    (a b : Status) (h : statusString t a = statusString t b) : a = b := by
  have hpre : ∀ s : Status, s ≠ .ok → t.error ++ b!": " <+: statusString t s := by
    intro s hs
    cases s <;> first | exact absurd rfl hs | exact List.prefix_append _ _
  by_cases ha : a = .ok
  · by_cases hb : b = .ok
    · rw [ha, hb]
    · subst ha; have := hpre b hb; rw [← h] at this; exact absurd this hok
  · by_cases hb : b = .ok
    · subst hb; have := hpre a ha; rw [h] at this; exact absurd this hok
    · simp only [errorTexts, List.nodup_cons, List.mem_cons, List.not_mem_nil, not_or, or_false] at hd
      obtain ⟨⟨_, _, _, _, _, _, _, _, _, _, _⟩, ⟨_, _, _, _, _, _, _, _, _, _⟩, ⟨_, _, _, _, _, _, _, _, _⟩,
        ⟨_, _, _, _, _, _, _, _⟩, ⟨_, _, _, _, _, _, _⟩, ⟨_, _, _, _, _, _⟩, ⟨_, _, _, _, _⟩, ⟨_, _, _, _⟩,
        ⟨_, _, _⟩, ⟨_, _⟩, _, _⟩ := hd
      cases a <;> first | exact absurd rfl ha | skip
      all_goals
        cases b <;> first | exact absurd rfl hb | rfl | skip
      all_goals
        simp only [statusString, List.append_assoc, List.append_cancel_left_eq] at h
        first
          | exact absurd h (by assumption)
          | exact absurd h.symm (by assumption)

example (a b : Status) (h : statusString {} a = statusString {} b) : a = b := C44_injective {} (by decide) (by decide) a b h

/-- Exactly the errors begin with the configured error word. -/
theorem C44_prefix (t : Translation) (hok : ¬ t.error ++ b!": " <+: t.ok) (s : Status) :
    t.error ++ b!": " <+: statusString t s ↔ s ≠ .ok := by
  constructor
  · rintro h rfl; exact hok h
  · intro hs
    cases s <;> first | exact absurd rfl hs | exact List.prefix_append _ _

example : b!"error: " <+: statusString {} .fileNotFound := (C44_prefix {} (by decide) .fileNotFound).mpr (by decide)

/-- Every status has its own text: the error word of the configuration and the text for this error. -/
def reason (t : Translation) : Status → Str
  | .ok => t.ok
  | .nodeNotFound => t.directoryNotFound
  | .nodeWithChilds => t.nestedDirectoriesExist
  | .nodeWithoutParent => t.cannotFindParentNode
  | .nodeAlreadyMounted => t.directoryAlreadyMounted
  | .cmdSyntaxError => t.syntaxError
  | .cmdWrongArguments => t.wrongArguments
  | .fileNotExecutable => t.fileNotExecutable
  | .fileNotWritable => t.fileNotWritable
  | .fileNotReadable => t.fileNotReadable
  | .fileNoHelp => t.noHelpAvailable
  | .fileNotFound => t.fileNotFound
  | .fileReadOnly => t.readOnlyFile

theorem C44_table (t : Translation) (s : Status) : statusString t s = if s = .ok then t.ok else t.error ++ b!": " ++ reason t s := by
  cases s <;> rfl

/-- The texts of the default configuration. -/
theorem C44_default : [Status.ok, .nodeNotFound, .nodeWithChilds, .nodeWithoutParent, .nodeAlreadyMounted, .cmdSyntaxError, .cmdWrongArguments,
    .fileNotExecutable, .fileNotWritable, .fileNotReadable, .fileNoHelp, .fileNotFound, .fileReadOnly].map (statusString {}) =
    [b!"ok", b!"error: directory not found", b!"error: nested directories exist", b!"error: cannot find parent node", b!"error: directory already mounted",
     b!"error: syntax error", b!"error: wrong arguments", b!"error: file not executable", b!"error: file not writable", b!"error: file not readable",
     b!"error: no help available", b!"error: file not found", b!"error: read only file"] := by decide

example : (errorTexts {}).Nodup ∧ ¬ (({} : Translation).error ++ b!": " <+: ({} : Translation).ok) := by decide

end Ush.Props
