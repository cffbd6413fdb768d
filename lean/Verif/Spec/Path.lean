import Verif.Model.Basic
/-!
# Specification vocabulary for paths

A path is a list of components; nothing here refers to the model's path functions.
-/
namespace Ush.Spec

/-- A proper path component: not empty, no `/`, no NUL. -/
def GoodComp (c : Str) : Prop := c ≠ [] ∧ cSlash ∉ c ∧ cNul ∉ c

instance (c : Str) : Decidable (GoodComp c) := by unfold GoodComp; infer_instance

/-- The text of an absolute path: `/` for the root, `/c1/c2/…` otherwise. -/
def render (cs : List Str) : Str :=
  if cs = [] then [cSlash] else cs.flatMap (fun c => cSlash :: c)

/-- Effect of one component on the stack of surviving components. -/
def pushComp (st : List Str) (c : Str) : List Str :=
  if c = b!"." then st else if c = b!".." then st.dropLast else st ++ [c]

/-- `.` and `..` elimination: read the components left to right. -/
def normalize (cs : List Str) : List Str := cs.foldl pushComp []

end Ush.Spec
