import Verif.Urn.Model
/-!
# Specification of URNs

A URN, as documented by Pulumi, is
`urn:pulumi:<stack>::<project>::<qualified type>::<name>` where the qualified type is the `$`-separated list
of the types of the ancestors, outermost first, ending with the resource's own type.
-/
namespace Pulumi.Urn

/-- The parts of a URN: stack, project, types of the ancestors and own type, name. -/
structure Urn where
  stack : Text
  project : Text
  ancestors : List Text
  type_ : Text
  name : Text
deriving DecidableEq, Repr

/-- `a$b$c` -/
def qualify : List Text → Text → Text
  | [], t => t
  | a :: as, t => a ++ '$' :: qualify as t

/-- The text of a URN. -/
def Urn.text (u : Urn) : Text :=
  "urn:pulumi:".toList ++ u.stack ++ "::".toList ++ u.project ++ "::".toList
    ++ qualify u.ancestors u.type_ ++ "::".toList ++ u.name

/-- `s` contains the separator `::`. -/
def HasSep (s : Text) : Prop := ∃ a b : Text, s = a ++ "::".toList ++ b

/-- A field that cannot be confused with, or run into, a following separator. -/
def CleanField (s : Text) : Prop := ¬ HasSep s ∧ ∀ a : Text, s ≠ a ++ [':']

/-- A type: a clean field without the qualifier `$`. -/
def CleanType (s : Text) : Prop := CleanField s ∧ '$' ∉ s

/-- A name (the last field): without the separator and not running into a preceding one. -/
def CleanName (s : Text) : Prop := ¬ HasSep s ∧ ∀ a : Text, s ≠ ':' :: a

/-- A URN all of whose fields are free of separators. -/
structure Urn.Clean (u : Urn) : Prop where
  stack_ne : u.stack ≠ []
  stack : CleanField u.stack
  stack_start : ∀ a : Text, u.stack ≠ ':' :: a
  project : CleanField u.project
  ancestors : ∀ t ∈ u.ancestors, CleanType t
  type_ : CleanType u.type_
  name : CleanName u.name

/-- The URN of a resource of type `t` named `n` whose parent has URN `u`. -/
def Urn.child (u : Urn) (t n : Text) : Urn :=
  { u with ancestors := u.ancestors ++ [u.type_], type_ := t, name := n }

/-- The URN of a resource without parent. -/
def Urn.root (stack project t n : Text) : Urn :=
  { stack := stack, project := project, ancestors := [], type_ := t, name := n }

/-- The name a child had when its parent was called `old` instead of `new`: children named after their parent
(`new ++ suffix`) were called `old ++ suffix`, other children had the same name. -/
inductive NameUnder (old new : Text) : Text → Text → Prop
  | prefixed (suffix : Text) : NameUnder old new (new ++ suffix) (old ++ suffix)
  | other {n : Text} : (∀ s : Text, n ≠ new ++ s) → NameUnder old new n n

open Classical in
/-- The name of `NameUnder` as a function. -/
noncomputable def formerName (old new n : Text) : Text :=
  if h : ∃ s : Text, n = new ++ s then old ++ h.choose else n

end Pulumi.Urn
