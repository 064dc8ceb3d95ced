import Verif.Rename.Model
import Verif.Urn.Spec
import Verif.Snapshot.IntegritySpec
import Verif.DepGraph.Spec
/-!
# Specification of renaming
-/
namespace Pulumi.Rename
open Pulumi.Urn (Text HasSep CleanField CleanName)
open Pulumi.Snapshot (State Provider Ref Env Snap OpType Intact)

/-- The text of a URN with these fields. -/
def urnText (stack project type name : Text) : Text :=
  "urn:pulumi:".toList ++ stack ++ "::".toList ++ project ++ "::".toList ++ type ++ "::".toList ++ name

/-- Fields that can be told apart once they are put together: none contains the separator, none runs into the one that
follows it, and the stack does not run into the prefix. -/
structure Separable (stack project type name : Text) : Prop where
  named : stack ≠ []
  start : ∀ a : Text, stack ≠ ':' :: a
  cleanStack : CleanField stack
  cleanProject : CleanField project
  cleanType : CleanField type
  cleanName : ¬ HasSep name

/-- A name for a stack that can be part of a URN. -/
structure GoodStack (s : Text) : Prop where
  named : s ≠ []
  start : ∀ a : Text, s ≠ ':' :: a
  clean : CleanField s

/-- The project after a renaming, which may name none. -/
def projectFor (newProject p : Text) : Text := if newProject ≠ [] then newProject else p

/-- The URN is one of the stack and project: of the stack itself, which is named after both, or of something else. -/
inductive UrnOf (stack project : Text) : Text → Prop where
  | root : Separable stack project "pulumi:pulumi:Stack".toList (project ++ '-' :: stack) →
      UrnOf stack project (urnText stack project "pulumi:pulumi:Stack".toList (project ++ '-' :: stack))
  | resource {type name} : type ≠ "pulumi:pulumi:Stack".toList → Separable stack project type name →
      UrnOf stack project (urnText stack project type name)

/-- The URN of the same resource in another stack. -/
inductive Moved (stack project stack' project' : Text) : Text → Text → Prop where
  | root : Separable stack project "pulumi:pulumi:Stack".toList (project ++ '-' :: stack) →
      Separable stack' project' "pulumi:pulumi:Stack".toList (project' ++ '-' :: stack') →
      Moved stack project stack' project'
        (urnText stack project "pulumi:pulumi:Stack".toList (project ++ '-' :: stack))
        (urnText stack' project' "pulumi:pulumi:Stack".toList (project' ++ '-' :: stack'))
  | resource {type name} : type ≠ "pulumi:pulumi:Stack".toList → Separable stack project type name →
      Separable stack' project' type name →
      Moved stack project stack' project' (urnText stack project type name) (urnText stack' project' type name)

/-- The URNs a state mentions, except among its aliases. -/
def Mentions (s : State) (u : String) : Prop :=
  u = s.urn ∨ (u = s.parent ∧ s.parent ≠ "") ∨ u ∈ s.deps ∨ (∃ kv ∈ s.propDeps, u ∈ kv.2) ∨
  ∃ r, s.provider = .ref r ∧ r.urn = u

/-- Everything in the checkpoint belongs to the stack. -/
def Homogeneous (stack project : Text) (snap : Snap) : Prop :=
  ∀ s, (s ∈ snap.resources ∨ ∃ op, (s, op) ∈ snap.ops) →
    (∀ u, Mentions s u → UrnOf stack project u.toList) ∧
    match s.provider with
    | .none => True
    | .malformed _ => False
    | .ref r => validateURN r.urn.toList = some true

/-- The state with every URN replaced. -/
def relabel (f : String → String) (s : State) : State :=
  { s with
    urn := f s.urn
    parent := if s.parent = "" then "" else f s.parent
    deps := s.deps.map f
    propDeps := s.propDeps.map (fun kv => (kv.1, kv.2.map f))
    provider := match s.provider with | .ref r => .ref ⟨f r.urn, r.id⟩ | p => p }

/-- Two lists of resources with the same references: whoever names, or is a child of, the resource at a position in one does
so in the other. -/
def SameReferences (rs rs' : List State) : Prop :=
  rs'.length = rs.length ∧
  ∀ i j : Nat, (DepGraph.Refers rs' i j ↔ DepGraph.Refers rs i j) ∧ (DepGraph.ChildOf rs' i j ↔ DepGraph.ChildOf rs i j)

end Pulumi.Rename
