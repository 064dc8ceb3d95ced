import Verif.StepGen.Model
/-!
# What the steps of an update are said to do
-/
namespace Pulumi.StepGen
open Pulumi.Snapshot (State Provider Ref)
open Pulumi.DepGraph (oldOf)

/-- The step deletes the old state (for an external one: forgets it). -/
def Step.drops (i : Nat) : Step → Bool
  | .delete j => decide (j = i)
  | .deleteReplacement j _ => decide (j = i)
  | _ => false

/-- The step keeps the old state's resource, as it is or updated, as a resource of the program. -/
def Step.keeps (i : Nat) : Step → Bool
  | .same j _ => decide (j = i)
  | .update j _ => decide (j = i)
  | .read (some j) _ => decide (j = i)
  | _ => false

/-- The step gives a resource of the program the place of the old state. -/
def Step.succeeds (i : Nat) : Step → Bool
  | .same j _ => decide (j = i)
  | .update j _ => decide (j = i)
  | .createReplacement j _ _ => decide (j = i)
  | .importReplacement j _ => decide (j = i)
  | .read (some j) _ => decide (j = i)
  | .readReplacement j _ => decide (j = i)
  | _ => false

/-- The URN the step makes a new state for: the state the program's registration or read is answered with. -/
def Step.made : Step → Option String
  | .same _ u => some u
  | .skippedCreate u => some u
  | .create u => some u
  | .createReplacement _ u _ => some u
  | .update _ u => some u
  | .importNew u => some u
  | .importReplacement _ u => some u
  | .read _ u => some u
  | .readReplacement _ u => some u
  | _ => none

/-- How often the steps delete the old state. -/
def dropsOf (i : Nat) (l : List Step) : Nat := l.countP (Step.drops i)

/-- How often the steps keep the old state's resource. -/
def keepsOf (i : Nat) (l : List Step) : Nat := l.countP (Step.keeps i)

/-- No two resources of the checkpoint have the same URN, but for those that are only waiting to be deleted: what
`buildResourceMap` makes sure of (`pkg/resource/deploy/deployment.go:291-311`). -/
def Distinct (p : Prev) : Prop :=
  ∀ (i j : Nat) (s t : State), p.rs[i]? = some s → p.rs[j]? = some t → s.delete = false → t.delete = false → s.urn = t.urn → i = j

/-- The program does not use aliases. -/
def NoAliases (es : List Ev) : Prop := ∀ g, Ev.register g ∈ es → g.aliases = []

/-- No resource is deleted for the replacement of another and then read. -/
def NoneReadAfterDeletion (l : List Step) : Prop :=
  ∀ i u, Step.deleteReplacement i true ∈ l → Step.read (some i) u ∉ l ∧ Step.readReplacement i u ∉ l

end Pulumi.StepGen
