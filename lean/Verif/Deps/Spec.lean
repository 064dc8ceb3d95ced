import Verif.Deps.Model
/-!
# Specification for dependency tracking: reachability, acyclicity, the frontier of a component.
Only the observable edges `b ∈ deps g a` of a graph are used.
-/
namespace Pulumi.Deps

/-- `a` directly depends on `b`. -/
def Edge (g : Graph) (a b : ResId) : Prop := b ∈ deps g a

/-- Path of one or more edges. -/
inductive Path (E : ResId → ResId → Prop) : ResId → ResId → Prop
  | one {a b} : E a b → Path E a b
  | cons {a b c} : E a b → Path E b c → Path E a c

/-- `b` can be reached from `a` in zero or more steps. -/
def Reaches (E : ResId → ResId → Prop) (a b : ResId) : Prop := a = b ∨ Path E a b

/-- No resource depends on itself, directly or transitively. -/
def Acyclic (E : ResId → ResId → Prop) : Prop := ∀ a, ¬ Path E a a

/-- Abstract specification of a history of declarations: the relation recorded so far and the answers.
A declaration `(a, b)` is refused iff `a` is already reachable from `b`. -/
inductive History : (ResId → ResId → Prop) → List (ResId × ResId) → List Bool →
    (ResId → ResId → Prop) → Prop
  | nil {E} : History E [] [] E
  | accept {E a b h rs E'} : ¬ Reaches E b a →
      History (fun x y => E x y ∨ (x = a ∧ y = b)) h rs E' →
      History E ((a, b) :: h) (true :: rs) E'
  | refuse {E a b h rs E'} : Reaches E b a → History E h rs E' →
      History E ((a, b) :: h) (false :: rs) E'

/-- The resources a dependency on `r` stands for (docstring of `_add_dependency`): `r` itself if it is custom
or a remote component, else those of its children. -/
inductive Frontier : Res → Res → Prop
  | custom {i u cs} : Frontier (.mk i .custom u cs) (.mk i .custom u cs)
  | remote {i u cs} : Frontier (.mk i .remoteComponent u cs) (.mk i .remoteComponent u cs)
  | child {i u cs c x} : c ∈ cs → Frontier c x → Frontier (.mk i .localComponent u cs) x

/-- A usable URN: known and non-empty. -/
def HasUrn (r : Res) (u : String) : Prop := r.urn = some u ∧ u ≠ ""

end Pulumi.Deps
