import Verif.Construct.Model
/-! # Specification of construction: histories, ancestors, providers, protection and transformations -/
namespace Pulumi.Construct
open Pulumi.Urn (Text)

variable {P σ : Type}

/-- One thing that a program does. -/
inductive Step (call : Call P σ) : World P σ → World P σ → Prop
  | construct (t name custom remote props opts w) : Step call w (construct call t name custom remote props opts w).2
  | dependency (w) : Step call w (dependency w).2
  | stack (name props w) : Step call w (newStack call name props w).2
  | register (f w) : Step call w (registerStackTransformation f w).2
  | user (w : World P σ) (s : σ) : Step call w { w with user := s }

/-- The worlds that a program can bring about, starting with no resources. -/
inductive Reachable (call : Call P σ) : World P σ → Prop
  | start (s : σ) : Reachable call { user := s }
  | step {w w'} : Reachable call w → Step call w w' → Reachable call w'

/-- The type token names this package: `package:module:member`. -/
def PackageIs (t k : Text) : Prop := ∃ m n, t = k ++ ':' :: (m ++ ':' :: n) ∧ ':' ∉ k ∧ ':' ∉ m ∧ ':' ∉ n

/-- The `providers` option has this provider for this package: in a sequence the last provider of the package, in a mapping
the entry. -/
inductive Listed : Providers → Text → Provider → Prop
  | seq {l p r} : (∀ q ∈ r, q.package ≠ p.package) → Listed (.seq (l ++ p :: r)) p.package p
  | map {l k p r} : (∀ q ∈ r, q.1 ≠ k) → Listed (.map (l ++ (k, p) :: r)) k p

/-- Resource `i` is protected or not, by its own option or by that of its nearest ancestor that has the option. -/
inductive Protected (w : World P σ) : Nat → Bool → Prop
  | own {i r b} : w.res[i]? = some r → r.given.protect = some b → Protected w i b
  | inherited {i r j b} : w.res[i]? = some r → r.given.protect = none → r.given.parent = .res j → Protected w j b →
      Protected w i b
  | unset {i r} : w.res[i]? = some r → r.given.protect = none → r.given.parent = .none → Protected w i false

/-- The `provider` option of a resource counts for its own package, unless the `providers` option has an entry for it. -/
def Explicit (t : Text) (o : Opts) (k : Text) (p : Provider) : Prop :=
  o.provider = some p ∧ PackageIs t k ∧ k ≠ [] ∧ ∀ q, ¬ Listed o.providers k q

/-- Resource `i` offers this provider for this package to its children. -/
inductive Offers (w : World P σ) : Nat → Text → Provider → Prop
  | listed {i r k p} : w.res[i]? = some r → Listed r.given.providers k p → Offers w i k p
  | explicit {i r k p} : w.res[i]? = some r → Explicit r.type_ r.given k p → Offers w i k p
  | inherited {i r j k p} : w.res[i]? = some r → (∀ q, ¬ Listed r.given.providers k q) →
      (∀ q, ¬ Explicit r.type_ r.given k q) → r.given.parent = .res j → Offers w j k p → Offers w i k p

/-- The provider that a resource of this type with these options is to use: the `provider` option, else the entry of
`providers` for the package, else what the parent offers. -/
inductive Chosen (w : World P σ) (t : Text) (o : Opts) : Provider → Prop
  | explicit {p} : o.provider = some p → Chosen w t o p
  | listed {k p} : o.provider = none → PackageIs t k → k ≠ [] → Listed o.providers k p → Chosen w t o p
  | inherited {k j p} : o.provider = none → PackageIs t k → (k ≠ [] → ∀ q, ¬ Listed o.providers k q) → o.parent = .res j →
      Offers w j k p → Chosen w t o p

/-- The transformations that apply to resource `i`, innermost first: its own, then those of its ancestors, then those
registered for the stack when the outermost of them was constructed. The stack itself has those registered up to now. -/
inductive Chain (w : World P σ) : Nat → List Nat → Prop
  | stack {i} : w.root = some i → Chain w i (stackTransformations w)
  | under {i r j ts} : w.root ≠ some i → w.res[i]? = some r → r.asked.parent = .res j → w.root ≠ some j → Chain w j ts →
      Chain w i (r.asked.transformations.getD [] ++ ts)
  | top {i r} : w.root ≠ some i → w.res[i]? = some r → (r.asked.parent = .none ∨ ∃ j, r.asked.parent = .res j ∧ w.root = some j) →
      Chain w i (r.asked.transformations.getD [] ++ r.stackAt)

/-- What comes of running transformations one after the other. -/
inductive Applied (call : Call P σ) (self : Nat) (t name : Text) :
    List Nat → P → Opts → σ → Except Err (P × Opts) → σ → Prop
  /-- there is none left -/
  | done {props opts s} : Applied call self t name [] props opts s (.ok (props, opts)) s
  /-- it returns None: properties and options stay as they are -/
  | unchanged {f rest props opts s s' out s''} : call f ⟨self, t, name, props, opts⟩ s = (.ok none, s') →
      Applied call self t name rest props opts s' out s'' → Applied call self t name (f :: rest) props opts s out s''
  /-- it returns a result: the next one sees it -/
  | changed {f rest props opts s props' opts' s' out s''} :
      call f ⟨self, t, name, props, opts⟩ s = (.ok (some (props', opts')), s') → opts'.parent = opts.parent →
      Applied call self t name rest props' opts' s' out s'' → Applied call self t name (f :: rest) props opts s out s''
  /-- it changes the parent: the constructor raises and the others do not run -/
  | reparented {f rest props opts s props' opts' s'} :
      call f ⟨self, t, name, props, opts⟩ s = (.ok (some (props', opts')), s') → opts'.parent ≠ opts.parent →
      Applied call self t name (f :: rest) props opts s (.error .reparent) s'
  /-- it raises: so does the constructor -/
  | raised {f rest props opts s n s'} : call f ⟨self, t, name, props, opts⟩ s = (.error n, s') →
      Applied call self t name (f :: rest) props opts s (.error (.raised n)) s'

end Pulumi.Construct
