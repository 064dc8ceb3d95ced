import Verif.Invoke.Model
import Verif.Construct.Spec
import Verif.Resolve.Spec
/-! # Specification of invokes and calls -/
namespace Pulumi.Invoke
open Pulumi.Wire (Env PV W ResId)
open Pulumi.Resolve (RV)
open Pulumi.Construct (Provider PackageIs)

/-- The provider that an invoke of `tok` with these options is to use: the one given, else the one that the parent has for
the function's package, else none (the engine's default provider). -/
inductive Uses (o : Opts) (tok : Urn.Text) : Option Provider → Prop
  | given {p} : o.provider = some p → Uses o tok (some p)
  | parent {d k} : o.provider = none → o.parent = some d → PackageIs tok k → Uses o tok (d.lookup k)
  | noPackage : o.provider = none → (∀ k, ¬ PackageIs tok k) → Uses o tok none
  | noParent : o.provider = none → o.parent = none → Uses o tok none

/-- What an invoke returns for an object: nothing for an empty one, else what is read from it, as an instance of the output
type if one was asked for. -/
inductive Returned (env : Env) (C : Resolve.Classes) : Option String → List (String × W) → Option RV → Prop
  | empty {typ} : Returned env C typ [] none
  | plain {object v} : object ≠ [] → Wire.deserializeProperties env false false object = .ok v →
      Returned env C none object (some (.leaf v))
  | typed {cls object v x} : object ≠ [] → Wire.deserializeProperties env false false object = .ok v →
      Resolve.trans C false id (.output cls) v = .ok x → Returned env C (some cls) object (some x)

/-- The value of an option after merging: that of the second bag if it has one, else that of the first. -/
def Overrides {α : Type} (first second result : Option α) : Prop := (second ≠ none → result = second) ∧ (second = none → result = first)

/-- What the answer to a call resolves the Output with. -/
structure CallSpec (env : Env) (C : Resolve.Classes) (typ : Option String) (r : CallReply) (c : CallResult) : Prop where
  /-- it is known exactly if no property has an unknown in it -/
  known : c.known = true ↔ ∀ k w v, (k, w) ∈ r.object → Wire.Visible k → Wire.des env false w = .ok v →
    ¬ Wire.ContainsUnknown v
  /-- it is secret exactly if some property has a secret in it -/
  secret : c.secret = true ↔ ∃ k w, (k, w) ∈ r.object ∧ Wire.Visible k ∧ Wire.HasSecret env w
  /-- it depends on exactly what the reply lists -/
  deps : ∀ d, d ∈ c.deps ↔ ∃ k us u, (k, us) ∈ r.dependencies ∧ u ∈ us ∧ d = .dep u
  /-- an unknown result has no value -/
  unknown : c.known = false → c.value = .leaf .none
  /-- a known one has all properties that are not null, without secret markers, as an instance of the type if there is one -/
  value : c.known = true → ∃ kvs,
    (∀ k x, (k, x) ∈ kvs ↔ Wire.Visible k ∧ ∃ w v b, (k, w) ∈ r.object ∧ Wire.des env false w = .ok v ∧ v ≠ .none ∧
      Resolve.Marking v x b) ∧
    (typ = none → c.value = .leaf (.dict kvs)) ∧
    (∀ cls, typ = some cls → Resolve.trans C false id (.output cls) (.dict kvs) = .ok c.value)

end Pulumi.Invoke
