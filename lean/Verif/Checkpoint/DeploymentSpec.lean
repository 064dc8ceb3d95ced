import Verif.Checkpoint.Deployment
import Verif.Checkpoint.Spec
/-! # Specification of what a state file keeps of a stack -/
namespace Pulumi.Checkpoint

open Wire (W)
open Engine (EV)

/-- What the engine sees to of every resource: it has a URN and a type, and an id only if it is a custom one. -/
structure Sound (r : State) : Prop where
  urn : r.urn ≠ ""
  type : r.type ≠ ""
  id : r.custom = false → r.id = ""

/-- Resources whose properties can be kept. -/
structure StorableState (r : State) : Prop extends Sound r where
  inputs : Storable (.object r.inputs)
  outputs : Storable (.object r.outputs)

/-- What is left of a resource in a state file: everything, but of what is unknown in its properties only that it is. -/
def keptState (r : State) : State := { r with inputs := keptProps r.inputs, outputs := keptProps r.outputs }

/-- An old resource and what is made of it: every field is the same, the properties are what their JSON says, what did not
exist is as if it had not been given, and every input is taken to depend on all the dependencies. -/
structure Upgraded (J : Codec) (dec enc : Decrypter) (old : ResourceV2) (r : State) : Prop where
  urn : r.urn = old.urn
  type : r.type = old.type
  custom : r.custom = old.custom
  delete : r.delete = old.delete
  id : r.id = old.id
  inputs : LoadsProps J dec enc old.inputs r.inputs
  outputs : LoadsProps J dec enc old.outputs r.outputs
  parent : r.parent = old.parent
  protect : r.protect = old.protect
  external : r.external = old.external
  dependencies : r.dependencies = old.dependencies
  initErrors : r.initErrors = old.initErrors
  provider : r.provider = old.provider
  propertyDependencies : ∀ k, r.propertyDependencies.lookup k =
    if k ∈ old.inputs.map (·.1) then some old.dependencies else none
  rest : r.pendingReplacement = false ∧ r.additionalSecretOutputs = [] ∧ r.aliases = [] ∧ r.customTimeouts = ⟨0, 0, 0⟩ ∧
    r.importID = "" ∧ r.retainOnDelete = false

/-- The first version of a resource as the second: its lifecycle is Pulumi's, and it has no provider of its own. -/
structure SameV1 (a : ResourceV1) (b : ResourceV2) : Prop where
  urn : b.urn = a.urn
  type : b.type = a.type
  custom : b.custom = a.custom
  delete : b.delete = a.delete
  id : b.id = a.id
  inputs : b.inputs = a.inputs
  outputs : b.outputs = a.outputs
  parent : b.parent = a.parent
  protect : b.protect = a.protect
  external : b.external = false
  dependencies : b.dependencies = a.dependencies
  initErrors : b.initErrors = a.initErrors
  provider : b.provider = ""

end Pulumi.Checkpoint
