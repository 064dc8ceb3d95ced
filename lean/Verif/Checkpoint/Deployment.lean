import Verif.Checkpoint.Model
/-!
# How the state of a stack is written to a file and read back

Models `pkg/resource/stack/deployment.go` (`SerializeDeployment` 102-162, `DeserializeUntypedDeployment` 165-205,
`DeserializeDeploymentV3` 208-287, `SerializeResource` 290-339, `SerializeOperation` 341-350, `DeserializeResource` 488-516,
`DeserializeOperation` 518-525), `NewState` (`sdk/go/common/resource/resource_state.go:50-92`) and the migrations of old files
(`sdk/go/common/apitype/migrate/deployment.go`, `resource.go`, `operation.go`).

Simplifications: the manifest is left out; the types of `sdk/go/common/apitype/core.go` are written and read by `encoding/json`
as they are, where lists, maps and strings that are empty and those that are absent are the same. Whether the encrypter that
reading needs for secrets in plain text can encrypt depends on the state it starts with.
-/
namespace Pulumi.Checkpoint

open Wire (W)
open Engine (EV)

/-- `CustomTimeouts` (`sdk/go/common/resource/custom_timeouts.go:3-7`) -/
structure Timeouts where
  create : Int
  update : Int
  delete : Int
deriving DecidableEq, Repr

/-- `IsNotEmpty` (custom_timeouts.go:9-11) -/
def Timeouts.isNotEmpty (t : Timeouts) : Bool := t.delete != 0 || t.update != 0 || t.create != 0

/-- `resource.State` (resource_state.go:26-47), and `ResourceV3` (core.go:286-329): the properties are property values in
one and JSON in the other, the timeouts are there in one and perhaps there in the other. -/
structure Resource (props timeouts : Type) where
  type : String
  urn : String
  custom : Bool
  delete : Bool
  id : String
  inputs : props
  outputs : props
  parent : String
  protect : Bool
  external : Bool
  dependencies : List String
  initErrors : List String
  provider : String
  propertyDependencies : List (String × List String)
  pendingReplacement : Bool
  additionalSecretOutputs : List String
  aliases : List String
  customTimeouts : timeouts
  importID : String
  retainOnDelete : Bool

abbrev State := Resource (List (String × EV)) Timeouts

abbrev ResourceV3 := Resource (List (String × W)) (Option Timeouts)

/-- `SerializeResource` (deployment.go:290-339) -/
def serializeResource {σ : Type} (J : Codec) (showSecrets : Bool) (enc : Encrypter σ) (r : State) (s : σ) :
    Except Err (ResourceV3 × σ) := do
  if r.urn = "" then throw .panic
  let (inputs, s) ← serializeKvs J showSecrets enc r.inputs s
  let (outputs, s) ← serializeKvs J showSecrets enc r.outputs s
  return ({ type := r.type, urn := r.urn, custom := r.custom, delete := r.delete, id := r.id, inputs := inputs,
            outputs := outputs, parent := r.parent, protect := r.protect, external := r.external,
            dependencies := r.dependencies, initErrors := r.initErrors, provider := r.provider,
            propertyDependencies := r.propertyDependencies, pendingReplacement := r.pendingReplacement,
            additionalSecretOutputs := r.additionalSecretOutputs, aliases := r.aliases,
            customTimeouts := if r.customTimeouts.isNotEmpty then some r.customTimeouts else none,
            importID := r.importID, retainOnDelete := r.retainOnDelete }, s)

/-- `DeserializeResource` (deployment.go:488-516) and `NewState` (resource_state.go:50-92), whose assertions hold. -/
def deserializeResource (J : Codec) (n : Nat) (dec enc : Decrypter) (r : ResourceV3) : Except Err State := do
  let inputs ← eachProp (deserialize J n dec enc) r.inputs
  let outputs ← eachProp (deserialize J n dec enc) r.outputs
  if r.urn = "" then throw .malformed
  if r.type = "" then throw .malformed
  if !r.custom && r.id != "" then throw .malformed
  return { type := r.type, urn := r.urn, custom := r.custom, delete := r.delete, id := r.id, inputs := inputs,
           outputs := outputs, parent := r.parent, protect := r.protect, external := r.external,
           dependencies := r.dependencies, initErrors := r.initErrors, provider := r.provider,
           propertyDependencies := r.propertyDependencies, pendingReplacement := r.pendingReplacement,
           additionalSecretOutputs := r.additionalSecretOutputs, aliases := r.aliases,
           customTimeouts := r.customTimeouts.getD ⟨0, 0, 0⟩, importID := r.importID, retainOnDelete := r.retainOnDelete }

/-- deployment.go:126-133 -/
def serializeResources {σ : Type} (J : Codec) (showSecrets : Bool) (enc : Encrypter σ) :
    List State → σ → Except Err (List ResourceV3 × σ)
  | [], s => .ok ([], s)
  | r :: rs, s => do
    let (w, s) ← serializeResource J showSecrets enc r s
    let (ws, s) ← serializeResources J showSecrets enc rs s
    return (w :: ws, s)

/-- `SerializeOperation` (deployment.go:341-350) and the loop in deployment.go:135-142 -/
def serializeOperations {σ : Type} (J : Codec) (showSecrets : Bool) (enc : Encrypter σ) :
    List (State × String) → σ → Except Err (List (ResourceV3 × String) × σ)
  | [], s => .ok ([], s)
  | (r, t) :: ops, s => do
    let (w, s) ← serializeResource J showSecrets enc r s
    let (ws, s) ← serializeOperations J showSecrets enc ops s
    return ((w, t) :: ws, s)

/-- deployment.go:267-275 -/
def deserializeResources (J : Codec) (n : Nat) (dec enc : Decrypter) : List ResourceV3 → Except Err (List State)
  | [] => .ok []
  | w :: ws => do
    let r ← deserializeResource J n dec enc w
    let rs ← deserializeResources J n dec enc ws
    return r :: rs

/-- `DeserializeOperation` (deployment.go:518-525) and the loop in deployment.go:277-284 -/
def deserializeOperations (J : Codec) (n : Nat) (dec enc : Decrypter) :
    List (ResourceV3 × String) → Except Err (List (State × String))
  | [] => .ok []
  | (w, t) :: ws => do
    let r ← deserializeResource J n dec enc w
    let rs ← deserializeOperations J n dec enc ws
    return (r, t) :: rs

/-- `secrets.Manager`: its type and state, its encrypter, the state that starts in, and its decrypter. -/
structure Manager (σ : Type) where
  type : String
  state : String
  enc : Encrypter σ
  start : σ
  dec : Decrypter

/-- `DeploymentV3` (core.go:143-152) -/
structure Deployment where
  resources : List ResourceV3
  secretsProvider : Option (String × String)
  operations : List (ResourceV3 × String)

/-- `panicCrypter` (crypt.go:128-145) -/
def panicEncrypter {σ : Type} : Encrypter σ := fun _ _ => .error .panic

def panicDecrypter : Decrypter := fun _ => .error .panic

/-- `SerializeDeployment` (deployment.go:102-162); the manager is the one that is given or that of the snapshot (108-111). -/
def serializeDeployment {σ : Type} (J : Codec) (showSecrets : Bool) (given own : Option (Manager σ)) (resources : List State)
    (operations : List (State × String)) (s : σ) : Except Err (Deployment × σ) := do
  let enc := match given.or own with
    | some m => m.enc
    | none => panicEncrypter
  let (rs, s) ← serializeResources J showSecrets enc resources s
  let (ops, s) ← serializeOperations J showSecrets enc operations s
  return ({ resources := rs, secretsProvider := (given.or own).map fun m => (m.type, m.state), operations := ops }, s)

/-- deployment.go:247-251 -/
def collectResources : List ResourceV3 → List String
  | [] => []
  | r :: rs => collect (.struct r.inputs) ++ collect (.struct r.outputs) ++ collectResources rs

/-- Whether the encrypter of a manager can encrypt (deployment.go:599-605). -/
def Manager.canEncrypt {σ : Type} (m : Manager σ) : Decrypter := fun p => (m.enc p m.start).map (·.1)

/-- The resources and the operations of a file (deployment.go:266-284). -/
def deserializeWith (J : Codec) (n : Nat) (dec enc : Decrypter) (d : Deployment) :
    Except Err (List State × List (State × String)) := do
  let rs ← deserializeResources J n dec enc d.resources
  let ops ← deserializeOperations J n dec enc d.operations
  return (rs, ops)

/-- `DeserializeDeploymentV3` (deployment.go:208-287): the manager it finds, the resources and the operations. `ofType` is
`OfType` of the secrets provider. -/
def deserializeDeployment {σ : Type} (J : Codec) (n : Nat) (ofType : String → String → Except Err (Manager σ))
    (d : Deployment) : Except Err (Option (Manager σ) × List State × List (State × String)) :=
  match d.secretsProvider with
  | some (t, st) =>
    if t = "" then (deserializeWith J n panicDecrypter panicDecrypter d).map (none, ·)
    else do
      let m ← ofType t st
      let cache ← bulkDecrypt m.dec (collectResources d.resources)
      let r ← deserializeWith J n (mapDecrypter cache m.dec) m.canEncrypt d
      return (some m, r)
  | none => (deserializeWith J n panicDecrypter panicDecrypter d).map (none, ·)

/-! ## Old files -/

/-- `ResourceV2` (core.go:247-275). `ResourceV1` (core.go:205-231) has neither `External` nor `Provider`, but `Defaults`. -/
structure ResourceV2 where
  urn : String
  custom : Bool
  delete : Bool
  id : String
  type : String
  inputs : List (String × W)
  outputs : List (String × W)
  parent : String
  protect : Bool
  external : Bool
  dependencies : List String
  initErrors : List String
  provider : String

structure ResourceV1 where
  urn : String
  custom : Bool
  delete : Bool
  id : String
  type : String
  inputs : List (String × W)
  defaults : List (String × W)
  outputs : List (String × W)
  parent : String
  protect : Bool
  dependencies : List String
  initErrors : List String

/-- `UpToResourceV2` (migrate/resource.go:23-50) -/
def upToV2 (r : ResourceV1) : ResourceV2 :=
  { urn := r.urn, custom := r.custom, delete := r.delete, id := r.id, type := r.type, inputs := r.inputs,
    outputs := r.outputs, parent := r.parent, protect := r.protect, external := false, dependencies := r.dependencies,
    initErrors := r.initErrors, provider := "" }

/-- `UpToResourceV3` (migrate/resource.go:53-78) -/
def upToV3 (r : ResourceV2) : ResourceV3 :=
  { urn := r.urn, custom := r.custom, delete := r.delete, id := r.id, type := r.type, inputs := r.inputs,
    outputs := r.outputs, parent := r.parent, protect := r.protect, external := r.external, dependencies := r.dependencies,
    initErrors := r.initErrors, provider := r.provider,
    propertyDependencies := r.inputs.map fun kw => (kw.1, r.dependencies),
    pendingReplacement := false, additionalSecretOutputs := [], aliases := [], customTimeouts := none, importID := "",
    retainOnDelete := false }

/-- What a file of one of the three versions says (core.go:123-152). -/
structure Reader where
  v1 : String → Option (List ResourceV1)
  v2 : String → Option (List ResourceV2 × List (ResourceV2 × String))
  v3 : String → Option Deployment

/-- What a text is read as, or the error of reading. -/
def orJson {α : Type} : Option α → Except Err α
  | some a => .ok a
  | none => .error .json

/-- `UpToDeploymentV3` and `UpToOperationV2` (migrate/deployment.go:32-44, operation.go:20-25) -/
def upDeployment (d : List ResourceV2 × List (ResourceV2 × String)) : Deployment :=
  { resources := d.1.map upToV3, secretsProvider := none, operations := d.2.map fun o => (upToV3 o.1, o.2) }

/-- `DeserializeUntypedDeployment` (deployment.go:168-205) -/
def deserializeUntyped {σ : Type} (J : Codec) (R : Reader) (n : Nat) (ofType : String → String → Except Err (Manager σ))
    (version : Int) (body : String) : Except Err (Option (Manager σ) × List State × List (State × String)) := do
  if version > 3 then throw .version
  if version < 1 then throw .version
  let d ← if version = 1 then do
      let rs ← orJson (R.v1 body)
      pure (upDeployment (rs.map upToV2, []))
    else if version = 2 then do
      let d ← orJson (R.v2 body)
      pure (upDeployment d)
    else if version = 3 then orJson (R.v3 body)
    else throw .panic
  deserializeDeployment J n ofType d

end Pulumi.Checkpoint
