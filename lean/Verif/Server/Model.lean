import Verif.Wire.Model
/-!
# What a component provider receives and answers

`provider/server.py:77-195` (`_construct`, its inputs, options and response), `208-285` (`_call`, its arguments and
response) and `355-416`; paths are relative to `/repo/sdk/python/lib/pulumi/`. Values are those of `Pulumi.Wire`.
-/
namespace Pulumi.Server

open Wire (Env Err PV W ResId)

/-- `_empty_as_none` (364-365) -/
def emptyAsNone (s : String) : Option String := if s = "" then none else some s

/-- `_zero_as_none` (368-369) -/
def zeroAsNone (n : Int) : Option Int := if n = 0 then none else some n

/-- What of `ConstructRequest` and `CallRequest` is installed as settings. -/
structure Context where
  project : String
  stack : String
  parallel : Int
  monitorEndpoint : String
  dryRun : Bool

/-- `Settings` as far as `reset_options` sets them (`runtime/settings.py:287-310`); the organization is not passed on. -/
structure Settings where
  project : Option String
  stack : Option String
  parallel : Option Int
  monitor : Option String
  engine : String
  dryRun : Bool
  organization : Option String
deriving DecidableEq, Repr

/-- server.py:85-92 and 216-223 -/
def settingsOf (engineAddress : String) (c : Context) : Settings :=
  { project := emptyAsNone c.project
    stack := emptyAsNone c.stack
    parallel := zeroAsNone c.parallel
    monitor := emptyAsNone c.monitorEndpoint
    engine := engineAddress
    dryRun := c.dryRun
    organization := none }

mutual
/-- `_contains_outputs` (383-399) -/
def containsOutputs : PV → Bool
  | .output .. => true
  | .list xs => containsOutputsList xs
  | .dict kvs => containsOutputsKvs kvs
  | _ => false
def containsOutputsList : List PV → Bool
  | [] => false
  | x :: xs => if containsOutputs x then true else containsOutputsList xs
def containsOutputsKvs : List (String × PV) → Bool
  | [] => false
  | (_, x) :: kvs => if containsOutputs x then true else containsOutputsKvs kvs
end

/-- `_is_resource_reference` (372-380); `deps` is a set. -/
def isResourceReference (env : Env) (v : PV) (deps : List String) : Bool :=
  match v, deps with
  | .resource r, [u] => (env.info r).urn.value = some u
  | _, _ => false

/-- Python `set(urns)`, as the list of its elements. -/
def urnSet (urns : List String) : List String := urns.foldl (fun s u => if u ∈ s then s else s ++ [u]) []

/-- `_select_value` (138-160). An Output is known only if its value has no unknowns in it (`output.py:84-107`). -/
def selectValue (env : Env) (v : PV) (deps : List String) : PV :=
  if !Wire.isRpcSecret v && (deps.length = 0 || containsOutputs v || isResourceReference env v deps) then v
  else .output (deps.map ResId.dep) (!Wire.hasUnknown (Wire.unwrapSecret v)) (Wire.isRpcSecret v) (Wire.unwrapSecret v)

/-- `deps(k)` (123-129, 246-252): a missing entry is an empty message. -/
def depsOf (dependencies : List (String × List String)) (k : String) : List String :=
  urnSet ((dependencies.lookup k).getD [])

/-- `_construct_inputs` (119-135) with `keepInternal := false` and `_call_args` (244-261) with `keepInternal := true`. What
`deserialize_properties` gives for a struct with a signature of an asset, say, has no `items` (AttributeError). -/
def receive (env : Env) (keepInternal : Bool) (fields : List (String × W)) (dependencies : List (String × List String)) :
    Except Err (List (String × PV)) :=
  match Wire.deserializeProperties env true keepInternal fields with
  | .error e => .error e
  | .ok (.dict es) => .ok (es.map fun kv => (kv.1, selectValue env kv.2 (depsOf dependencies kv.1)))
  | .ok _ => .error .type

/-- A provider rebuilt from a reference. -/
inductive Provider where
  /-- by the registered package (`construct_provider`) -/
  | registered (r : ResId)
  /-- `DependencyProviderResource(ref)` (`resource.py:1188-1219`) -/
  | dependency (pkg urn id : Urn.Text)

/-- `_create_provider_resource` (402-416) and `DependencyProviderResource.__init__`. -/
def createProvider (env : Env) (ref : Urn.Text) : Except Err Provider :=
  match Urn.parseRef ref with
  | .error _ => .error .value
  | .ok (urn, id) =>
    match Urn.parseUrn urn with
    | .error _ => .error .value
    | .ok parts =>
      match env.providerPackage (String.ofList parts.typName) "" with
      | some construct => .ok (.registered (construct parts (String.ofList urn)))
      | none => .ok (.dependency parts.typName urn id)

/-- The part of `ConstructRequest` that becomes options. -/
structure OptionsRequest where
  parent : String
  aliases : List String
  dependencies : List String
  protect : Bool
  providers : List (String × String)

/-- The `ResourceOptions` given to the component. -/
structure Options where
  parent : Option ResId
  aliases : List String
  dependsOn : List ResId
  protect : Bool
  providers : List (String × Provider)

/-- The comprehension over the providers (171-174). -/
def createProviders (env : Env) : List (String × String) → Except Err (List (String × Provider))
  | [] => .ok []
  | (pkg, ref) :: rest =>
    match createProvider env ref.toList with
    | .error e => .error e
    | .ok p => (createProviders env rest).map ((pkg, p) :: ·)

/-- The parent (164-166): the condition is the wrong way round. -/
def parentOf (parent : String) : Option ResId :=
  if (emptyAsNone parent).isNone then some (.dep parent) else none

/-- `_construct_options` (163-176) -/
def constructOptions (env : Env) (r : OptionsRequest) : Except Err Options :=
  match createProviders env r.providers with
  | .error e => .error e
  | .ok providers =>
    .ok { parent := parentOf r.parent
          aliases := r.aliases
          dependsOn := r.dependencies.map ResId.dep
          protect := r.protect
          providers := providers }

/-- A response: the struct and, for each property, the URNs it depends on. -/
structure Response where
  fields : List (String × W)
  dependencies : List (String × List String)

/-- `await asyncio.gather(*(r.urn.future() for r in resources))` put into a repeated string field, which rejects `None`. -/
def urnsOf (env : Env) : List ResId → Except Err (List String)
  | [] => .ok []
  | r :: rs =>
    match (env.info r).urn.value with
    | none => .error .type
    | some u => (urnsOf env rs).map (u :: ·)

/-- The loop at 189-193 and 270-273. -/
def listDeps (env : Env) : List (String × List ResId) → Except Err (List (String × List String))
  | [] => .ok []
  | (k, rs) :: rest =>
    match urnsOf env rs with
    | .error e => .error e
    | .ok us => (listDeps env rest).map ((k, us) :: ·)

/-- `serialize_properties(inputs, property_deps)` and the loop over `property_deps`: 183-193, 264-273. -/
def respond (env : Env) (values : List (String × PV)) : Except Err Response :=
  match Wire.serializeProperties { env with transform := none } none false values with
  | .error e => .error e
  | .ok p =>
    match listDeps env p.deps with
    | .error e => .error e
    | .ok d => .ok { fields := p.fields, dependencies := d }

/-- `_construct_response` (178-195), without the URN. -/
def constructResponse (env : Env) (state : List (String × PV)) : Except Err Response :=
  respond env (state.filter fun kv => !["id", "urn"].contains kv.1)

/-- `_call_response` (263-285), without the failures. -/
def callResponse (env : Env) (outputs : List (String × PV)) : Except Err Response := respond env outputs

end Pulumi.Server
