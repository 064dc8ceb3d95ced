import Verif.Invoke.Model
/-!
# Requests to register and read resources

`prepare_resource`, `_resolve_depends_on_urns`, `do_register` up to the request, `do_read` and
`do_register_resource_outputs` of `runtime/resource.py`, and the check of `depends_on` in `ResourceOptions.__init__`
(`resource.py:574-590`); paths are relative to `/repo/sdk/python/lib/pulumi/`. What is done with the reply is in
`Pulumi.Resolve`, the constructor of resources in `Pulumi.Construct`.

Simplified: a list inside an item of `depends_on` counts as an object that is not a resource; options have the types they are
declared with, except for `depends_on`, `custom_timeouts` and `id`; the resources whose URNs are awaited have been registered
successfully; log output. The URN that is made up for runs without an engine is left out.
-/
namespace Pulumi.Register
open Pulumi.Wire (Env PV W ResId)
open Pulumi.Construct (Provider Dict)

inductive Err where
  /-- raised while serialising -/
  | wire (e : Wire.Err)
  /-- the exception of an awaitable or Output in `depends_on` -/
  | failed (e : String)
  /-- `RuntimeError: cannot reuse already awaited coroutine` -/
  | reused
  /-- `AttributeError` or `TypeError` for an object used as a resource -/
  | attribute
  /-- `Exception("'depends_on' was passed a value ... that was not a Resource.")` -/
  | notResource
  /-- `Exception("Expected custom_timeouts to be a CustomTimeouts object")` -/
  | timeouts
  /-- `TypeError` of protobuf for a field of the wrong type -/
  | type
deriving DecidableEq, Repr

/-! ## depends_on -/

/-- One entry of `depends_on`: nothing, a resource or another object, or something that gives an entry later. A future or
task can be awaited any number of times, a coroutine only once; `failing` raises when awaited. An Output comes with its
resources and whether it is known. -/
inductive Item where
  | none
  | resource (r : ResId)
  | other
  | future (v : Item)
  | coroutine (i : Nat) (v : Item)
  | failing (e : String)
  | output (resources : List ResId) (known : Bool) (v : Item)

/-- The value of a `depends_on`: a sequence or a single object. -/
inductive Value where
  | seq (xs : List Item)
  | one (x : Item)

/-- The `depends_on` option. An Output has a value unless that is `None` or contains unknowns. -/
inductive DependsOn where
  | none
  | now (v : Value)
  | future (v : Value)
  | coroutine (i : Nat) (v : Value)
  | failing (e : String)
  | output (resources : List ResId) (v : Option Value)

/-- `list(x) if isinstance(x, Sequence) else [x]` (`resource.py:602`) -/
def Value.toList : Value → List Item
  | .seq xs => xs
  | .one x => [x]

/-- Coroutines that have been awaited. -/
abbrev Used := List Nat

/-- Await the coroutine `i`. -/
def awaitOnce (used : Used) (i : Nat) : Except Err Used := if i ∈ used then .error .reused else .ok (i :: used)

/-- `_depends_on_list` (`resource.py:595-603`) and the Output made of it by `Output._from_input_shallow`
(`runtime/resource.py:841-843`): its resources and list. Mapping an Output keeps its resources, and one without a value gives
an unknown, for which the list is empty. -/
def dependsOnList (used : Used) : DependsOn → Except Err ((List ResId × List Item) × Used)
  | .none => .ok (([], []), used)
  | .now v => .ok (([], v.toList), used)
  | .future v => .ok (([], v.toList), used)
  | .coroutine i v => (awaitOnce used i).map fun u => (([], v.toList), u)
  | .failing e => .error (.failed e)
  | .output rs none => .ok ((rs, []), used)
  | .output rs (some v) => .ok ((rs, v.toList), used)

/-- What an entry comes to. -/
inductive Direct where
  | none
  | resource (r : ResId)
  | other
deriving DecidableEq, Repr

/-- `Output.from_input(i)`: its resources and the result of `future()` (846-849). In a preview an unknown Output has an
unknown value, for which `future()` gives `None`. -/
def resolveItem (dry : Bool) (used : Used) : Item → Except Err ((List ResId × Direct) × Used)
  | .none => .ok (([], .none), used)
  | .resource r => .ok (([], .resource r), used)
  | .other => .ok (([], .other), used)
  | .future v => resolveItem dry used v
  | .coroutine i v =>
    match awaitOnce used i with
    | .error e => .error e
    | .ok u => resolveItem dry u v
  | .failing e => .error (.failed e)
  | .output rs known v =>
    if dry && !known then .ok ((rs, .none), used)
    else
      match resolveItem dry used v with
      | .error e => .error e
      | .ok ((ds, d), u) => .ok ((Wire.resUnion rs ds, d), u)

/-- The loop at 845-850; `other` stands for an object that is not a resource among the dependencies. -/
def resolveItems (dry : Bool) (used : Used) (acc : List ResId) : List Item → Except Err ((List ResId × Bool) × Used)
  | [] => .ok ((acc, false), used)
  | i :: rest =>
    match resolveItem dry used i with
    | .error e => .error e
    | .ok ((rs, .none), u) => resolveItems dry u (Wire.resUnion acc rs) rest
    | .ok ((rs, .resource r), u) => resolveItems dry u (Wire.resAdd (Wire.resUnion acc rs) r) rest
    | .ok ((rs, .other), u) =>
      match resolveItems dry u (Wire.resUnion acc rs) rest with
      | .error e => .error e
      | .ok ((all, _), u') => .ok ((all, true), u')

/-- `_resolve_depends_on_urns` (828-852) up to the expansion. -/
def resolveDependsOn (dry : Bool) (used : Used) (d : DependsOn) : Except Err (List ResId × Used) :=
  match dependsOnList used d with
  | .error e => .error e
  | .ok ((rs, xs), u) =>
    match resolveItems dry u rs xs with
    | .error e => .error e
    | .ok ((_, true), _) => .error .attribute
    | .ok ((all, false), u') => .ok (all, u')

/-- An entry that is neither awaitable nor an Output, and not a resource. -/
def Item.wrong : Item → Bool
  | .none => true
  | .other => true
  | _ => false

/-- The check in `ResourceOptions.__init__` (`resource.py:574-590`). `_depends_on_list` starts a task that awaits a coroutine;
its result is thrown away. -/
def newOptions (used : Used) : DependsOn → Except Err Used
  | .now v => if v.toList.any Item.wrong then .error .notResource else .ok used
  | .coroutine i _ => .ok (if i ∈ used then used else i :: used)
  | _ => .ok used

/-! ## Options and the resource -/

/-- The `custom_timeouts` option: an object, a dict with these entries (in which a value may be `None`), something else. -/
inductive Timeouts where
  | none
  | object (create update delete : Option String)
  | dict (kvs : List (String × Option String))
  | other

/-- The options that are looked at here (`resource.py:352-489`). -/
structure Opts where
  dependsOn : DependsOn := .none
  parent : Option ResId := none
  provider : Option Provider := none
  providers : Construct.Providers := .none
  protect : Option Bool := none
  deleteBeforeReplace : Option Bool := none
  ignoreChanges : Option (List String) := none
  additionalSecretOutputs : Option (List String) := none
  replaceOnChanges : Option (List String) := none
  version : Option String := none
  url : Option String := none
  importId : Option String := none
  customTimeouts : Timeouts := .none
  retainOnDelete : Option Bool := none

/-- The resource being registered or read: its identity in the dependency graph, type, name, kind, the type of its arguments,
its arguments, the outcomes of its aliases (`None` for one that is unknown), and its class's names: the annotations and the
properties, each with Python and Pulumi name. -/
structure Res where
  self : Nat
  ty : String
  name : String
  custom : Bool
  remote : Bool
  typ : Option String
  props : List (String × PV)
  aliases : List (Option String)
  annotations : List (String × String)
  properties : List (String × String)

/-- What surrounds it. `env.transform` is set from `translateInput`, the resource's `translate_input_property`. -/
structure Ctx where
  env : Env
  translateInput : String → String
  providers : Invoke.Providers
  /-- the children of resources, for `_expand_dependencies` -/
  tree : ResId → Deps.Res
  /-- the root resource -/
  root : Option ResId
  /-- `PULUMI_DISABLE_RESOURCE_REFERENCES` -/
  var : String

/-- `translate` at 113-115: none if there is type information. -/
def Ctx.serEnv (c : Ctx) (typ : Option String) : Env :=
  { c.env with transform := if typ.isSome then none else some c.translateInput }

/-- `names.get(k) or k` for a dict of names. -/
def nameOr (names : List (String × String)) (k : String) : String :=
  match names.lookup k with
  | some n => if n = "" then k else n
  | none => k

/-- `{**a, **b}` -/
def updateNames (a b : List (String × String)) : List (String × String) := b.foldl (fun d kv => Wire.setKey d kv.1 kv.2) a

/-- `resource_py_to_pulumi_names` (`_types.py:936-947`) -/
def Res.toPulumi (r : Res) : List (String × String) := updateNames (updateNames [] r.annotations) r.properties

/-- `resource_pulumi_to_py_names` (`_types.py:922-933`) -/
def Res.toPython (r : Res) : List (String × String) :=
  updateNames (updateNames [] (r.annotations.map fun kv => (kv.2, kv.1))) (r.properties.map fun kv => (kv.2, kv.1))

/-- `_translate_ignore_changes` (299-312) and `_translate_replace_on_changes` (337-350), which are alike. -/
def translateInputs (c : Ctx) (r : Res) (names : Option (List String)) : List String :=
  (names.getD []).map fun k =>
    match r.typ with
    | some cls => c.env.pulumiName cls k
    | none => c.translateInput k

/-- `_translate_additional_secret_outputs` (315-334) -/
def translateOutputs (c : Ctx) (r : Res) (names : Option (List String)) : List String :=
  (names.getD []).map fun k =>
    match r.typ with
    | some _ => nameOr r.toPulumi k
    | none => c.translateInput k

/-! ## prepare_resource -/

/-- `"pulumi:pulumi:Stack"` -/
def stackType : String := "pulumi:pulumi:Stack"

/-- Lines 128-137: the URN of the parent; an absent one is sent as the empty string. -/
def parentUrn (c : Ctx) (ty : String) (parent : Option ResId) : Option String :=
  match parent with
  | some p => (c.env.info p).urn.value
  | none =>
    if ty ≠ stackType then
      match c.root with
      | some p => (c.env.info p).urn.value
      | none => some ""
    else some ""

/-- Lines 139-149. -/
def providerOf (c : Ctx) (custom : Bool) (o : Opts) : Option String :=
  if custom then o.provider.map (Invoke.providerRef c.providers) else none

/-- Lines 151-163. -/
def providersOf (c : Ctx) (remote : Bool) (o : Opts) : List (Urn.Text × String) :=
  if remote then (Construct.convertProviders o.provider o.providers).map fun kp => (kp.1, Invoke.providerRef c.providers kp.2)
  else []

/-- `ResourceResolverOperations` (51-92), with the dependency graph and the awaited coroutines afterwards. -/
structure Prepared where
  parent : Option String
  props : List (String × W)
  dependencies : List String
  provider : Option String
  providers : List (Urn.Text × String)
  propertyDependencies : List (String × List String)
  aliases : List (Option String)
  graph : Deps.Graph
  used : Used

/-- `prepare_resource` (96-192). Expansions always succeed (C26), so what is done when one gets stuck does not matter. -/
def prepare (c : Ctx) (g : Deps.Graph) (used : Used) (r : Res) (o : Opts) : Except Err Prepared :=
  match resolveDependsOn c.env.dryRun used o.dependsOn with
  | .error e => .error e
  | .ok (explicit, used') =>
    match Deps.expandDependencies g (explicit.map c.tree) (some r.self) with
    | none => .error .attribute
    | some e =>
      match Wire.serializeProperties (c.serEnv r.typ) r.typ r.remote r.props with
      | .error e => .error (.wire e)
      | .ok p =>
        match Deps.prepareDeps e.graph e.urns r.self (p.deps.map fun kd => (kd.1, kd.2.map c.tree)) with
        | none => .error .attribute
        | some d =>
          .ok { parent := parentUrn c r.ty o.parent, props := p.fields, dependencies := d.dependencies
                provider := providerOf c r.custom o, providers := providersOf c r.remote o
                propertyDependencies := d.propertyDependencies, aliases := Deps.dedupAliases [] r.aliases
                graph := d.graph, used := used' }

/-! ## RegisterResource -/

/-- `CustomTimeouts` of a request -/
structure TimeoutsMsg where
  create : String := ""
  update : String := ""
  delete : String := ""
deriving DecidableEq, Repr

/-- `RegisterResourceRequest` -/
structure Request where
  type_ : String
  name : String
  parent : String
  custom : Bool
  object : List (String × W)
  protect : Bool
  provider : String
  providers : List (Urn.Text × String)
  dependencies : List String
  propertyDependencies : List (String × List String)
  deleteBeforeReplace : Bool
  deleteBeforeReplaceDefined : Bool
  ignoreChanges : List String
  version : String
  pluginDownloadURL : String
  acceptSecrets : Bool
  acceptResources : Bool
  additionalSecretOutputs : List String
  importId : String
  customTimeouts : Option TimeoutsMsg
  aliases : List String
  supportsPartialValues : Bool
  remote : Bool
  replaceOnChanges : List String
  retainOnDelete : Bool

/-- `if key in d: field = d[key]`; protobuf does not accept `None`. -/
def timeoutEntry (kvs : List (String × Option String)) (key : String) : Except Err String :=
  match kvs.lookup key with
  | none => .ok ""
  | some none => .error .type
  | some (some v) => .ok v

/-- Lines 527-552. -/
def timeoutsOf : Timeouts → Except Err (Option TimeoutsMsg)
  | .none => .ok none
  | .object c u d => .ok (some ⟨c.getD "", u.getD "", d.getD ""⟩)
  | .dict kvs =>
    match timeoutEntry kvs "create", timeoutEntry kvs "update", timeoutEntry kvs "delete" with
    | .ok c, .ok u, .ok d => .ok (some ⟨c, u, d⟩)
    | .error e, _, _ => .error e
    | _, .error e, _ => .error e
    | _, _, .error e => .error e
  | .other => .error .timeouts

/-- A repeated string field: protobuf does not accept `None` in it. -/
def strings : List (Option String) → Except Err (List String)
  | [] => .ok []
  | none :: _ => .error .type
  | some s :: rest => (strings rest).map (s :: ·)

/-- Lines 554-589; `None` leaves a field at its default. -/
def message (c : Ctx) (r : Res) (o : Opts) (p : Prepared) (timeouts : Option TimeoutsMsg) (aliases : List String) : Request :=
  { type_ := r.ty
    name := r.name
    parent := p.parent.getD ""
    custom := r.custom
    object := p.props
    protect := o.protect.getD false
    provider := p.provider.getD ""
    providers := p.providers
    dependencies := p.dependencies
    propertyDependencies := p.propertyDependencies
    deleteBeforeReplace := o.deleteBeforeReplace.getD false
    deleteBeforeReplaceDefined := o.deleteBeforeReplace.isSome
    ignoreChanges := translateInputs c r o.ignoreChanges
    version := o.version.getD ""
    pluginDownloadURL := o.url.getD ""
    acceptSecrets := true
    acceptResources := Invoke.acceptResources c.var
    additionalSecretOutputs := translateOutputs c r o.additionalSecretOutputs
    importId := o.importId.getD ""
    customTimeouts := timeouts
    aliases := aliases
    supportsPartialValues := true
    remote := r.remote
    replaceOnChanges := translateInputs c r o.replaceOnChanges
    retainOnDelete := o.retainOnDelete.getD false }

/-- `do_register` up to the request (512-589). -/
def register (c : Ctx) (g : Deps.Graph) (used : Used) (r : Res) (o : Opts) : Except Err (Request × Prepared) :=
  match prepare c g used r o with
  | .error e => .error e
  | .ok p =>
    match timeoutsOf o.customTimeouts with
    | .error e => .error e
    | .ok t =>
      match strings p.aliases with
      | .error e => .error e
      | .ok as => .ok (message c r o p t as, p)

/-- The URN option and several registrations with one options object. Each sees the coroutines that were awaited before; a
registration that fails leaves the graph and the awaited coroutines at least as they were, here: as they were. -/
def registrations (c : Ctx) (g : Deps.Graph) (used : Used) (o : Opts) : List Res → List (Except Err Request)
  | [] => []
  | r :: rest =>
    match register c g used r o with
    | .error e => .error e :: registrations c g used o rest
    | .ok (req, p) => .ok req :: registrations c p.graph p.used o rest

/-- `ResourceOptions(...)` and then registrations with it. -/
def program (c : Ctx) (o : Opts) (rs : List Res) : Except Err (List (Except Err Request)) :=
  match newOptions [] o.dependsOn with
  | .error e => .error e
  | .ok used => .ok (registrations c [] used o rs)

/-! ## ReadResource -/

/-- `ReadResourceRequest` -/
structure ReadRequest where
  type_ : String
  name : String
  id : String
  parent : String
  provider : String
  properties : List (String × W)
  dependencies : List String
  version : String
  pluginDownloadURL : String
  acceptSecrets : Bool
  acceptResources : Bool
  additionalSecretOutputs : List String

/-- A string field. -/
def stringField : PV → Except Err String
  | .str s => .ok s
  | .none => .ok ""
  | _ => .error .type

/-- `do_read` up to the request (387-426): the request and the serialised id. Ids are serialised without names to translate
and without keeping output values. -/
def read (c : Ctx) (g : Deps.Graph) (used : Used) (r : Res) (o : Opts) (id : PV) : Except Err (ReadRequest × PV) :=
  match prepare c g used { r with custom := true, remote := false } o with
  | .error e => .error e
  | .ok p =>
    match Wire.ser { c.env with transform := none } false .any id with
    | .error e => .error (.wire e)
    | .ok (v, _) =>
      match stringField v with
      | .error e => .error e
      | .ok s =>
        .ok ({ type_ := r.ty, name := r.name, id := s, parent := p.parent.getD "", provider := p.provider.getD ""
               properties := p.props, dependencies := p.dependencies, version := o.version.getD ""
               pluginDownloadURL := o.url.getD "", acceptSecrets := true, acceptResources := Invoke.acceptResources c.var
               additionalSecretOutputs := translateOutputs c r o.additionalSecretOutputs }, v)

/-- The whole of `do_read`: the futures of the resource (`Resolve.read`) after the monitor has answered. -/
def doRead (c : Ctx) (rc : Resolve.Ctx) (g : Deps.Graph) (used : Used) (r : Res) (o : Opts) (id : PV)
    (monitor : ReadRequest → Except Resolve.Exc (Option Resolve.Response)) : Resolve.M Unit :=
  match read c g used r o id with
  | .error e => Resolve.read rc (.leaf .none) (.error (.raised (reprStr e))) (.ok none)
  | .ok (req, v) => Resolve.read rc (.leaf v) (.ok req.properties) (monitor req)

/-! ## RegisterResourceOutputs -/

/-- `do_register_resource_outputs` (680-712): the URN and the outputs that are sent. -/
def registerOutputs (c : Ctx) (r : ResId) (outputs : List (String × PV)) : Except Err (String × List (String × W)) :=
  match Wire.serializeProperties { c.env with transform := none } none false outputs with
  | .error e => .error (.wire e)
  | .ok p => .ok ((c.env.info r).urn.value.getD "", p.fields)

end Pulumi.Register
