import Verif.Server.Model
import Verif.Resolve.Model
import Verif.Construct.Model
/-!
# Invoking functions of providers

`invoke.py`, and `invoke` and `call` of `runtime/invoke.py`; paths are relative to `/repo/sdk/python/lib/pulumi/`. How
`invoke` waits for its result is in `Pulumi.Pump`. Values are those of `Pulumi.Wire` and `Pulumi.Resolve`.

Simplified: `typ` is absent or an output type (otherwise both functions raise a TypeError at once); log output.
-/
namespace Pulumi.Invoke
open Pulumi.Wire (Env PV W ResId)
open Pulumi.Resolve (RV Exc M Store)
open Pulumi.Construct (Provider Dict)

/-! ## Options -/

/-- `InvokeOptions` (invoke.py:21-71). Of the parent only its providers matter; the version defaults to the empty string. -/
structure Opts where
  parent : Option Dict := none
  provider : Option Provider := none
  version : Option String := some ""
  url : Option String := none
deriving DecidableEq, Repr

/-- An `InvokeOptions` object: its attributes, and the object that its instance attribute `merge` is bound to. -/
structure Obj where
  opts : Opts
  self : Nat
deriving DecidableEq, Repr

abbrev Heap := List Obj

/-- `InvokeOptions(...)`: `self.merge = self._merge_instance` (invoke.py:64). -/
def new (h : Heap) (o : Opts) : Heap × Nat := (h ++ [⟨o, h.length⟩], h.length)

/-- An argument of `merge`; `None` stands for fresh options (invoke.py:106-107). -/
def arg (h : Heap) : Option Nat → Option (Heap × Nat)
  | none => some (new h {})
  | some i => if i < h.length then some (h, i) else none

/-- The assignments to `dest` (invoke.py:118-127). -/
def over (dest source : Opts) : Opts :=
  { parent := if source.parent.isNone then dest.parent else source.parent
    provider := if source.provider.isNone then dest.provider else source.provider
    url := if source.url.isNone then dest.url else source.url
    version := if source.version.isNone then dest.version else source.version }

/-- `InvokeOptions.merge(opts1, opts2)` (invoke.py:78-129). `copy.copy` copies all attributes, `merge` among them. -/
def merge (h : Heap) (a b : Option Nat) : Option (Heap × Nat) :=
  match arg h a with
  | none => none
  | some (h1, i) =>
    match arg h1 b with
    | none => none
    | some (h2, j) =>
      match h2[i]?, h2[j]? with
      | some x, some y => some (h2 ++ [⟨over x.opts y.opts, x.self⟩], h2.length)
      | _, _ => none

/-- `opts1.merge(opts2)`: `_merge_instance` of the object the attribute is bound to (invoke.py:73-74). -/
def mergeInstance (h : Heap) (i : Nat) (b : Option Nat) : Option (Heap × Nat) :=
  match h[i]? with
  | none => none
  | some x => merge h (some x.self) b

/-! ## invoke -/

/-- The URN and id of provider resources, as their futures resolve. -/
structure Providers where
  urn : Provider → Option String
  id : Provider → Option String

/-- `f"{provider_urn}::{provider_id}"` with `rpc.UNKNOWN` for an id that is `None` or empty (runtime/invoke.py:79-82,
177-180). -/
def providerRef (P : Providers) (p : Provider) : String :=
  (P.urn p).getD "None" ++ "::" ++ (if (P.id p).getD "" = "" then Wire.UNKNOWN else (P.id p).getD "")

/-- Lines 73-74: `opts.provider` is assigned. -/
def chooseProvider (o : Opts) (tok : Urn.Text) : Opts :=
  match o.parent, o.provider with
  | some d, none => { o with provider := Construct.getProvider d tok }
  | _, _ => o

/-- `ResourceInvokeRequest` -/
structure Request where
  tok : Urn.Text
  args : List (String × W)
  provider : Option String
  version : String
  acceptResources : Bool
  url : String

/-- What the monitor does: the gRPC call fails, with the code UNAVAILABLE or another one, or there is a reply with
failures (reason and property) and an object. -/
inductive Answer where
  | unavailable
  | failed (details : String)
  | reply (failures : List (String × String)) (object : List (String × W))

/-- What `invoke` raises. -/
inductive Fail where
  /-- `Exception(f"invoke of {tok} failed: {error}")` -/
  | rpc (tok : Urn.Text) (error : String)
  /-- `Exception(f"invoke of {tok} failed: {reason} ({property})")` -/
  | failure (tok : Urn.Text) (reason property : String)
  /-- an exception raised while preparing the request or reading the reply -/
  | internal (e : Wire.Err)

/-- `PULUMI_DISABLE_RESOURCE_REFERENCES` (lines 89-91) -/
def acceptResources (var : String) : Bool := !(["TRUE", "1"].contains var.toUpper)

/-- Lines 85-98. -/
def prepare (env : Env) (P : Providers) (var : String) (tok : Urn.Text) (props : List (String × PV)) (o : Opts) :
    Except Wire.Err Request :=
  match Wire.serializeProperties { env with transform := none } none false props with
  | .error e => .error e
  | .ok p =>
    .ok { tok := tok, args := p.fields, provider := o.provider.map (providerRef P), version := o.version.getD "",
          acceptResources := acceptResources var, url := o.url.getD "" }

/-- Lines 118-128: the result; an empty Struct is false. `translate_output_properties(deserialized, lambda p: p, typ)`. -/
def readReturn (env : Env) (C : Resolve.Classes) (typ : Option String) (object : List (String × W)) :
    Except Wire.Err (Option RV) :=
  match object with
  | [] => .ok none
  | object =>
    match Wire.deserializeProperties env false false object with
    | .error e => .error e
    | .ok v =>
      match typ with
      | none => .ok (some (.leaf v))
      | some cls => (Resolve.trans C false id (.output cls) v).map some

/-- `do_invoke` after the request is sent (lines 100-129): errors of the provider are returned, others raised. -/
def finish (env : Env) (C : Resolve.Classes) (typ : Option String) (tok : Urn.Text) (a : Answer) : Except Fail (Option RV) :=
  match a with
  | .unavailable => .error (.rpc tok "Resource monitor has terminated, shutting down")
  | .failed details => .error (.rpc tok details)
  | .reply ((reason, property) :: _) _ => .error (.failure tok reason property)
  | .reply [] object =>
    match readReturn env C typ object with
    | .error e => .error (.internal e)
    | .ok r => .ok r

/-- What an `invoke` does: what it returns or raises, the request it sends, the options afterwards, and the exception that
`RPC_MANAGER` records, which makes the program fail at its end even if the caller catches the exception. -/
structure Outcome where
  result : Except Fail (Option RV)
  request : Option Request
  opts : Opts
  recorded : Option Wire.Err

/-- `RPC_MANAGER.do_rpc` records what is raised, not what is returned as an error (`runtime/rpc_manager.py`). -/
def recorded : Except Fail (Option RV) → Option Wire.Err
  | .error (.internal e) => some e
  | _ => none

/-- `invoke` (runtime/invoke.py:53-145) -/
def invoke (env : Env) (P : Providers) (C : Resolve.Classes) (var : String) (monitor : Request → Answer) (tok : Urn.Text)
    (props : List (String × PV)) (typ : Option String) (o : Opts) : Outcome :=
  let o' := chooseProvider o tok
  match prepare env P var tok props o' with
  | .error e => { result := .error (.internal e), request := none, opts := o', recorded := some e }
  | .ok req =>
    let r := finish env C typ tok (monitor req)
    { result := r, request := some req, opts := o', recorded := recorded r }

/-- Several invokes one after the other with the same options object. -/
def invokes (env : Env) (P : Providers) (C : Resolve.Classes) (var : String) (monitor : Request → Answer) :
    List (Urn.Text × List (String × PV) × Option String) → Opts → List Outcome
  | [], _ => []
  | (tok, props, typ) :: rest, o =>
    let out := invoke env P C var monitor tok props typ o
    out :: invokes env P C var monitor rest out.opts

/-! ## call -/

/-- What `call` uses of the resource: its provider, version and download URL. -/
structure Self where
  provider : Option Provider
  version : Option String
  url : Option String

/-- `CallRequest` -/
structure CallRequest where
  tok : Urn.Text
  args : List (String × W)
  argDependencies : List (String × List String)
  provider : Option String
  version : String
  url : String

/-- The reply to a call: failures, the object and the dependencies of its properties. -/
structure CallReply where
  failures : List (String × String)
  object : List (String × W)
  dependencies : List (String × List String)

/-- The loop at 196-203. -/
def argDeps (env : Env) : List (String × List ResId) → Except Wire.Err (List (String × List String))
  | [] => .ok []
  | (k, rs) :: rest =>
    match Server.urnsOf env rs with
    | .error e => .error e
    | .ok us => (argDeps env rest).map ((k, Server.urnSet us) :: ·)

/-- Lines 173-213. -/
def prepareCall (env : Env) (P : Providers) (tok : Urn.Text) (props : List (String × PV)) (res : Option Self) :
    Except Wire.Err CallRequest :=
  match Wire.serializeProperties { env with transform := none } none true props with
  | .error e => .error e
  | .ok p =>
    match argDeps env p.deps with
    | .error e => .error e
    | .ok ds =>
      .ok { tok := tok, args := p.fields, argDependencies := ds
            provider := (res.bind (·.provider)).map (providerRef P)
            version := (res.bind (·.version)).getD ""
            url := (res.bind (·.url)).getD "" }

/-- The Output that `call` returns. -/
def out : Resolve.Target := .prop ""

/-- What the Output is resolved with. -/
structure CallResult where
  value : RV
  known : Bool
  secret : Bool
  deps : List ResId

/-- Lines 261-268. -/
def callValue (C : Resolve.Classes) (typ : Option String) (known : Bool) (v : PV) : Except Wire.Err RV :=
  if known then
    match typ with
    | none => .ok (.leaf v)
    | some cls => Resolve.trans C false id (.output cls) v
  else .ok (.leaf .none)

/-- Lines 230-268. -/
def readCall (env : Env) (C : Resolve.Classes) (typ : Option String) (r : CallReply) : Except Exc CallResult :=
  match r.object with
  | [] => .ok { value := .leaf .none, known := true, secret := false, deps := [] }
  | object =>
    match Wire.deserializeProperties env false false object with
    | .error e => .error (.err e)
    | .ok (.dict kvs) =>
      let known := !Wire.hasUnknown (.dict kvs)
      match callValue C typ known (.dict (kvs.map fun kv => (kv.1, Wire.unwrapSecret kv.2))) with
      | .error e => .error (.err e)
      | .ok v =>
        .ok { value := v, known := known, secret := kvs.any fun kv => Wire.isRpcSecret kv.2
              deps := (Server.urnSet (r.dependencies.flatMap (·.2))).map ResId.dep }
    | .ok _ => .error .attribute

/-- Lines 270-273. -/
def resolveCall (r : CallResult) : M Unit := do
  Resolve.setFut out .value (.value r.value)
  Resolve.setFut out .known (.flag r.known)
  Resolve.setFut out .secret (.flag r.secret)
  Resolve.setFut out .deps (.deps r.deps)

/-- Lines 275-283. -/
def failCall (e : Exc) : M Unit := do
  Resolve.setFut out .value (.failed e)
  Resolve.setFut out .known (.failed e)
  Resolve.setFut out .secret (.failed e)
  Resolve.setFut out .deps (.deps [])

/-- Lines 222-273: after the reply; `none` if the monitor returns `None`. -/
def answerCall (env : Env) (C : Resolve.Classes) (typ : Option String) (tok : Urn.Text) : Option CallReply → M Unit
  | none => pure ()
  | some r =>
    match r.failures with
    | (reason, property) :: _ =>
      Resolve.raiseM (.raised ("call of " ++ String.ofList tok ++ " failed: " ++ reason ++ " (" ++ property ++ ")"))
    | [] => do
      let result ← Resolve.liftE (readCall env C typ r)
      resolveCall result

/-- `call` (runtime/invoke.py:148-287): `do_call`, which raises what `RPC_MANAGER` then records. A failed gRPC call raises
(`handle_grpc_error`, `runtime/settings.py:271-272`). -/
def call (env : Env) (P : Providers) (C : Resolve.Classes) (monitor : CallRequest → Except String (Option CallReply))
    (tok : Urn.Text) (props : List (String × PV)) (res : Option Self) (typ : Option String) : M Unit :=
  Resolve.onError (do
    let req ← Resolve.liftE ((prepareCall env P tok props res).mapError Exc.err)
    let reply ← Resolve.liftE ((monitor req).mapError Exc.raised)
    answerCall env C typ tok reply) failCall

end Pulumi.Invoke
