import Verif.Wire.Model
/-!
# Resolving the outputs of a resource

`runtime/rpc.py` 724-925 and 992-1126, and the tails of the coroutines in `runtime/resource.py` that register, read and
look up a resource. Paths are relative to `/repo/sdk/python/lib/pulumi/`.

Not modelled here: the preparation of the request (`prepare_resource`; its result is the parameter `prep`), log output.
-/
namespace Pulumi.Resolve
open Pulumi.Wire

/-! ## Output types -/

/-- Type annotations after `unwrap_optional_type`, as far as `translate_output_properties` distinguishes them: none or
`Any`; `List[T]` (a bare `list` is `List[Any]`); `Dict[str, T]`; `dict` without (two, `str`-keyed) arguments; an output
type; an enum; `int`; anything else. -/
inductive OTy where
  | any
  | list (t : OTy)
  | dict (t : OTy)
  | bareDict
  | output (cls : String)
  | enum (cls : String)
  | int
  | other

/-- One property of an output type (`_types.py:445-453` `_py_properties`); `optional` means that its default is `None`. -/
structure OProp where
  pyName : String
  pulumiName : String
  ty : OTy
  optional : Bool

/-- An output type: its properties, and its `_translate_property` method if it has one. -/
structure OClass where
  props : List OProp
  translate : Option (String → String)

/-- What a property of a resource is resolved with. `leaf` is a value that `translate_output_properties` returns
unchanged; `int` is the result of `int(output)`; `obj` is an instance of an output type with what it stores; `enum` is
an enum member with its value. -/
inductive RV where
  | leaf (v : PV)
  | int (n : Int)
  | list (xs : List RV)
  | dict (kvs : List (String × RV))
  | obj (cls : String) (fields : List (String × RV))
  | enum (cls : String) (v : PV)

/-- `value is None` -/
def RV.isNone : RV → Bool
  | .leaf .none => true
  | _ => false

/-- The classes the annotations refer to. -/
structure Classes where
  output : String → OClass
  /-- the values of the members of an enum -/
  enum : String → List PV

/-- `types.get(k)` for an output type (`_types.py:903-908`, `770-815`); no annotation is `any`. -/
def propTy (c : OClass) (k : String) : OTy :=
  match c.props.find? (fun p => p.pulumiName == k) with
  | some p => p.ty
  | none => .any

/-- The key an instance stores a property under: `_translate_property(pulumi name)` if the class has the method, else
the Python name (`_types.py:1062-1087` `_property_init`; `614-630` `_translate_name` for `pulumi.set`). -/
def storeKey (c : OClass) (p : OProp) : String :=
  match c.translate with
  | some f => f p.pulumiName
  | none => p.pyName

/-- `output_type_from_dict` (`_types.py:570-576`) followed by the generated `__init__` (`1106-1137`): every property gets
`output.get(pulumi_name)`; one whose default is `None` is not stored when it is `None`. A hand-written `__init__` that
calls `pulumi.set` for each argument does the same. -/
def construct (C : Classes) (cls : String) (vals : List (String × RV)) : RV :=
  let c := C.output cls
  .obj cls (c.props.foldl (fun acc p =>
    let v := (vals.lookup p.pulumiName).getD (.leaf .none)
    if p.optional && v.isNone then acc else setKey acc (storeKey c p) v) [])

/-- Attribute access on an instance of an output type: `get(self, python_name)` (`_types.py:633-662`, with
`_translate_name` 614-630). -/
def attr (C : Classes) (cls : String) (fields : List (String × RV)) (pyName : String) : RV :=
  let c := C.output cls
  let name := match c.translate with
    | none => pyName
    | some f =>
      f (match c.props.find? (fun p => p.pyName == pyName) with
        | some p => if p.pulumiName = "" then pyName else p.pulumiName
        | none => pyName)
  (fields.lookup name).getD (.leaf .none)

/-! ## translate_output_properties -/

/-- `is_rpc_secret` (`rpc.py:640-644`) on a translated value. -/
def RV.isSecret : RV → Bool
  | .dict kvs =>
    match kvs.lookup sigKey with
    | some (.leaf (.str s)) => s == secretSig
    | _ => false
  | _ => false

/-- `wrap_rpc_secret` (`rpc.py:647-657`) -/
def RV.wrap (v : RV) : RV :=
  if v.isSecret then v else .dict [(sigKey, .leaf (.str secretSig)), ("value", v)]

/-- `unwrap_rpc_secret` (`rpc.py:660-667`); a marked dict without `value` raises `KeyError`, which
`translate_output_properties` has already done for a value that comes from the engine. -/
def RV.unwrap (v : RV) : RV :=
  if v.isSecret then
    match v with
    | .dict kvs => (kvs.lookup "value").getD v
    | _ => v
  else v

/-- `_get_list_element_type` (`rpc.py:143-160`). -/
def elemTy : OTy → Except Err OTy
  | .any => .ok .any
  | .list t => .ok t
  | _ => .error .assertion

/-- `get_type` for a dict (`rpc.py:843-882`); the error is the `AssertionError` for an unexpected type. -/
def keyTy (C : Classes) : OTy → Except Err (String → OTy)
  | .any => .ok fun _ => .any
  | .bareDict => .ok fun _ => .any
  | .dict t => .ok fun _ => t
  | .output cls => .ok (propTy (C.output cls))
  | _ => .error .assertion

/-- The dict that is returned (lines 844-897): an instance of the output type, or the entries under translated keys;
with type metadata the keys of a `Dict[str, T]` are kept. -/
def rebuildDict (C : Classes) (meta_ : Bool) (tr : String → String) (ty : OTy) (es : List (String × RV)) : RV :=
  match ty with
  | .output cls => construct C cls es
  | .dict _ => .dict (es.foldl (fun acc kv => setKey acc (if meta_ then kv.1 else tr kv.1) kv.2) [])
  | _ => .dict (es.foldl (fun acc kv => setKey acc (tr kv.1) kv.2) [])

/-- Python `==` between a scalar from the engine and the value of an enum member; `True == 1`. -/
def scalarEq : PV → PV → Bool
  | .str a, .str b => a == b
  | .num a, .num b => a == b
  | .bool a, .num b => (if a then 1 else 0) == b
  | .bool a, .bool b => a == b
  | .num a, .bool b => a == (if b then 1 else 0)
  | _, _ => false

/-- `typ(output)` for an enum: the member with this value, else `ValueError`. -/
def enumOf (C : Classes) (cls : String) (v : PV) : Except Err RV :=
  match (C.enum cls).find? (scalarEq v) with
  | some m => .ok (.enum cls m)
  | none => .error .value

/-- `isinstance(output, (int, float, str))`; `bool` is an `int`. -/
def isScalar : PV → Bool
  | .str _ | .num _ | .bool _ => true
  | _ => false

/-- Lines 911-925: values that are neither dict nor list. Numbers from the engine are floats. -/
def transLeaf (C : Classes) (ty : OTy) (v : PV) : Except Err RV :=
  match ty with
  | .enum cls => if isScalar v then enumOf C cls v else .ok (.leaf v)
  | .int =>
    match v with
    | .num n => .ok (.int n)
    | _ => .ok (.leaf v)
  | _ => .ok (.leaf v)

/-- All results, or the first error. -/
def sequence : List (String × Except Err RV) → Except Err (List (String × RV))
  | [] => .ok []
  | (k, r) :: rest => do
    let v ← r
    let vs ← sequence rest
    return (k, v) :: vs

mutual
/-- `translate_output_properties(output, tr, typ, meta)` (`rpc.py:786-925`). -/
def trans (C : Classes) (meta_ : Bool) (tr : String → String) (ty : OTy) : PV → Except Err RV
  | .dict kvs =>
    -- 829-834: a secret
    if isRpcSecret (.dict kvs) then
      match (transKvs C meta_ tr (fun _ => ty) kvs).lookup "value" with
      | some r => r.map RV.wrap
      | none => .error .key
    else
      match keyTy C ty with
      | .error e => .error e
      | .ok get => (sequence (transKvs C meta_ tr get kvs)).map (rebuildDict C meta_ tr ty)
  | .list xs =>
    match elemTy ty with
    | .error e => .error e
    | .ok t => (transList C meta_ tr t xs).map .list
  | v => transLeaf C ty v
def transList (C : Classes) (meta_ : Bool) (tr : String → String) (ty : OTy) : List PV → Except Err (List RV)
  | [] => .ok []
  | x :: xs => do
    let v ← trans C meta_ tr ty x
    let vs ← transList C meta_ tr ty xs
    return v :: vs
/-- Each entry with its own outcome. -/
def transKvs (C : Classes) (meta_ : Bool) (tr : String → String) (get : String → OTy) :
    List (String × PV) → List (String × Except Err RV)
  | [] => []
  | (k, x) :: xs => (k, trans C meta_ tr (get k) x) :: transKvs C meta_ tr get xs
end

/-! ## Futures -/

/-- The Outputs of a resource. -/
inductive Target where
  | urn
  | id
  | prop (name : String)
deriving DecidableEq, Repr

/-- The four futures of an Output. -/
inductive Fld where
  | deps
  | value
  | known
  | secret
deriving DecidableEq, Repr

/-- Exceptions. -/
inductive Exc where
  /-- `asyncio.InvalidStateError`: a future is set twice -/
  | invalidState
  /-- raised while reading or translating the response -/
  | err (e : Err)
  /-- `AttributeError`: the response is not a dict of properties, or there is none -/
  | attribute
  /-- raised by a stage that is not modelled -/
  | raised (s : String)
deriving DecidableEq, Repr

/-- What a future holds. -/
inductive FutVal where
  | deps (rs : List ResId)
  | value (v : RV)
  | flag (b : Bool)
  | failed (e : Exc)

/-- The futures that have been set, in the order in which they were. -/
abbrev Store := List ((Target × Fld) × FutVal)

/-- Code that sets futures and may raise. -/
abbrev M (α : Type) := Store → Except Exc α × Store

def M.bind {α β : Type} (m : M α) (f : α → M β) : M β := fun s =>
  match m s with
  | (.ok a, s') => f a s'
  | (.error e, s') => (.error e, s')

instance : Monad M where
  pure a := fun s => (.ok a, s)
  bind := M.bind

def raiseM {α : Type} (e : Exc) : M α := fun s => (.error e, s)

/-- `Future.set_result` / `set_exception`. -/
def setFut (t : Target) (f : Fld) (v : FutVal) : M Unit := fun s =>
  if s.any (fun e => e.1 == (t, f)) then (.error .invalidState, s) else (.ok (), s ++ [((t, f), v)])

/-- `try: m except Exception as e: h e; raise`. -/
def onError {α : Type} (m : M α) (h : Exc → M Unit) : M α := fun s =>
  match m s with
  | (.ok a, s') => (.ok a, s')
  | (.error e, s') =>
    match h e s' with
    | (.ok _, s'') => (.error e, s'')
    | (.error e', s'') => (.error e', s'')

def forEach {α : Type} (f : α → M Unit) : List α → M Unit
  | [] => pure ()
  | x :: xs => do
    f x
    forEach f xs

/-! ## Resolvers -/

/-- `transfer_properties` (`rpc.py:724-783`): the properties that get an Output and a resolver. -/
def transfer (props : List String) : List String := props.filter fun n => n != "id" && n != "urn"

/-- `do_resolve` (`rpc.py:739-767`) for a property of resource `r`; `deps` is `None` or a set. -/
def doResolve (r : ResId) (name : String) (value : RV) (known secret : Bool) (deps : Option (List ResId))
    (failed : Option Exc) : M Unit := do
  setFut (.prop name) .deps (.deps (resAdd (deps.getD []) r))
  match failed with
  | some e => do
    setFut (.prop name) .value (.failed e)
    setFut (.prop name) .known (.failed e)
    setFut (.prop name) .secret (.failed e)
  | none => do
    setFut (.prop name) .value (.value value)
    setFut (.prop name) .known (.flag known)
    setFut (.prop name) .secret (.flag secret)

/-- `resolve` of `resource_output` (`resource.py:195-213`), for `urn` and `id`. Their resources are `{res}` from the
start. -/
def resolveOwn (t : Target) (value : RV) (known secret : Bool) (failed : Option Exc) : M Unit :=
  match failed with
  | some e => do
    setFut t .value (.failed e)
    setFut t .known (.failed e)
    setFut t .secret (.failed e)
  | none => do
    setFut t .value (.value value)
    setFut t .known (.flag known)
    setFut t .secret (.flag secret)

/-- `resolve_properties` (`rpc.py:1060-1112`). -/
def resolveProperties (dry : Bool) (r : ResId) (resolvers : List String) (all : List (String × RV))
    (deps : List (String × List ResId)) : M Unit := do
  forEach (fun (key, value) =>
    if key = "id" ∨ key = "urn" then pure ()
    else if key ∈ resolvers then
      doResolve r key value.unwrap (if dry then !value.unwrap.isNone else true) value.isSecret (deps.lookup key) none
    else pure ()) all
  forEach (fun key =>
    if all.any (fun kv => kv.1 == key) then pure ()
    else doResolve r key (.leaf .none) (!dry) false (deps.lookup key) none) resolvers

/-- `resolve_outputs_due_to_exception` (`rpc.py:1115-1126`). -/
def resolveFailed (r : ResId) (resolvers : List String) (e : Exc) : M Unit :=
  forEach (fun key => doResolve r key (.leaf .none) false false none (some e)) resolvers

/-- What is fixed about the resource and its class: the Python names given to properties from the engine
(`translate`), the transformer passed on (`translate_to_pass`), the declared types by Pulumi name. -/
structure ResClass where
  classes : Classes
  types : String → OTy
  /-- `transform_using_type_metadata`, with the Python name of a Pulumi name -/
  metaNames : Option (String → String)
  /-- `res.translate_output_property` -/
  translateOutput : String → String

/-- `translate` (`rpc.py:1010-1020`). -/
def ResClass.translate (c : ResClass) : String → String := c.metaNames.getD c.translateOutput

/-- `translate_to_pass` -/
def ResClass.pass (c : ResClass) : String → String := if c.metaNames.isSome then id else c.translateOutput

/-- `translate_output_properties` as called by `resolve_outputs`. -/
def ResClass.trans (c : ResClass) (key : String) (v : PV) : Except Err RV :=
  Resolve.trans c.classes c.metaNames.isSome c.pass (c.types key) v

/-- The loop over the engine's outputs (`rpc.py:1022-1041`). -/
def engineProps (c : ResClass) (acc : List (String × RV)) : List (String × PV) → Except Err (List (String × RV))
  | [] => .ok acc
  | (k, v) :: rest => do
    let w ← c.trans k v
    engineProps c (setKey acc (c.translate k) w) rest

/-- The loop over the inputs (`rpc.py:1047-1060`). -/
def inputProps (env : Env) (c : ResClass) (acc : List (String × RV)) : List (String × W) → Except Err (List (String × RV))
  | [] => .ok acc
  | (k, w) :: rest =>
    if acc.any (fun kv => kv.1 == c.translate k) then inputProps env c acc rest
    else do
      let v ← des env false w
      let v' ← c.trans k v
      inputProps env c (setKey acc (c.translate k) v') rest

/-- `.items()` of what `deserialize_properties` returns. -/
def items : PV → Except Exc (List (String × PV))
  | .dict kvs => .ok kvs
  | _ => .error .attribute

/-- `deserialize_properties(outputs).items()` (`rpc.py:1022`). -/
def readItems (env : Env) (outputs : List (String × W)) : Except Exc (List (String × PV)) :=
  match deserializeProperties env false false outputs with
  | .ok v => items v
  | .error e => .error (.err e)

/-- `all_properties` (`rpc.py:1002-1060`). -/
def allProperties (env : Env) (legacyApply : Bool) (c : ResClass) (inputs outputs : List (String × W)) :
    Except Exc (List (String × RV)) := do
  let kvs ← readItems env outputs
  let fromEngine ← (engineProps c [] kvs).mapError .err
  if !env.dryRun || legacyApply then (inputProps env c fromEngine inputs).mapError .err
  else .ok fromEngine

def liftE {α : Type} (x : Except Exc α) : M α := fun s => (x, s)

/-- `translated_deps` (`rpc.py:1043-1045`). -/
def translateDeps (c : ResClass) (deps : List (String × List ResId)) : List (String × List ResId) :=
  deps.foldl (fun acc kv => setKey acc (c.translate kv.1) kv.2) []

/-- `resolve_outputs` (`rpc.py:992-1060`). -/
def resolveOutputs (env : Env) (legacyApply : Bool) (c : ResClass) (r : ResId) (inputs outputs : List (String × W))
    (deps : List (String × List ResId)) (resolvers : List String) : M Unit := do
  let all ← liftE (allProperties env legacyApply c inputs outputs)
  resolveProperties env.dryRun r resolvers all (translateDeps c deps)

/-! ## Registering, reading and looking up -/

/-- What the engine answers. -/
structure Response where
  urn : String
  id : String
  object : List (String × W)
  deps : List (String × List String)

/-- What is fixed in a call. -/
structure Ctx where
  env : Env
  legacyApply : Bool
  cls : ResClass
  res : ResId
  /-- the names in `props` -/
  props : List String
  custom : Bool

def Ctx.resolvers (c : Ctx) : List String := transfer c.props

/-- The handlers of the first `try` block (`resource.py:609-617`, and 270-278, 441-449). -/
def failAll (c : Ctx) (custom : Bool) (e : Exc) : M Unit := do
  resolveFailed c.res c.resolvers e
  resolveOwn .urn (.leaf .none) true false (some e)
  if custom then resolveOwn .id (.leaf .none) true false (some e) else pure ()

/-- The first `try` block up to the reply: `prep` is the outcome of preparing the request (the serialised inputs) and
`rpc` that of the call. -/
def request {α : Type} (prep : Except Exc (List (String × W))) (rpc : Except Exc α) : M (List (String × W) × α) := do
  let inputs ← liftE prep
  let reply ← liftE rpc
  return (inputs, reply)

/-- The `propertyDependencies` of the reply as sets of resources (`resource.py:649-654`). -/
def replyDeps (resp : Response) : List (String × List ResId) :=
  resp.deps.map fun kv => (kv.1, (kv.2.map ResId.dep).foldl resAdd [])

/-- The second `try` block (`resource.py:635-665`): which of the three parts has been done is known from how far it got,
`called` below. -/
inductive Stage where
  | urn
  | id
  | outputs
deriving DecidableEq

/-- Run a part of the block; on an exception, note the stage. -/
def atStage (st : Stage) (m : M Unit) : Store → Except (Stage × Exc) Unit × Store := fun s =>
  match m s with
  | (.ok a, s') => (.ok a, s')
  | (.error e, s') => (.error (st, e), s')

/-- Lines 635-665 of `register_resource`. -/
def finishRegister (c : Ctx) (inputs : List (String × W)) (resp : Response) (s : Store) :
    Except (Stage × Exc) Unit × Store :=
  match atStage .urn (resolveOwn .urn (.leaf (.str resp.urn)) true false none) s with
  | (.error e, s') => (.error e, s')
  | (.ok _, s') =>
    match atStage .id
      (if c.custom then resolveOwn .id (.leaf (.str resp.id)) (resp.id != "") false none else pure ()) s' with
    | (.error e, s'') => (.error e, s'')
    | (.ok _, s'') =>
      atStage .outputs (resolveOutputs c.env c.legacyApply c.cls c.res inputs resp.object (replyDeps resp) c.resolvers) s''

/-- Lines 667-680: the handler of the second `try` block. -/
def failRest (c : Ctx) (st : Stage) (e : Exc) : M Unit := do
  resolveFailed c.res c.resolvers e
  if st = .urn then resolveOwn .urn (.leaf .none) true false (some e) else pure ()
  if c.custom ∧ (st = .urn ∨ st = .id) then resolveOwn .id (.leaf .none) true false (some e) else pure ()

/-- `do_register` (`resource.py:514-680`). `none` is a reply of `None`, which leaves everything pending; a failed gRPC
call raises (`settings.py:271-272`). -/
def register (c : Ctx) (prep : Except Exc (List (String × W))) (rpc : Except Exc (Option Response)) : M Unit := fun s =>
  match onError (request prep rpc) (failAll c c.custom) s with
  | (.error e, s') => (.error e, s')
  | (.ok (_, none), s') => (.ok (), s')
  | (.ok (inputs, some resp), s') =>
    match finishRegister c inputs resp s' with
    | (.ok _, s'') => (.ok (), s'')
    | (.error (st, e), s'') =>
      match failRest c st e s'' with
      | (.ok _, s3) => (.error e, s3)
      | (.error e', s3) => (.error e', s3)

/-- `do_read` (`resource.py:389-466`): `id` is the serialised `opts.id`. There is no second `try` block. -/
def read (c : Ctx) (id : RV) (prep : Except Exc (List (String × W))) (rpc : Except Exc (Option Response)) : M Unit := do
  let (inputs, reply) ← onError (request prep rpc) (failAll c true)
  match reply with
  | none => raiseM .attribute
  | some resp => do
    resolveOwn .urn (.leaf (.str resp.urn)) true false none
    resolveOwn .id id true false none
    resolveOutputs c.env c.legacyApply c.cls c.res inputs resp.object [] c.resolvers

/-- `do_get` (`resource.py:241-294`): a reply with failures raises inside the `try` block, so is part of `rpc`. There is
no second `try` block. -/
def getResource (c : Ctx) (prep : Except Exc (List (String × W))) (rpc : Except Exc Response) : M Unit := do
  let (inputs, resp) ← onError (request prep rpc) (failAll c c.custom)
  resolveOwn .urn (.leaf (.str resp.urn)) true false none
  if c.custom then resolveOwn .id (.leaf (.str resp.id)) (resp.id != "") false none else pure ()
  resolveOutputs c.env c.legacyApply c.cls c.res inputs resp.object [] c.resolvers

end Pulumi.Resolve
