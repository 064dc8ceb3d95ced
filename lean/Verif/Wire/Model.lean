import Verif.Deps.Model
import Verif.Urn.Model
/-!
# Serialisation to and from the engine

Models `runtime/rpc.py:58-95` (signatures), `133-160`, `serialize_properties` (163-225), `serialize_property`
(229-490), `deserialize_properties` (494-568), `deserialize_resource` (571-601), `deserialize_output_value`
(604-633), `is_rpc_secret`, `wrap_rpc_secret`, `unwrap_rpc_secret` (636-667), `deserialize_property` (670-704) and
the checks made by the constructors of `asset.py:22-125`.

Every awaitable and Output is represented together with the outcome it settles to (that outcomes do not depend on
the schedule is C09); the model then runs the awaits one after the other, as the code does. Exceptions are values
of `Err`.
-/
namespace Pulumi.Wire

/-- Exceptions, by the place that raises them. -/
inductive Err where
  /-- `ValueError("unexpected input of type ...")` (`rpc.py:487`) -/
  | illegal
  /-- `AssertionError` -/
  | assertion
  /-- the exception of an awaited future -/
  | raised (e : String)
  /-- `TypeError` of an asset or archive constructor -/
  | type
  /-- `ValueError` for a missing field of a protobuf struct, or for a URN that cannot be parsed -/
  | value
  /-- `KeyError` -/
  | key
deriving DecidableEq, Repr

/-! ## Values -/

/-- Identity of a resource: one declared by the program, or a `DependencyResource(urn)` placeholder. -/
inductive ResId where
  | decl (n : Nat)
  | dep (urn : String)
deriving DecidableEq, Repr

/-- `FileAsset(path)`, `StringAsset(text)`, `RemoteAsset(uri)` (`asset.py:29-67`). -/
inductive AssetKind where
  | file | text | remote
deriving DecidableEq, Repr

/-- `FileArchive(path)`, `RemoteArchive(uri)` (`asset.py:97-125`). -/
inductive ArchiveKind where
  | file | remote
deriving DecidableEq, Repr

/-- Python values. `num` stands for a number that a protobuf double represents exactly. A dict is the list of
its entries in insertion order. `list` stands for every sequence that `rpc.py:256` treats as one. `illegal` is any
other object (tuples, bytes, sets, arbitrary objects, and mappings with a non-string key, for which the exception
comes from the assignment into the protobuf struct instead). `inputObj cls fields` is an instance of an input type:
for each property of the class, in order, its Pulumi name and current value. `output` is an Output with the
settled `resources()`, `_is_known`, `_is_secret` and raw value; `awaitable v` one that gives `v`; `failing e` an
awaitable or an Output whose awaiting raises. -/
inductive PV where
  | none
  | bool (b : Bool)
  | num (n : Int)
  | str (s : String)
  | list (xs : List PV)
  | dict (kvs : List (String × PV))
  | unknown
  | resource (r : ResId)
  | asset (k : AssetKind) (s : String)
  | archive (k : ArchiveKind) (s : String)
  | assetArchive (kvs : List (String × PV))
  | oddAsset
  | awaitable (v : PV)
  | failing (e : String)
  | output (resources : List ResId) (known secret : Bool) (value : PV)
  | inputObj (cls : String) (fields : List (String × PV))
  | illegal

/-- Protobuf `Value`s; a struct is the list of its fields, with distinct keys. -/
inductive W where
  | null
  | bool (b : Bool)
  | num (n : Int)
  | str (s : String)
  | list (xs : List W)
  | struct (kvs : List (String × W))

/-! ## Constants (`rpc.py:58-95`) -/

def UNKNOWN : String := "04da6b54-80e4-46f7-96ec-b56ff0331ba9"
def sigKey : String := "4dabf18193072939515e22adb298388d"
def assetSig : String := "c44067f5952c0a294b673a41bacd8c17"
def archiveSig : String := "0def7320c3a5731c473e5ecbe6d01bc7"
def secretSig : String := "1b47061264138c4ac30d75fd1eb44270"
def resourceSig : String := "5cf8f73096256a8f31e491e813e4eb8e"
def outputSig : String := "d0e6a833031e9bbcd3f4e8bde6ca49a4"

/-! ## Types used for name translation -/

/-- Type annotations after `unwrap_type` (`_types.py:966`), as far as `serialize_property` distinguishes them:
no information or `Any`; `List[T]` (a bare `list` is `List[Any]`); `Dict[str, T]`; `dict` without (two, `str`-keyed)
arguments; an input type; anything else. -/
inductive Ty where
  | any
  | list (t : Ty)
  | dict (t : Ty)
  | bareDict
  | input (cls : String)
  | other

/-- One property of an input type (`_types.py` `_py_properties`). -/
structure PropInfo where
  pyName : String
  pulumiName : String
  ty : Ty

/-- A settled string-valued Output (`urn`, `id` of a resource). -/
structure StrOut where
  resources : List ResId
  known : Bool
  secret : Bool
  value : Option String
deriving DecidableEq, Repr

/-- What serialisation uses of a resource: whether it is a custom resource, and its `urn` and `id`. -/
structure ResInfo where
  custom : Bool
  urn : StrOut
  id : StrOut

/-- The ambient state: monitor features (`settings.py:228-251`), the resources of the program, their trees for
dependency expansion, the input types, the `input_transformer` argument, preview or update, and the registered
resource packages and modules (`rpc.py:1143-1234`). -/
structure Env where
  secrets : Bool
  resourceRefs : Bool
  outputValues : Bool
  dryRun : Bool
  res : Nat → ResInfo
  tree : Nat → Deps.Res
  classes : String → List PropInfo
  transform : Option (String → String)
  providerPackage : (typName version : String) → Option (Urn.Parts → String → ResId)
  resourceModule : (pkg mod version : String) → Option (Urn.Parts → String → ResId)

/-- Information on any resource; a `DependencyResource` (`resource.py:1170-1185`) is a custom resource with a
known URN depending on itself, and no id: reading its `id` raises `KeyError` (see `ser`), so the id given here is
never used. -/
def Env.info (env : Env) : ResId → ResInfo
  | .decl n => env.res n
  | .dep u =>
    { custom := true
      urn := { resources := [.dep u], known := true, secret := false, value := some u }
      id := { resources := [.dep u], known := false, secret := false, value := none } }

/-- The tree below a resource, for `_expand_dependencies`. -/
def Env.treeOf (env : Env) : ResId → Deps.Res
  | .decl n => env.tree n
  | .dep u => .mk 0 .custom (some u) []

/-! ## contains_unknowns on trees -/

mutual
/-- `contains_unknowns` (`rpc.py:976-989`) on acyclic data; `Pulumi.Graph` treats sharing and cycles. -/
def hasUnknown : PV → Bool
  | .unknown => true
  | .list xs => hasUnknownList xs
  | .dict kvs => hasUnknownKvs kvs
  | _ => false
def hasUnknownList : List PV → Bool
  | [] => false
  | x :: xs => hasUnknown x || hasUnknownList xs
def hasUnknownKvs : List (String × PV) → Bool
  | [] => false
  | (_, x) :: xs => hasUnknown x || hasUnknownKvs xs
end

/-- `v is None` -/
def isNone : PV → Bool
  | .none => true
  | _ => false

/-! ## serialize_property -/

/-- `d[k] = v` on the entries of a dict (or fields of a struct). -/
def setKey {α : Type} (kvs : List (String × α)) (k : String) (v : α) : List (String × α) :=
  match kvs with
  | [] => [(k, v)]
  | (k', v') :: rest => if k' = k then (k, v) :: rest else (k', v') :: setKey rest k v

/-- `_get_list_element_type` (`rpc.py:143-160`). -/
def elemTy : Ty → Except Err Ty
  | .any => .ok .any
  | .list t => .ok t
  | _ => .error .assertion

/-- `input_type_py_to_pulumi_names(cls).get(k) or k` -/
def Env.pulumiName (env : Env) (cls k : String) : String :=
  match (env.classes cls).find? (fun p => p.pyName == k) with
  | some p => if p.pulumiName = "" then k else p.pulumiName
  | none => k

/-- `input_type_types(cls).get(k)` -/
def Env.propTy (env : Env) (cls k : String) : Ty :=
  match (env.classes cls).find? (fun p => p.pulumiName == k) with
  | some p => p.ty
  | none => .any

/-- `input_transformer(k)`, or `k` when there is none. -/
def Env.translate (env : Env) (k : String) : String :=
  match env.transform with
  | some f => f k
  | none => k

/-- The key translation chosen for a mapping of type `ty` (`rpc.py:436-465`). -/
def Env.mapKey (env : Env) (ty : Ty) (k : String) : String :=
  match ty with
  | .any => env.translate k
  | .bareDict => env.translate k
  | .input cls => env.pulumiName cls k
  | .dict _ => k
  | .list _ => k
  | .other => k

/-- The value type chosen for the (translated) key of a mapping of type `ty`. -/
def Env.mapTy (env : Env) (ty : Ty) (k : String) : Ty :=
  match ty with
  | .input cls => env.propTy cls k
  | .dict t => t
  | _ => .any

/-- The dict `{sig: secret, "value": v}` (`rpc.py:407`). -/
def secretDict (v : PV) : PV := .dict [(sigKey, .str secretSig), ("value", v)]

/-- Lines 402-408: the end of the Output branch when output values are not kept. -/
def finishOutput (env : Env) (known secret : Bool) (v : PV) : PV :=
  if !known then .str UNKNOWN
  else if secret && env.secrets then secretDict v
  else v

/-- Serialisation of the `urn` or `id` Output of a resource, always with `keep_output_values=False`: the Output
branch of `serialize_property` specialised to a value that is a string or `None`. -/
def serStrOut (env : Env) (o : StrOut) : PV × List ResId :=
  let v : PV := match o.value with
    | some s => .str s
    | none => .none
  (finishOutput env o.known o.secret v, o.resources)

/-- Lines 277-305: serialisation of a resource. -/
def serResource (env : Env) (r : ResId) : PV × List ResId :=
  let i := env.info r
  if env.resourceRefs then
    let (u, du) := serStrOut env i.urn
    if i.custom then
      let (d, dd) := serStrOut env i.id
      (.dict [(sigKey, .str resourceSig), ("urn", u), ("id", d)], du ++ dd)
    else (.dict [(sigKey, .str resourceSig), ("urn", u)], du)
  else if i.custom then serStrOut env i.id
  else serStrOut env i.urn

/-- Python `set.add` on resources. -/
def resAdd (s : List ResId) (r : ResId) : List ResId := if r ∈ s then s else s ++ [r]

/-- Python `set.update`. -/
def resUnion (a b : List ResId) : List ResId := b.foldl resAdd a

/-- Lines 379-386: the resources whose expansion gives the dependencies of an output value: the Output's own, those
met while serialising its value, and the resources of their `urn`s. -/
def valueResources (env : Env) (resources promiseDeps : List ResId) : List ResId :=
  let rs := resUnion resources promiseDeps
  resUnion rs (rs.flatMap fun r => (serStrOut env (env.info r).urn).2)

/-- Line 388: `_expand_dependencies(value_resources, None)`. Without a "from" resource no cycle check is made and
the expansion cannot fail (`expand_none_isSome` in `Lemmas`). -/
def expandUrns (env : Env) (rs : List ResId) : List String :=
  match Deps.expandDependencies [] (rs.map env.treeOf) none with
  | some e => e.urns
  | none => []

/-- Lines 390-399: the output value dict. -/
def outputValueDict (known secret : Bool) (v : PV) (deps : List String) : PV :=
  .dict ([(sigKey, .str outputSig)]
    ++ (if known then [("value", v)] else [])
    ++ (if secret then [("secret", .bool true)] else [])
    ++ (if deps.isEmpty then [] else [("dependencies", .list ((deps.mergeSort (fun a b => decide (a ≤ b))).map .str))]))

/-- Lines 309-328: serialisation of an asset. -/
def serAsset (k : AssetKind) (s : String) : PV :=
  match k with
  | .file => .dict [(sigKey, .str assetSig), ("path", .str s)]
  | .text => .dict [(sigKey, .str assetSig), ("text", .str s)]
  | .remote => .dict [(sigKey, .str assetSig), ("uri", .str s)]

/-- Lines 338-350: serialisation of a file or remote archive. -/
def serArchive (k : ArchiveKind) (s : String) : PV :=
  match k with
  | .file => .dict [(sigKey, .str archiveSig), ("path", .str s)]
  | .remote => .dict [(sigKey, .str archiveSig), ("uri", .str s)]

mutual
/-- `serialize_property` (`rpc.py:229-490`): the serialised value and the resources appended to `deps`. -/
def ser (env : Env) (keep : Bool) (ty : Ty) : PV → Except Err (PV × List ResId)
  | .list xs => do
    let t ← elemTy ty
    let (vs, d) ← serList env keep t xs
    return (.list vs, d)
  | .unknown => .ok (.str UNKNOWN, [])
  | .resource r =>
    match r with
    | .dep _ => .error .key
    | .decl n => .ok (serResource env (.decl n))
  | .asset k s => .ok (serAsset k s, [])
  | .oddAsset => .error .assertion
  | .archive k s => .ok (serArchive k s, [])
  | .assetArchive kvs => do
    -- the dict of assets is serialised like any dict, without type information
    let (es, d) ← serKvs env false .any [] kvs
    return (.dict [(sigKey, .str archiveSig), ("assets", .dict es)], d)
  | .awaitable v => ser env keep ty v
  | .failing e => .error (.raised e)
  | .output resources known secret value => do
    -- `output.future()` gives `None` if the value contains unknowns (`output.py:109-122`)
    let (v, pd) ← if hasUnknown value then Except.ok (PV.none, []) else ser env false ty value
    if keep && env.outputValues then
      return (outputValueDict known secret v (expandUrns env (valueResources env resources pd)), resources ++ pd)
    else return (finishOutput env known secret v, resources ++ pd)
  | .inputObj cls fields => do
    let (es, d) ← serFields env keep cls [] fields
    return (.dict es, d)
  | .dict kvs => do
    let (es, d) ← serKvs env keep ty [] kvs
    return (.dict es, d)
  | .none => .ok (.none, [])
  | .bool b => .ok (.bool b, [])
  | .num n => .ok (.num n, [])
  | .str s => .ok (.str s, [])
  | .illegal => .error .illegal

/-- The loop over a list (lines 260-266). -/
def serList (env : Env) (keep : Bool) (ty : Ty) : List PV → Except Err (List PV × List ResId)
  | [] => .ok ([], [])
  | x :: xs => do
    let (v, d) ← ser env keep ty x
    let (vs, ds) ← serList env keep ty xs
    return (v :: vs, d ++ ds)

/-- The loop over a mapping (lines 468-482); `acc` is `obj`. -/
def serKvs (env : Env) (keep : Bool) (ty : Ty) (acc : List (String × PV)) :
    List (String × PV) → Except Err (List (String × PV) × List ResId)
  | [] => .ok (acc, [])
  | (k, x) :: kvs => do
    let k' := env.mapKey ty k
    let (v, d) ← ser env keep (env.mapTy ty k') x
    let (es, ds) ← serKvs env keep ty (setKey acc k' v) kvs
    return (es, d ++ ds)

/-- The comprehension over the properties of an input type (lines 413-421) after `input_type_to_dict`
(`_types.py:509-525`), which skips properties whose value is `None`. -/
def serFields (env : Env) (keep : Bool) (cls : String) (acc : List (String × PV)) :
    List (String × PV) → Except Err (List (String × PV) × List ResId)
  | [] => .ok (acc, [])
  | (k, x) :: fs =>
    if isNone x then serFields env keep cls acc fs
    else do
      let (v, d) ← ser env keep (env.propTy cls k) x
      let (es, ds) ← serFields env keep cls (setKey acc k v) fs
      return (es, d ++ ds)
end

/-! ## Assignment into a protobuf struct -/

mutual
/-- `struct[k] = v`: protobuf accepts `None`, booleans, numbers, strings, lists and dicts of such values and raises
`ValueError` for anything else. -/
def toWire : PV → Option W
  | .none => some .null
  | .bool b => some (.bool b)
  | .num n => some (.num n)
  | .str s => some (.str s)
  | .list xs => (toWireList xs).map .list
  | .dict kvs => (toWireKvs kvs).map .struct
  | _ => Option.none
def toWireList : List PV → Option (List W)
  | [] => some []
  | x :: xs =>
    match toWire x, toWireList xs with
    | some w, some ws => some (w :: ws)
    | _, _ => Option.none
def toWireKvs : List (String × PV) → Option (List (String × W))
  | [] => some []
  | (k, x) :: xs =>
    match toWire x, toWireKvs xs with
    | some w, some ws => some ((k, w) :: ws)
    | _, _ => Option.none
end

/-! ## serialize_properties -/

/-- The result of `serialize_properties`: the struct and `property_deps`. -/
structure Props where
  fields : List (String × W)
  deps : List (String × List ResId)

/-- `translate(k)` at top level (lines 193-202): the metadata of `typ` if given, else the transformer. -/
def Env.topKey (env : Env) (typ : Option String) (k : String) : String :=
  match typ with
  | some cls => env.pulumiName cls k
  | none => env.translate k

/-- `get_type(k)` at top level. -/
def Env.topTy (env : Env) (typ : Option String) (k : String) : Ty :=
  match typ with
  | some cls => env.propTy cls (env.pulumiName cls k)
  | none => .any

/-- The loop of `serialize_properties` (`rpc.py:204-223`). -/
def serProps (env : Env) (typ : Option String) (keep : Bool) (acc : Props) :
    List (String × PV) → Except Err Props
  | [] => .ok acc
  | (k, x) :: rest => do
    let (v, d) ← ser env keep (env.topTy typ k) x
    if isNone v then serProps env typ keep acc rest
    else
      match toWire v with
      | none => .error .value
      | some w =>
        serProps env typ keep
          { fields := setKey acc.fields (env.topKey typ k) w, deps := setKey acc.deps (env.topKey typ k) d } rest

/-- `serialize_properties(inputs, property_deps, input_transformer, typ, keep_output_values)` with an empty
`property_deps`. -/
def serializeProperties (env : Env) (typ : Option String) (keep : Bool) (inputs : List (String × PV)) :
    Except Err Props :=
  serProps env typ keep { fields := [], deps := [] } inputs

/-! ## Secret markers on deserialised values -/

/-- `is_rpc_secret` (`rpc.py:636-644`). -/
def isRpcSecret : PV → Bool
  | .dict kvs =>
    match kvs.lookup sigKey with
    | some (.str s) => s == secretSig
    | _ => false
  | _ => false

/-- `wrap_rpc_secret` (`rpc.py:647-657`). -/
def wrapSecret (v : PV) : PV := if isRpcSecret v then v else secretDict v

/-- `unwrap_rpc_secret` (`rpc.py:660-667`); `value["value"]` of a wrapped secret. A dict that has the secret
signature but no `value` would raise `KeyError`; deserialisation never produces one
(`Lemmas.wrapped_shape`), the model returns the dict itself. -/
def unwrapSecret (v : PV) : PV :=
  if isRpcSecret v then
    match v with
    | .dict kvs => (kvs.lookup "value").getD v
    | _ => v
  else v

/-! ## deserialize -/

/-- A field that must be a string (asset constructors raise `TypeError` otherwise). -/
def strField (w : W) (f : String → PV) : Except Err PV :=
  match w with
  | .str s => .ok (f s)
  | _ => .error .type

/-- The tests of `AssetArchive.__init__` (`asset.py:79-94`). -/
def isAssetOrArchive : PV → Bool
  | .asset _ _ => true
  | .archive _ _ => true
  | .assetArchive _ => true
  | .oddAsset => true
  | _ => false

def mkAssetArchive : PV → Except Err PV
  | .dict kvs => if kvs.all (fun kv => isAssetOrArchive kv.2) then .ok (.assetArchive kvs) else .error .type
  | _ => .error .type

/-- The entries of a struct, each with the outcome of deserialising it. -/
abbrev Decoded := List (String × Except Err PV)

/-- `deserialize_property(props_struct[k])` for a key that has been tested, or must be there. -/
def Decoded.get (d : Decoded) (k : String) : Except Err PV :=
  match d.lookup k with
  | some r => r
  | none => .error .value

/-- Lines 511-523: an asset. -/
def desAsset (kvs : List (String × W)) : Except Err PV :=
  match kvs.lookup "path" with
  | some w => strField w (.asset .file)
  | none =>
    match kvs.lookup "text" with
    | some w => strField w (.asset .text)
    | none =>
      match kvs.lookup "uri" with
      | some w => strField w (.asset .remote)
      | none => .error .assertion

/-- Lines 524-536: an archive; `plain` are the entries deserialised without `keep_unknowns`. -/
def desArchive (kvs : List (String × W)) (plain : Decoded) : Except Err PV :=
  match kvs.lookup "assets" with
  | some _ => (plain.get "assets").bind mkAssetArchive
  | none =>
    match kvs.lookup "path" with
    | some w => strField w (.archive .file)
    | none =>
      match kvs.lookup "uri" with
      | some w => strField w (.archive .remote)
      | none => .error .assertion

/-- `deserialize_property(s, keep_unknowns)` for a string (lines 678-679, 704). -/
def desStr (dry keep : Bool) (s : String) : PV :=
  if s = UNKNOWN then (if dry || keep then .unknown else .none) else .str s

/-- The first half of `deserialize_resource` (`rpc.py:574-592`): the URN, and the resource built by the registered
package or module, if there is one. A `urn` or `packageVersion` that is not a string is an error. -/
def rebuild (env : Env) (kvs : List (String × W)) : Except Err (String × Option ResId) :=
  match kvs.lookup "urn" with
  | some (.str urn) =>
    match (match kvs.lookup "packageVersion" with
      | some (.str v) => some v
      | some _ => none
      | none => some "") with
    | none => .error .type
    | some version =>
      match Urn.parseUrn urn.toList with
      | .error _ => .error .value
      | .ok parts =>
        let construct :=
          if parts.pkgName = "pulumi".toList ∧ parts.modName = "providers".toList then
            env.providerPackage (String.ofList parts.typName) version
          else env.resourceModule (String.ofList parts.pkgName) (String.ofList parts.modName) version
        .ok (urn, construct.map fun c => c parts urn)
  | some _ => .error .type
  | none => .error .value

/-- `deserialize_resource` (`rpc.py:571-601`); `kept` are the entries deserialised with `keep_unknowns`. -/
def desResource (env : Env) (keep : Bool) (kvs : List (String × W)) (kept : Decoded) : Except Err PV :=
  match rebuild env kvs with
  | .error e => .error e
  | .ok (_, some r) => .ok (.resource r)
  | .ok (urn, none) =>
    match kvs.lookup "id" with
    | some (.str "") => .ok (desStr env.dryRun keep UNKNOWN)
    | some _ => kept.get "id"
    | none => .ok (.str urn)

/-- The URNs of the `dependencies` field: a list of strings. -/
def depUrns : List PV → Option (List String)
  | [] => some []
  | .str s :: vs => (depUrns vs).map (s :: ·)
  | _ :: _ => none

/-- `value` of `deserialize_output_value` (`rpc.py:608-611`): `None` when the field is absent. -/
def outValue (plain : Decoded) : Except Err PV :=
  match plain.lookup "value" with
  | some r => r
  | none => .ok .none

/-- `is_secret` (`rpc.py:613-617`): only `True` counts. -/
def outSecret (plain : Decoded) : Except Err Bool :=
  match plain.lookup "secret" with
  | some r => r.map fun v => match v with
    | .bool b => b
    | _ => false
  | none => .ok false

/-- The URNs of `dependencies` (`rpc.py:619-627`). A field that is not a list of strings is an error. -/
def outUrns (plain : Decoded) : Except Err (List String) :=
  match plain.lookup "dependencies" with
  | some r => r.bind fun v => match v with
    | .list vs => match depUrns vs with
      | some us => .ok us
      | none => .error .type
    | _ => .error .type
  | none => .ok []

/-- `deserialize_output_value` (`rpc.py:604-633`); `plain` are the entries deserialised without `keep_unknowns`. -/
def desOutputValue (plain : Decoded) : Except Err PV := do
  let value ← outValue plain
  let secret ← outSecret plain
  let urns ← outUrns plain
  return .output ((urns.map ResId.dep).foldl resAdd []) (plain.lookup "value").isSome secret value

/-- `k.startswith("__")` -/
def isInternal (k : String) : Bool :=
  match k.toList with
  | '_' :: '_' :: _ => true
  | _ => false

/-- Lines 548-566: an ordinary struct; `entries` are its entries deserialised with `keep_unknowns`. -/
def collect (keepInternal : Bool) : Decoded → Except Err (List (String × PV))
  | [] => .ok []
  | (k, r) :: rest =>
    if !keepInternal && isInternal k && k != "__provider" then collect keepInternal rest
    else
      match r with
      | .error e => .error e
      | .ok v =>
        if isNone v then collect keepInternal rest
        else (collect keepInternal rest).map ((k, v) :: ·)

/-- `deserialize_properties` (`rpc.py:494-568`) given the outcomes of deserialising each entry with (`kept`) and
without (`plain`) `keep_unknowns`. -/
def desStruct (env : Env) (keep keepInternal : Bool) (kvs : List (String × W)) (kept plain : Decoded) :
    Except Err PV :=
  match kvs.lookup sigKey with
  | some sig =>
    match sig with
    | .str s =>
      if s = assetSig then desAsset kvs
      else if s = archiveSig then desArchive kvs plain
      else if s = secretSig then (plain.get "value").map wrapSecret
      else if s = resourceSig then desResource env keep kvs kept
      else if s = outputSig then desOutputValue plain
      else .error .assertion
    | _ => .error .assertion
  | none => (collect keepInternal kept).map .dict

/-- Lines 688-689: push the secretness of list elements up. -/
def bubbleList (vs : List PV) : PV :=
  if vs.any isRpcSecret then wrapSecret (.list (vs.map unwrapSecret)) else .list vs

/-- Lines 698-701: push the secretness of dict entries up. -/
def bubbleDict (v : PV) : PV :=
  match v with
  | .dict kvs =>
    if kvs.any (fun kv => isRpcSecret kv.2) then wrapSecret (.dict (kvs.map fun kv => (kv.1, unwrapSecret kv.2)))
    else .dict kvs
  | v => v

mutual
/-- `deserialize_property` (`rpc.py:670-704`). -/
def des (env : Env) (keep : Bool) : W → Except Err PV
  | .null => .ok .none
  | .bool b => .ok (.bool b)
  | .num n => .ok (.num n)
  | .str s => .ok (desStr env.dryRun keep s)
  | .list xs => (desList env keep xs).map bubbleList
  | .struct kvs => (desStruct env keep false kvs (desKvs env keep kvs) (desKvs env false kvs)).map bubbleDict
def desList (env : Env) (keep : Bool) : List W → Except Err (List PV)
  | [] => .ok []
  | x :: xs => do
    let v ← des env keep x
    let vs ← desList env keep xs
    return v :: vs
/-- Each entry with its own outcome; which outcomes are used is decided by `desStruct`. -/
def desKvs (env : Env) (keep : Bool) : List (String × W) → Decoded
  | [] => []
  | (k, x) :: xs => (k, des env keep x) :: desKvs env keep xs
end

/-- `deserialize_properties(struct, keep_unknowns, keep_internal)` (`rpc.py:494-568`). -/
def deserializeProperties (env : Env) (keep keepInternal : Bool) (kvs : List (String × W)) : Except Err PV :=
  desStruct env keep keepInternal kvs (desKvs env keep kvs) (desKvs env false kvs)

end Pulumi.Wire
