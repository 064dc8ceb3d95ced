import Verif.Props.Model
/-!
# The provider the engine has built in: references to other stacks

`pkg/resource/deploy/builtins.go`, with the client it asks of other stacks (`pkg/backend/backend.go:286-352`), the resource whose
outputs are those of a stack (`pkg/resource/stack/checkpoint.go:123-132`) and what it is to contain a secret
(`sdk/go/common/resource/properties.go:161-168, 393-410`). Paths are relative to `/repo/`.

A Go map is an association list, in the order in which the iteration happens to run through it.
-/
namespace Pulumi.Builtin
open Pulumi.Engine (EV Blob)

/-- A Go property map -/
abbrev Map := List (String × EV)

/-- How a function may fail: with an error it returns, or by ending the engine's process (`contract.Assert`, a nil pointer) -/
inductive Fail where
  | error (msg : String)
  | crash
  deriving DecidableEq, Repr

mutual
/-- `PropertyValue.ContainsSecrets` (properties.go:393-410) -/
def containsSecrets : EV → Bool
  | .secret _ => true
  | .computed e => containsSecrets e
  | .output e _ s _ => s || containsSecrets e
  | .array xs => listSecrets xs
  | .object kvs => mapSecrets kvs
  | _ => false
/-- its loop over an array (properties.go:401-405) -/
def listSecrets : List EV → Bool
  | [] => false
  | x :: xs => containsSecrets x || listSecrets xs
/-- `PropertyMap.ContainsSecrets` (properties.go:161-168) -/
def mapSecrets : List (String × EV) → Bool
  | [] => false
  | (_, v) :: kvs => containsSecrets v || mapSecrets kvs
end

/-- `stackReferenceType` (builtins.go:66) -/
def stackReferenceType : String := "pulumi:pulumi:StackReference"

/-- `RootStackType` (sdk/go/common/resource/stack.go:22) -/
def rootStackType : String := "pulumi:pulumi:Stack"

/-- What `Check` gives: the inputs it accepts, or the one failure it reports, by its property and its reason -/
inductive Checked where
  | accepted (inputs : Map)
  | refused (property reason : String)

/-- The loop over the inputs (builtins.go:77-81): the first property met that is not `name` -/
def stranger (inputs : Map) : Option String := (inputs.map (·.1)).find? (fun k => k != "name")

/-- `Check` (builtins.go:68-91), of a resource of the given type -/
def check (typ : String) (inputs : Map) : Except Fail Checked :=
  if typ ≠ stackReferenceType then .error (.error s!"unrecognized resource type '{typ}'")
  else
    match stranger inputs with
    | some k => .ok (.refused k s!"unknown property \"{k}\"")
    | none =>
      match inputs.lookup "name" with
      | none => .ok (.refused "name" "missing required property \"name\"")
      | some (.str _) => .ok (.accepted inputs)
      | some (.computed _) => .ok (.accepted inputs)
      | some _ => .ok (.refused "name" "property \"name\" must be a string")

/-- `inputs["name"]` of Go: the zero value, which is null, where there is none -/
def nameOf (m : Map) : EV := (m.lookup "name").getD .null

/-- `Diff` (builtins.go:93-106): the keys that call for a replacement, none where nothing changed. A comparison that panics ends the
process. -/
def diff (hash : Blob → Option String) (typ : String) (state inputs : Map) : Except Fail (List String) :=
  if typ ≠ stackReferenceType then .error .crash
  else
    match Props.deepEq hash (nameOf inputs) (nameOf state) with
    | none => .error .crash
    | some true => .ok []
    | some false => .ok ["name"]

/-- What a resource of a snapshot of another stack is to this code: its URN, type and outputs, and whether it waits to be deleted -/
structure Res where
  urn : String
  type : String
  outputs : Map
  delete : Bool

/-- The backend behind the client (backend.go:289-294): parsing the name of a stack, looking the stack up (`none` where there is no
such stack), and taking its snapshot (`none` where it has none yet). -/
structure Backend where
  parse : String → Except String String
  getStack : String → Except String (Option String)
  snapshot : String → Except String (Option (List Res))

/-- Lines 298-312 and 325-339 of backend.go, which are the same: from the name of a stack to its snapshot. `String.quote`
stands for Go's `%q`. -/
def snapshotOf (b : Backend) (name : String) : Except Fail (Option (List Res)) :=
  match b.parse name with
  | .error e => .error (.error e)
  | .ok ref =>
    match b.getStack ref with
    | .error e => .error (.error e)
    | .ok none => .error (.error s!"unknown stack {name.quote}")
    | .ok (some s) =>
      match b.snapshot s with
      | .error e => .error (.error e)
      | .ok snap => .ok snap

/-- `GetRootStackResource` (checkpoint.go:123-132) -/
def rootStack : Option (List Res) → Option Res
  | none => none
  | some rs => rs.find? (fun r => r.type == rootStackType)

/-- `GetStackOutputs` (backend.go:297-321) -/
def stackOutputs (b : Backend) (name : String) : Except Fail Map :=
  match snapshotOf b name with
  | .error e => .error e
  | .ok snap =>
    match rootStack snap with
    | none => .ok []
    | some r => .ok r.outputs

/-- `m[k] = v` on a Go map, as an association list: in place where the key is there, else at the end -/
def put (m : Map) (k : String) (v : EV) : Map :=
  match m with
  | [] => [(k, v)]
  | (k', v') :: rest => if k' = k then (k, v) :: rest else (k', v') :: put rest k v

/-- what `GetStackResourceOutputs` says of one resource (backend.go:346-348) -/
def described (r : Res) : EV := .object [("type", .str r.type), ("outputs", .object r.outputs)]

/-- the loop of `GetStackResourceOutputs` (backend.go:340-350) -/
def resourceLoop (m : Map) : List Res → Map
  | [] => m
  | r :: rs => if r.delete then resourceLoop m rs else resourceLoop (put m r.urn (described r)) rs

/-- `GetStackResourceOutputs` (backend.go:323-352). `snap.Resources` of a nil snapshot (341) is a nil dereference. -/
def stackResourceOutputs (b : Backend) (name : String) : Except Fail Map :=
  match snapshotOf b name with
  | .error e => .error e
  | .ok none => .error .crash
  | .ok (some rs) => .ok (resourceLoop [] rs)

/-- `PropertyValue.String` of a string (properties.go:599-613) -/
def shown (k : String) : String := "{" ++ k ++ "}"

/-- Lines 238-248 of builtins.go: the keys of the outputs that contain secrets, sorted by the text their values are shown as. `sort.Slice`
is not stable, but there are no two equal keys in a map: see `secret_names_unique`. -/
def secretNames (outputs : Map) : List String :=
  ((outputs.filter (fun kv => containsSecrets kv.2)).map (·.1)).mergeSort (fun a b => decide (shown a ≤ shown b))

/-- `readStackReference` (builtins.go:224-255) -/
def readStackReference (client : Option Backend) (inputs : Map) : Except Fail Map :=
  match inputs.lookup "name" with
  | some (.str name) =>
    match client with
    | none => .error (.error "no backend client is available")
    | some b =>
      match stackOutputs b name with
      | .error e => .error e
      | .ok outs => .ok [("name", .str name), ("outputs", .object outs), ("secretOutputNames", .array ((secretNames outs).map .str))]
  | _ => .error .crash

/-- `readStackResourceOutputs` (builtins.go:257-275) -/
def readStackResourceOutputs (client : Option Backend) (inputs : Map) : Except Fail Map :=
  match inputs.lookup "stackName" with
  | some (.str name) =>
    match client with
    | none => .error (.error "no backend client is available")
    | some b =>
      match stackResourceOutputs b name with
      | .error e => .error e
      | .ok outs => .ok [("name", .str name), ("outputs", .object outs)]
  | _ => .error .crash

/-- The resources this deployment has registered (`resourceMap`): by URN, the id and the outputs -/
abbrev Registered := String → Option (String × Map)

/-- `getResource` (builtins.go:277-292) -/
def getResource (rs : Registered) (inputs : Map) : Except Fail Map :=
  match inputs.lookup "urn" with
  | some (.str urn) =>
    match rs urn with
    | none => .error (.error s!"unknown resource {urn}")
    | some (id, outs) => .ok [("urn", .str urn), ("id", .str id), ("state", .object outs)]
  | _ => .error .crash

/-- `Create` (builtins.go:108-129). `uuid` is the new identifier; that drawing one may fail is left out. -/
def create (client : Option Backend) (typ : String) (inputs : Map) (preview : Bool) (uuid : String) : Except Fail (String × Map) :=
  if typ ≠ stackReferenceType then .error .crash
  else
    match readStackReference client inputs with
    | .error e => .error e
    | .ok state => .ok (if preview then "" else uuid, state)

/-- `Read` (builtins.go:148-163): inputs and outputs -/
def read (client : Option Backend) (urn typ id : String) (inputs state : Map) : Except Fail (Map × Map) :=
  if urn = "" ∨ id = "" ∨ typ ≠ stackReferenceType then .error .crash
  else
    match readStackReference client state with
    | .error e => .error e
    | .ok outs => .ok (inputs, outs)

/-- `Update` (builtins.go:131-138): `contract.Failf` -/
def update : Except Fail Map := .error .crash

/-- `Invoke` (builtins.go:174-199) -/
def invoke (client : Option Backend) (rs : Registered) (tok : String) (args : Map) : Except Fail Map :=
  if tok = "pulumi:pulumi:readStackOutputs" then readStackReference client args
  else if tok = "pulumi:pulumi:readStackResourceOutputs" then readStackResourceOutputs client args
  else if tok = "pulumi:pulumi:getResource" then getResource rs args
  else .error (.error s!"unrecognized function name: '{tok}'")

end Pulumi.Builtin
