import Verif.Wire.Model
import Verif.Urn.Model
/-!
# The mock monitor

Models `runtime/mocks.py:149-261`: `MockMonitor.make_urn`, `Invoke`, `ReadResource`, `RegisterResource` and
`SupportsFeature`. The user's `Mocks` object may keep state of its own: its two methods are functions of the calls
made to it so far, and may raise.

Requests are made from the threads of an executor (`runtime/resource.py:250-258`, ...), so handlers overlap. What
they share is the user's mocks and the `resources` dict. A handler calls the mocks at most once and touches the dict
at most once, after that; the model splits it there: `start` runs a request up to and including the call of the
mocks, `commit` makes the assignment and answers. A history is any interleaving of such steps. (A call of the mocks
is one step.) `_ensure_event_loop` has no observable effect here, and a state dict handed out by the mocks is
assumed not to be changed by them later.
-/
namespace Pulumi.Mocks
open Pulumi.Wire (PV W Env)
open Pulumi.Urn (Text)

/-- Exceptions, by the place that raises them. -/
inductive Err where
  /-- of serialisation or deserialisation -/
  | wire (e : Wire.Err)
  /-- raised by the user's mocks -/
  | user (e : String)
  /-- `IndexError` (`mocks.py:164`) -/
  | index
  /-- `KeyError` for `args["urn"]` (`mocks.py:177`) -/
  | key
  /-- `TypeError`: unhashable `urn` (177), or a tuple of the mock's `call` whose second part is `None` (193-196) -/
  | type
  /-- `Exception("unknown resource ...")` (`mocks.py:179`) -/
  | unknownResource
deriving DecidableEq, Repr

/-- `MockResourceArgs` (`mocks.py:65-99`); `custom` is `None` for a read. -/
structure ResourceArgs where
  typ : Text
  name : Text
  inputs : PV
  provider : Text
  resourceId : Text
  custom : Option Bool

/-- `MockCallArgs` (`mocks.py:102-119`). -/
structure CallArgs where
  token : Text
  args : PV
  provider : Text

/-- A call of the user's mocks. -/
inductive Seen where
  | resource (a : ResourceArgs)
  | call (a : CallArgs)

/-- What the user's `call` returns (`mocks.py:189-196`): a dict, or a pair of a dict and a list of (property,
reason), which may be `None`. -/
inductive CallResult where
  | dict (ret : List (String × PV))
  | pair (ret : List (String × PV)) (failures : Option (List (Text × Text)))

/-- The user's `Mocks` (`mocks.py:122-146`); the first argument is the list of the calls made before. -/
structure UserMocks where
  newResource : List Seen → ResourceArgs → Except String (Option String × List (String × PV))
  call : List Seen → CallArgs → Except String CallResult

/-- `ResourceRegistration` (`mocks.py:150-153`). -/
structure Registration where
  urn : Text
  id : Option String
  state : List (String × PV)

/-- The monitor: the `resources` dict, and the calls made to the user's mocks. -/
structure State where
  resources : List (Text × Registration)
  seen : List Seen

/-- `MockMonitor.__init__` (`mocks.py:158-160`). -/
def State.init : State := { resources := [], seen := [] }

/-- `d[k] = v` for the `resources` dict. -/
def setReg (rs : List (Text × Registration)) (k : Text) (v : Registration) : List (Text × Registration) :=
  match rs with
  | [] => [(k, v)]
  | (k', v') :: rest => if k' = k then (k, v) :: rest else (k', v') :: setReg rest k v

/-- What a monitor is configured with: project, stack (`get_project()`, `get_stack()`), the environment in which
properties are (de)serialised, and the mocks. -/
structure Setup where
  amb : Urn.Ambient
  env : Env
  mocks : UserMocks

/-- `qualifiedType.split("$").pop()` (`mocks.py:165`); the split of a string is never empty. -/
def lastPiece (ps : List Text) : Text := ps.getLastD []

/-- The part of `make_urn` that computes the qualified type (`mocks.py:163-166`). -/
def qualifiedType (parent type_ : Text) : Except Err Text :=
  if parent = [] then .ok type_
  else
    match (Urn.splitSep parent)[2]? with
    | none => .error .index
    | some q => .ok (lastPiece (Urn.splitChar '$' q) ++ '$' :: type_)

/-- `make_urn` (`mocks.py:162-168`). -/
def makeUrn (amb : Urn.Ambient) (parent type_ name : Text) : Except Err Text :=
  (qualifiedType parent type_).map fun t =>
    Urn.urnPrefix ++ amb.stack ++ Urn.sep ++ amb.project ++ Urn.sep ++ t ++ Urn.sep ++ name

/-- `RegisterResourceRequest`, the fields that the monitor reads. -/
structure RegisterRequest where
  type_ : Text
  name : Text
  parent : Text
  provider : Text
  importId : Text
  custom : Bool
  object : List (String × W)

/-- `ReadResourceRequest`, the fields that the monitor reads. -/
structure ReadRequest where
  id : Text
  type_ : Text
  name : Text
  parent : Text
  provider : Text
  properties : List (String × W)

/-- `ResourceInvokeRequest`, the fields that the monitor reads. -/
structure InvokeRequest where
  tok : Text
  args : List (String × W)
  provider : Text

/-- A response to a registration or read; `id` is the protobuf field, which is empty when it is not set. A read's
response has no id. -/
structure ResourceResponse where
  urn : Text
  id : String
  object : List (String × W)

/-- `InvokeResponse`. -/
structure InvokeResponse where
  ret : List (String × W)
  failures : List (Text × Text)

/-- `"pulumi:pulumi:Stack"` -/
def stackType : Text := "pulumi:pulumi:Stack".toList
/-- `"pulumi:pulumi:getResource"` -/
def getResourceTok : Text := "pulumi:pulumi:getResource".toList

/-- `_sync_await(rpc.serialize_properties(props, {}))` (`mocks.py:181,198,218,247`): no transformer, no type, and
`keep_output_values` not set. -/
def serialize (env : Env) (props : List (String × PV)) : Except Err (List (String × W)) :=
  match Wire.serializeProperties env none false props with
  | .ok p => .ok p.fields
  | .error e => .error (.wire e)

/-- `rpc.deserialize_properties(struct)` (`mocks.py:174,207,235`). -/
def deserialize (env : Env) (kvs : List (String × W)) : Except Err PV :=
  match Wire.deserializeProperties env false false kvs with
  | .ok v => .ok v
  | .error e => .error (.wire e)

/-- The user's `new_resource`; the call is made, whatever comes of it. -/
def callNew (m : UserMocks) (st : State) (a : ResourceArgs) :
    State × Except Err (Option String × List (String × PV)) :=
  ({ st with seen := st.seen ++ [.resource a] },
    match m.newResource st.seen a with
    | .ok r => .ok r
    | .error e => .error (.user e))

/-- The user's `call`. -/
def callCall (m : UserMocks) (st : State) (a : CallArgs) : State × Except Err CallResult :=
  ({ st with seen := st.seen ++ [.call a] },
    match m.call st.seen a with
    | .ok r => .ok r
    | .error e => .error (.user e))

/-- A handler that has called the mocks and is about to assign `resources[urn]` and to answer. -/
structure Pending where
  urn : Text
  id : Option String
  state : List (String × PV)
  response : ResourceResponse

/-- How far `start` gets: the request is answered or has failed, or the assignment is still to be made. -/
inductive Started where
  | answered (r : ResourceResponse)
  | failed (e : Err)
  | pending (p : Pending)

/-- `RegisterResource` after `make_urn` and the test for the stack, before the assignment (`mocks.py:235-247`). -/
def startKnown (s : Setup) (st : State) (q : RegisterRequest) (urn : Text) : State × Started :=
  match deserialize s.env q.object with
  | .error e => (st, .failed e)
  | .ok inputs =>
    match callNew s.mocks st
      { typ := q.type_, name := q.name, inputs := inputs, provider := q.provider, resourceId := q.importId,
        custom := some q.custom } with
    | (st, .error e) => (st, .failed e)
    | (st, .ok (id, state)) =>
      match serialize s.env state with
      | .error e => (st, .failed e)
      | .ok obj =>
        (st, .pending { urn := urn, id := id, state := state,
                        response := { urn := urn, id := id.getD "", object := obj } })

/-- `RegisterResource` before the assignment (`mocks.py:226-247`). -/
def startRegister (s : Setup) (st : State) (q : RegisterRequest) : State × Started :=
  match makeUrn s.amb q.parent q.type_ q.name with
  | .error e => (st, .failed e)
  | .ok urn =>
    if q.type_ = stackType then (st, .answered { urn := urn, id := "", object := [] })
    else startKnown s st q urn

/-- `ReadResource` before the assignment (`mocks.py:203-220`). -/
def startRead (s : Setup) (st : State) (q : ReadRequest) : State × Started :=
  match deserialize s.env q.properties with
  | .error e => (st, .failed e)
  | .ok inputs =>
    match callNew s.mocks st
      { typ := q.type_, name := q.name, inputs := inputs, provider := q.provider, resourceId := q.id,
        custom := none } with
    | (st, .error e) => (st, .failed e)
    | (st, .ok (id, state)) =>
      match serialize s.env state with
      | .error e => (st, .failed e)
      | .ok obj =>
        match makeUrn s.amb q.parent q.type_ q.name with
        | .error e => (st, .failed e)
        | .ok urn =>
          (st, .pending { urn := urn, id := id, state := state,
                          response := { urn := urn, id := "", object := obj } })

/-- `self.resources[urn] = MockMonitor.ResourceRegistration(urn, id_, state)` (`mocks.py:222,249`). -/
def assign (st : State) (p : Pending) : State :=
  { st with resources := setReg st.resources p.urn { urn := p.urn, id := p.id, state := p.state } }

/-- `registered_resource._asdict()` (`mocks.py:181`). -/
def Registration.asDict (r : Registration) : List (String × PV) :=
  [("urn", .str (String.ofList r.urn)), ("id", match r.id with | some i => .str i | none => .none),
   ("state", .dict r.state)]

/-- `self.resources.get(args["urn"])` (`mocks.py:177`): lists and dicts are not hashable; nothing but a string is
a key of `resources`. `args` is a dict unless the struct carries a signature; other objects have no string
subscript. -/
def findUrn (st : State) (args : PV) : Except Err (Option Registration) :=
  match args with
  | .dict kvs =>
    match kvs.lookup "urn" with
    | none => .error .key
    | some (.str u) => .ok (st.resources.lookup u.toList)
    | some (.list _) => .error .type
    | some (.dict _) => .error .type
    | some _ => .ok none
  | _ => .error .type

/-- The `getResource` branch of `Invoke` (`mocks.py:176-184`). -/
def getResource (s : Setup) (st : State) (args : PV) : Except Err InvokeResponse :=
  match findUrn st args with
  | .error e => .error e
  | .ok none => .error .unknownResource
  | .ok (some r) =>
    match serialize s.env r.asDict with
    | .error e => .error e
    | .ok ret => .ok { ret := ret, failures := [] }

/-- `mocks.py:190-196`: the two parts of the mock's answer. -/
def CallResult.parts : CallResult → Except Err (List (String × PV) × List (Text × Text))
  | .dict ret => .ok (ret, [])
  | .pair ret (some fs) => .ok (ret, fs)
  | .pair _ none => .error .type

/-- `mocks.py:190-201`: the answer to an ordinary call. -/
def answer (env : Env) (r : CallResult) : Except Err InvokeResponse :=
  match r.parts with
  | .error e => .error e
  | .ok (ret, fs) =>
    match serialize env ret with
    | .error e => .error e
    | .ok ret => .ok { ret := ret, failures := fs }

/-- `Invoke` (`mocks.py:170-201`). -/
def invoke (s : Setup) (st : State) (q : InvokeRequest) : State × Except Err InvokeResponse :=
  match deserialize s.env q.args with
  | .error e => (st, .error e)
  | .ok args =>
    if q.tok = getResourceTok then (st, getResource s st args)
    else
      match callCall s.mocks st { token := q.tok, args := args, provider := q.provider } with
      | (st, .error e) => (st, .error e)
      | (st, .ok r) => (st, answer s.env r)

/-- `SupportsFeature` (`mocks.py:257-261`). -/
def supportsFeature (id : String) : Bool := id == "secrets" || id == "resourceReferences"

/-! ## Histories -/

/-- A request. -/
inductive Request where
  | register (q : RegisterRequest)
  | read (q : ReadRequest)
  | invoke (q : InvokeRequest)

/-- A response. -/
inductive Response where
  | resource (r : ResourceResponse)
  | invoke (r : InvokeResponse)
  | failed (e : Err)

/-- The monitor with the handlers that are between the call of the mocks and the assignment, each under the number
of its thread, and the answered requests, in the order of the answers. -/
structure Conc where
  st : State
  inFlight : List (Nat × Request × Pending)
  log : List (Request × Response)

def Conc.init : Conc := { st := State.init, inFlight := [], log := [] }

/-- A step of some thread: it takes up a request, or makes the pending assignment and answers. -/
inductive Event where
  | start (n : Nat) (q : Request)
  | commit (n : Nat)

/-- The outcome of `start` for a registration or read. -/
def Conc.started (c : Conc) (n : Nat) (q : Request) : State × Started → Conc
  | (st, .answered r) => { c with st := st, log := c.log ++ [(q, .resource r)] }
  | (st, .failed e) => { c with st := st, log := c.log ++ [(q, .failed e)] }
  | (st, .pending p) => { c with st := st, inFlight := (n, q, p) :: c.inFlight }

/-- The outcome of an invoke. -/
def Conc.invoked (c : Conc) (q : Request) : State × Except Err InvokeResponse → Conc
  | (st, .ok r) => { c with st := st, log := c.log ++ [(q, .invoke r)] }
  | (st, .error e) => { c with st := st, log := c.log ++ [(q, .failed e)] }

/-- One step. A thread that has a handler in flight cannot take up a request, and one that has none has nothing to
commit: such events do nothing. -/
def step (s : Setup) (c : Conc) : Event → Conc
  | .start n q =>
    match c.inFlight.lookup n with
    | some _ => c
    | none =>
      match q with
      | .register r => c.started n q (startRegister s c.st r)
      | .read r => c.started n q (startRead s c.st r)
      | .invoke r => c.invoked q (invoke s c.st r)
  | .commit n =>
    match c.inFlight.lookup n with
    | none => c
    | some (q, p) =>
      { st := assign c.st p
        inFlight := c.inFlight.filter (fun x => x.1 != n)
        log := c.log ++ [(q, .resource p.response)] }

/-- The monitor after a history. -/
def run (s : Setup) (c : Conc) (es : List Event) : Conc := es.foldl (step s) c

end Pulumi.Mocks
