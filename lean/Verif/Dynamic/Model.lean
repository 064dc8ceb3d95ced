import Verif.Wire.Model

/-!
# Dynamic providers

Models `dynamic/dynamic.py` (except the pickling of a provider, which is in `Dynamic.Pickle`) and the request handlers
of `dynamic/__main__.py`, the process that runs the methods of dynamic providers for the engine.

Simplified: what a method of a provider does besides computing its result is not modelled.  `dill.loads` of a decoded
string is a parameter `load`, undefined where decoding or unpickling raises.
-/

namespace Pulumi.Dynamic

open Pulumi.Wire (PV W Env setKey)

/-- The entries of a Python dict in insertion order. -/
abbrev Dict := List (String × PV)

/-- The fields of a protobuf struct. -/
abbrev Struct := List (String × W)

/-- `PROVIDER_KEY` (dynamic.py:26, __main__.py:29). -/
def providerKey : String := "__provider"

inductive Err
  /-- raised by (de)serialisation of properties -/
  | wire (e : Wire.Err)
  | keyError | typeError | attributeError
  /-- `base64.b64decode` or `dill.loads` raised -/
  | unreadable
  /-- raised by a method of the provider -/
  | provider (msg : String)
  /-- `Exception("A dynamic resource must not define the __provider key")` -/
  | reserved
  /-- raised by `serialize_provider` -/
  | pickling
  deriving DecidableEq, Repr

/-! ## Results of a provider's methods -/

/-- `CheckResult` (dynamic.py:29-46, 49-66); `inputs` is `Any`: a dict, or `None`. `failures` are (property, reason)
pairs, or `None`. -/
structure CheckResult where
  inputs : Option Dict
  failures : Option (List (String × String))

/-- `DiffResult` (dynamic.py:69-105). -/
structure DiffResult where
  changes : Option Bool := none
  replaces : Option (List String) := none
  stables : Option (List String) := none
  deleteBeforeReplace : Option Bool := none
  deriving DecidableEq

/-- `CreateResult` (dynamic.py:108-125). -/
structure CreateResult where
  id : String
  outs : Option Dict := none

/-- `ReadResult` (dynamic.py:128-145). -/
structure ReadResult where
  id : Option String := none
  outs : Option Dict := none

/-- `UpdateResult` (dynamic.py:148-159). -/
structure UpdateResult where
  outs : Option Dict := none

/-- A `ResourceProvider` (dynamic.py:162-209): what its methods return or raise. A method may change the dict of
properties that it is given, which the handler reads again afterwards: `check` and `update` also give `news`, `create`
and `read` also give `props`, as they are after the call. -/
structure Provider where
  check : (olds news : Dict) → Except String (CheckResult × Dict)
  diff : (id : String) → (olds news : Dict) → Except String DiffResult
  create : (props : Dict) → Except String (CreateResult × Dict)
  read : (id : String) → (props : Dict) → Except String (ReadResult × Dict)
  update : (id : String) → (olds news : Dict) → Except String (UpdateResult × Dict)
  delete : (id : String) → (props : Dict) → Except String Unit

/-- The methods of the base class, which a provider that does not override them has (dynamic.py:168-206). -/
def Provider.base : Provider where
  check _ news := .ok ({ inputs := some news, failures := some [] }, news)
  diff _ _ _ := .ok {}
  create _ := .error "Subclass of ResourceProvider must implement 'create'"
  read id props := .ok ({ id := some id, outs := some props }, props)
  update _ _ news := .ok ({}, news)
  delete _ _ := .ok ()

/-! ## The resource class -/

/-- `Resource.__init_subclass__(cls, module, name)` (dynamic.py:257-260): the `_resource_type_name` it sets. -/
def typeName (module : String) (name : String) : String :=
  let m := if module = "" then "" else "/" ++ module
  "dynamic" ++ m ++ ":" ++ name

/-- A class statement: `class X(Base, module=.., name=..)`; a keyword that is left out is `none`. -/
structure ClassStmt where
  module : Option String := none
  name : Option String := none

/-- What `self._resource_type_name` reads for an instance of a class, given the class statements from the direct
subclass of `Resource` down to the class itself (dynamic.py:255-260). Each statement runs `__init_subclass__`, which
sets the attribute on the new class, with the defaults `module=""` and `name="Resource"`. `Resource` itself has only the
annotation: reading raises `AttributeError`. -/
def classTypeName (stmts : List ClassStmt) : Except Err String :=
  match stmts.getLast? with
  | none => .error .attributeError
  | some s => .ok (typeName (s.module.getD "") (s.name.getD "Resource"))

/-- What a constructor call leaves: the caller's dict, and the arguments `t` and `props` for
`CustomResource.__init__` or the exception. -/
structure Constructed where
  callerProps : Option Dict
  result : Except Err (String × Dict)

/-- `Resource.__init__` (dynamic.py:262-283) up to the call of `super().__init__`. `pickled` is the outcome of
`serialize_provider(provider)`. The caller's dict is changed in place. -/
def construct (stmts : List ClassStmt) (pickled : Except Err String) (props : Option Dict) : Constructed :=
  match props with
  | none => { callerProps := none, result := .error .typeError }
  | some d =>
    if (d.lookup providerKey).isSome then { callerProps := some d, result := .error .reserved }
    else
      match pickled with
      | .error e => { callerProps := some d, result := .error e }
      | .ok s =>
        let d' := setKey d providerKey (.str s)
        match classTypeName stmts with
        | .error e => { callerProps := some d', result := .error e }
        | .ok t => { callerProps := some d', result := .ok ("pulumi-python:" ++ t, d') }

/-! ## The provider process -/

/-- The state of the provider process: `input_transformer` is not given (__main__.py:101) and the settings say it is not
a preview (settings.py:54, 62). -/
def plugin (env : Env) : Env := { env with transform := none, dryRun := false }

/-- `rpc.deserialize_properties(struct, keep_unknowns)`, which has to give a dict: the others (assets, archives, what
an output value or reference gives) have no item `"__provider"`. -/
def readProps (env : Env) (keep : Bool) (s : Struct) : Except Err Dict :=
  match Wire.deserializeProperties (plugin env) keep false s with
  | .error e => .error (.wire e)
  | .ok (.dict d) => .ok d
  | .ok _ => .error .typeError

/-- `loop.run_until_complete(rpc.serialize_properties(outs, {}))` (__main__.py:100-102). -/
def writeProps (env : Env) (d : Dict) : Except Err Struct :=
  match Wire.serializeProperties (plugin env) none false d with
  | .error e => .error (.wire e)
  | .ok p => .ok p.fields

/-- `props[PROVIDER_KEY]`. -/
def item (d : Dict) : Except Err PV :=
  match d.lookup providerKey with
  | some v => .ok v
  | none => .error .keyError

/-- `base64.b64decode(v)`, `dill.loads(byts)` (__main__.py:37-38): `TypeError` for what is not a string. -/
def loadValue (load : String → Option Provider) : PV → Except Err Provider
  | .str s =>
    match load s with
    | some p => .ok p
    | none => .error .unreadable
  | _ => .error .typeError

/-- `get_provider` (__main__.py:36-38). -/
def getProvider (load : String → Option Provider) (d : Dict) : Except Err Provider := do
  let v ← item d
  loadValue load v

/-- `v == rpc.UNKNOWN`: only the sentinel string is equal to it; `Unknown` does not define `__eq__`
(output.py:511-517). -/
def isSentinel : PV → Bool
  | .str s => s == Wire.UNKNOWN
  | _ => false

/-- The choice of the provider in `Diff` and `Check` (__main__.py:64-67, 134-137). -/
def chooseProvider (load : String → Option Provider) (olds news : Dict) : Except Err Provider := do
  let v ← item news
  if isSentinel v then getProvider load olds else getProvider load news

/-- An exception of a method of the provider. -/
def ran {α : Type} : Except String α → Except Err α
  | .ok a => .ok a
  | .error m => .error (.provider m)

/-- `outs[PROVIDER_KEY] = props[PROVIDER_KEY]`: the right side is read first. -/
def stamp (outs props : Dict) : Except Err Dict := do
  let v ← item props
  return setKey outs providerKey v

/-- `outs[PROVIDER_KEY] = props[PROVIDER_KEY]` where `outs` may be `None`. -/
def stampOpt (outs : Option Dict) (props : Dict) : Except Err Dict :=
  match outs with
  | some o => stamp o props
  | none => do
    let _ ← item props
    .error .typeError

/-- `DiffResponse.DiffChanges` -/
inductive Changes
  | unknown | none | some
  deriving DecidableEq, Repr

/-- The fields of `DiffResponse` that concern the program (`provider.proto`); repeated fields default to empty and
booleans to false. -/
structure DiffResponse where
  changes : Changes := .unknown
  replaces : List String := []
  stables : List String := []
  deleteBeforeReplace : Bool := false
  deriving DecidableEq

/-- __main__.py:69-87 -/
def diffResponse (r : DiffResult) : DiffResponse :=
  { changes :=
      match r.changes with
      | some true => .some
      | some false => .none
      | none => .unknown
    replaces := r.replaces.getD []
    deleteBeforeReplace := r.deleteBeforeReplace.getD false }

/-- `Diff` (__main__.py:61-87). -/
def diff (env : Env) (load : String → Option Provider) (id : String) (olds news : Struct) :
    Except Err DiffResponse := do
  let o ← readProps env true olds
  let n ← readProps env true news
  let p ← chooseProvider load o n
  let r ← ran (p.diff id o n)
  return diffResponse r

/-- `Update` (__main__.py:89-105): the properties of the response. -/
def update (env : Env) (load : String → Option Provider) (id : String) (olds news : Struct) : Except Err Struct := do
  let o ← readProps env false olds
  let n ← readProps env false news
  let p ← getProvider load n
  let (r, n') ← ran (p.update id o n)
  let outs ← stamp (r.outs.getD []) n'
  writeProps env outs

/-- `Delete` (__main__.py:107-112). -/
def delete (env : Env) (load : String → Option Provider) (id : String) (props : Struct) : Except Err Unit := do
  let d ← readProps env false props
  let p ← getProvider load d
  ran (p.delete id d)

/-- `Create` (__main__.py:117-129): the id and the properties of the response. -/
def create (env : Env) (load : String → Option Provider) (props : Struct) : Except Err (String × Struct) := do
  let d ← readProps env false props
  let p ← getProvider load d
  let (r, d') ← ran (p.create d)
  let outs ← stamp (r.outs.getD []) d'
  let s ← writeProps env outs
  return (r.id, s)

/-- `CheckResponse` -/
structure CheckResponse where
  inputs : Struct
  failures : List (String × String)

/-- `Check` (__main__.py:131-154). Iterating over `failures` that are `None` raises `TypeError`. -/
def check (env : Env) (load : String → Option Provider) (olds news : Struct) : Except Err CheckResponse := do
  let o ← readProps env true olds
  let n ← readProps env true news
  let p ← chooseProvider load o n
  let (r, n') ← ran (p.check o n)
  let inputs ← stampOpt r.inputs n'
  let s ← writeProps env inputs
  match r.failures with
  | none => .error .typeError
  | some fs => return { inputs := s, failures := fs }

/-- `Read` (__main__.py:171-184): the id and the properties of the response; an id `None` is the empty string. -/
def read (env : Env) (load : String → Option Provider) (id : String) (props : Struct) :
    Except Err (String × Struct) := do
  let d ← readProps env false props
  let p ← getProvider load d
  let (r, d') ← ran (p.read id d)
  let outs ← stampOpt r.outs d'
  let s ← writeProps env outs
  return (r.id.getD "", s)

end Pulumi.Dynamic
