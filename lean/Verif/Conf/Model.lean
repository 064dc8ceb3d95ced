import Verif.Output.Model

/-!
# Configuration

`runtime/config.py` and `config.py`; paths are relative to `/repo/sdk/python/lib/pulumi/`.

The two context variables `CONFIG` and `_SECRET_KEYS` (config.py:25-28) hold references to mutable objects, so the model
has contexts, dictionaries at addresses and, in each context, the address of its dictionary. A context that has not set
`CONFIG` sees the one default dictionary, at address 0. New tasks copy the context of their creator.

The environment is fixed during a run. `json.loads`, `int` and `float` belong to Python and are parameters.
-/
namespace Pulumi.Conf
open Pulumi.Async Pulumi.Output

/-- Python's own conversions; `none` means that they raise. -/
structure Py where
  loads : String → Option Val
  int : Val → Option Val
  float : Val → Option Val

/-- `os.environ` -/
abbrev Environ := String → Option String

inductive Kind where
  | str
  | bool
  | int
  | float
  | object
deriving DecidableEq, Repr

inductive Err where
  /-- `json.loads` on PULUMI_CONFIG -/
  | decode
  /-- a TypeError -/
  | type
  /-- `ConfigTypeError(key, value, expect_type)` -/
  | badType (key : String) (value : Val) (expected : Kind)
  /-- `ConfigMissingError(key)` -/
  | missing (key : String)
deriving Repr

abbrev Dict := List (String × Val)

/-- `d[k] = v` -/
def setKey : Dict → String → Val → Dict
  | [], k, v => [(k, v)]
  | (k', v') :: rest, k, v => if k' = k then (k', v) :: rest else (k', v') :: setKey rest k v

/-- The state behind `CONFIG` and `_SECRET_KEYS`. -/
structure State where
  /-- dictionaries by address -/
  dicts : Nat → Dict
  /-- the first unused address -/
  next : Nat
  /-- the value of `CONFIG` in a context, if set there -/
  config : Nat → Option Nat
  /-- the value of `_SECRET_KEYS` in a context, if set there -/
  secretKeys : Nat → Option (List String)

/-- At import (25-28). -/
def State.init : State :=
  { dicts := fun _ => [], next := 1, config := fun _ => none, secretKeys := fun _ => none }

def update {β : Type} (f : Nat → β) (i : Nat) (b : β) : Nat → β := fun j => if j = i then b else f j

/-- `CONFIG.get()` -/
def State.addr (s : State) (c : Nat) : Nat := (s.config c).getD 0

/-- `set_config` (31-35). -/
def setConfig (s : State) (c : Nat) (k : String) (v : Val) : State :=
  { s with dicts := update s.dicts (s.addr c) (setKey (s.dicts (s.addr c)) k v) }

/-- The loop of `set_all_config` (44-46). -/
def copyDict (new : Dict) : Dict → Dict
  | [] => new
  | (k, v) :: rest => copyDict (setKey new k v) rest

/-- `set_all_config` (38-50). -/
def setAllConfig (s : State) (c : Nat) (config : Dict) (secrets : Option (List String)) : State :=
  { dicts := update s.dicts s.next (copyDict [] config)
    next := s.next + 1
    config := update s.config c (some s.next)
    secretKeys := match secrets with
      | none => s.secretKeys
      | some ks => update s.secretKeys c (some ks) }

/-- A new task `c'` starts in a copy of the context `c` of its creator (`contextvars.copy_context`). -/
def fork (s : State) (c c' : Nat) : State :=
  { s with config := update s.config c' (s.config c), secretKeys := update s.secretKeys c' (s.secretKeys c) }

/-- One character of `get_config_env_key` (69-75). -/
def scrub (c : Char) : Char :=
  if c = '_' ∨ ('A' ≤ c ∧ c ≤ 'Z') ∨ ('0' ≤ c ∧ c ≤ '9') then c
  else if 'a' ≤ c ∧ c ≤ 'z' then Char.ofNat (c.toNat - 32)
  else '_'

/-- `get_config_env_key` (63-76). -/
def envKey (k : String) : String := "PULUMI_CONFIG_" ++ String.ofList (k.toList.map scrub)

/-- `get_config_env` (53-60). -/
def configEnv (py : Py) (env : Environ) : Except Err Val :=
  match env "PULUMI_CONFIG" with
  | none => .ok (.dict [])
  | some s =>
    match py.loads s with
    | none => .error .decode
    | some v => .ok v

/-- `k in s` on strings. -/
def occurs (k : List Char) : List Char → Bool
  | [] => k.isEmpty
  | c :: cs => k.isPrefixOf (c :: cs) || occurs k cs

/-- `k in env_dict` and then `env_dict[k]`, or None (103-107). On a list or a string, indexing with a string raises. -/
def lookupEnv (k : String) : Val → Except Err Val
  | .none => .ok .none
  | .dict kvs => .ok ((kvs.lookup k).getD .none)
  | .list xs => if xs.any (fun x => match x with | .str s => s == k | _ => false) then .error .type else .ok .none
  | .str s => if occurs k.toList s.toList then .error .type else .ok .none
  | _ => .error .type

/-- `get_config` (89-107). -/
def getConfig (py : Py) (env : Environ) (s : State) (c : Nat) (k : String) : Except Err Val :=
  match (s.dicts (s.addr c)).lookup k with
  | some v => .ok v
  | none =>
    match env (envKey k) with
    | some v => .ok (.str v)
    | none =>
      match configEnv py env with
      | .error e => .error e
      | .ok d => lookupEnv k d

/-- `is_config_secret` (110-114). -/
def isConfigSecret (s : State) (c : Nat) (k : String) : Bool := ((s.secretKeys c).getD []).contains k

/-- `get_config_secret_keys_env` (79-86), the string being parsed by `loads`. -/
def secretKeysEnv (py : Py) (env : Environ) : Except Err Val :=
  match env "PULUMI_CONFIG_SECRET_KEYS" with
  | none => .ok (.list [])
  | some s =>
    match py.loads s with
    | none => .error .decode
    | some v => .ok v

/-! ## `config.py` -/

/-- `Config.full_key` (config.py, end of the class). -/
def fullKey (name key : String) : String := name ++ ":" ++ key

/-- What `_get`, `_get_bool`, `_get_int`, `_get_float` and `_get_object` do with a value that is not None; `none` means
that they raise `ConfigTypeError`. `v in ["true", "True"]` is False for everything but these strings; `json.loads` of
something other than a string raises. -/
def convert (py : Py) (kind : Kind) (v : Val) : Option Val :=
  match kind with
  | .str => some v
  | .bool =>
    match v with
    | .str s =>
      if s = "true" ∨ s = "True" then some (.bool true)
      else if s = "false" ∨ s = "False" then some (.bool false)
      else none
    | _ => none
  | .int => py.int v
  | .float => py.float v
  | .object =>
    match v with
    | .str s => py.loads s
    | _ => none

/-- `_get`, `_get_bool`, `_get_int`, `_get_float`, `_get_object`. -/
def get_ (py : Py) (env : Environ) (s : State) (c : Nat) (name : String) (kind : Kind) (key : String) : Except Err Val :=
  match getConfig py env s c (fullKey name key) with
  | .error e => .error e
  | .ok .none => .ok .none
  | .ok v =>
    match convert py kind v with
    | none => .error (.badType (fullKey name key) v kind)
    | some r => .ok r

/-- `x if x is not None else default` -/
def orDefault (v dflt : Val) : Val :=
  match v with
  | .none => dflt
  | v => v

/-- `get`, `get_bool`, `get_int`, `get_float`, `get_object`. -/
def get (py : Py) (env : Environ) (s : State) (c : Nat) (name : String) (kind : Kind) (key : String) (dflt : Val) :
    Except Err Val :=
  match get_ py env s c name kind key with
  | .error e => .error e
  | .ok v => .ok (orDefault v dflt)

/-- `Output.secret(v)` unless `v` is None. -/
def secretOf (dry : Bool) (fuel : Nat) : Val → Option (Sync OutRef)
  | .none => none
  | v => some (secret dry fuel v)

/-- `get_secret` (which has no default), `get_secret_bool`, `get_secret_int`, `get_secret_float`, `get_secret_object`.
None, or a call of `Output.secret`. -/
def getSecret (py : Py) (env : Environ) (s : State) (c : Nat) (name : String) (kind : Kind) (key : String) (dflt : Val)
    (dry : Bool) (fuel : Nat) : Except Err (Option (Sync OutRef)) :=
  match get_ py env s c name kind key with
  | .error e => .error e
  | .ok v => .ok (secretOf dry fuel (orDefault v dflt))

/-- `_require*` and `require`, `require_bool`, `require_int`, `require_float`, `require_object`. -/
def require (py : Py) (env : Environ) (s : State) (c : Nat) (name : String) (kind : Kind) (key : String) : Except Err Val :=
  match get_ py env s c name kind key with
  | .error e => .error e
  | .ok .none => .error (.missing (fullKey name key))
  | .ok v => .ok v

/-- `require_secret`, `require_secret_bool`, `require_secret_int`, `require_secret_float`, `require_secret_object`. -/
def requireSecret (py : Py) (env : Environ) (s : State) (c : Nat) (name : String) (kind : Kind) (key : String)
    (dry : Bool) (fuel : Nat) : Except Err (Sync OutRef) :=
  match require py env s c name kind key with
  | .error e => .error e
  | .ok v => .ok (secret dry fuel v)

end Pulumi.Conf
