import Verif.Json.Model
import Verif.Conf.Model

/-!
# The configuration on its way to the program

The language host writes the configuration of a request into the environment of the executor
(`/repo/sdk/python/cmd/pulumi-language-python/main.go:650-660,685-697,768-796`), and the executor reads it from there
(`/repo/sdk/python/cmd/pulumi-language-python-exec:69-79`, `runtime/config.py`).
-/

namespace Pulumi.Exec

open Json (Text unicodeEscape)

/-- The configuration of a `RunRequest`: a map, with its keys in order, and the keys of secrets. -/
structure ConfigRequest where
  config : List (Text × Text)
  secretKeys : List Text

/-- A character in a text that Go's `json.Marshal` writes (`encodeState.string` with `escapeHTML`). -/
def goEscape (c : Char) : Text :=
  if c = '\\' ∨ c = '"' then ['\\', c]
  else if c = '\n' then ['\\', 'n']
  else if c = '\r' then ['\\', 'r']
  else if c = '\t' then ['\\', 't']
  else if c.toNat < 32 ∨ c = '<' ∨ c = '>' ∨ c = '&' ∨ c.toNat = 0x2028 ∨ c.toNat = 0x2029 then unicodeEscape c.toNat
  else [c]

/-- A text in JSON. -/
def goString (s : Text) : Text := '"' :: s.flatMap goEscape ++ ['"']

/-- `"name":"value",...` -/
def goMembers : List (Text × Text) → Text
  | [] => []
  | [(k, v)] => goString k ++ ':' :: goString v
  | (k, v) :: m => goString k ++ ':' :: goString v ++ ',' :: goMembers m

/-- `json.Marshal` of a map of texts -/
def goObject (m : List (Text × Text)) : Text := '{' :: goMembers m ++ ['}']

def goItems : List Text → Text
  | [] => []
  | [v] => goString v
  | v :: vs => goString v ++ ',' :: goItems vs

/-- `json.Marshal` of a slice of texts -/
def goArray (vs : List Text) : Text := '[' :: goItems vs ++ [']']

/-- `constructConfig` (main.go:768-780). A map without entries arrives as `nil`. -/
def constructConfig (r : ConfigRequest) : Text := if r.config = [] then [] else goObject r.config

/-- `constructConfigSecretKeys` (main.go:784-796) -/
def constructConfigSecretKeys (r : ConfigRequest) : Text := if r.secretKeys = [] then "[]".toList else goArray r.secretKeys

/-- The environment of the executor (main.go:685-697): that of the host, with what is not empty appended; the last value of
a variable counts. The virtual environment is left out. -/
def childEnv (env : Conf.Environ) (r : ConfigRequest) : Conf.Environ := fun name =>
  if name = "PULUMI_CONFIG" ∧ constructConfig r ≠ [] then some (String.ofList (constructConfig r))
  else if name = "PULUMI_CONFIG_SECRET_KEYS" ∧ constructConfigSecretKeys r ≠ [] then
    some (String.ofList (constructConfigSecretKeys r))
  else env name

/-- The texts of a list; `none` if there is something else in it. -/
def texts : List Async.Val → Option (List String)
  | [] => some []
  | .str s :: vs => (texts vs).map (s :: ·)
  | _ => none

/-- What the executor sets before it runs the program (executor:69-75). Simplified: what is not a dictionary, or not a list of
texts, is an error here. -/
def execConfigure (py : Conf.Py) (env : Conf.Environ) (s : Conf.State) (c : Nat) : Except Conf.Err Conf.State :=
  match Conf.configEnv py env, Conf.secretKeysEnv py env with
  | .ok (.dict m), .ok (.list ks) =>
    match texts ks with
    | some ks => .ok (Conf.setAllConfig s c m (some ks))
    | none => .error .type
  | .error e, _ => .error e
  | _, .error e => .error e
  | _, _ => .error .type

end Pulumi.Exec
