import Verif.Output.Model
/-!
# `stack_reference.py`: outputs of another stack

Paths are relative to `/repo/sdk/python/lib/pulumi/`.
-/
namespace Pulumi.StackRef
open Pulumi.Async Pulumi.Output

/-- `stack_reference.py:23-68`: the two output properties of a registered reference that the methods below read,
`self.outputs` and `self.secret_output_names`. -/
structure Ref where
  outputs : OutRef
  names : OutRef

/-- `dict.get` and `dict[...]`: the first entry with this key. -/
def find (s : String) : List (String × Val) → Option Val
  | [] => none
  | (k, v) :: kvs => if k = s then some v else find s kvs

/-- The callbacks of `get_output` (`stack_reference.py:76`, `l[1].get(l[0])`) and `require_output` (`:89`, `l[1][l[0]]`), given the
list of the name and the outputs. Simplification: a name that is not a string is in no dict (unhashable names raise
`TypeError` in the code), and indexing something that is not a dict raises `TypeError`. -/
def fetch (require : Bool) : Val → Except Exc Val
  | .list [.str s, .dict kvs] => match find s kvs with
    | some v => .ok v
    | none => if require then .error "KeyError" else .ok .none
  | .list [_, .dict _] => if require then .error "KeyError" else .ok .none
  | _ => if require then .error "TypeError" else .error "AttributeError"

/-- `x in names` (`stack_reference.py:125`) for a list. Simplification: only a string can be a member; `in` on anything but
a list raises `TypeError` (the code also accepts strings and dicts, which the engine does not send). -/
def member (x : Val) : Val → Except Exc Bool
  | .list names => .ok (match x with
    | .str s => names.any fun n => match n with | .str s' => s' == s | _ => false
    | _ => false)
  | _ => .error "TypeError"

/-- `stack_reference.py:119-125`: what `__is_secret_name` does once both are known. -/
def secretByList (dry : Bool) (fuel : Nat) (ref : Ref) (name : Val) (names : Val) : Prog :=
  match names with
  | .none => await' ref.outputs.secret .ret
  | names => (fromInput dry fuel name).run fun r => match r with
    | .error e => .raise e
    | .ok o => .spawn (getValue o false) fun tn => await' (.result tn) fun x =>
      match member x names with
      | .ok b => .ret (.bool b)
      | .error e => .raise e

/-- `stack_reference.py:117`: `await self.secret_output_names.future()`. -/
def awaitNames (dry : Bool) (fuel : Nat) (ref : Ref) (name : Val) : Prog :=
  .spawn (getValue ref.names false) fun tn => await' (.result tn) fun names => secretByList dry fuel ref name names

/-- `stack_reference.py:104-125` `__is_secret_name`. -/
def isSecretName (dry : Bool) (fuel : Nat) (ref : Ref) (name : Val) : Prog :=
  (fromInput dry fuel name).run fun r => match r with
    | .error e => .raise e
    | .ok o => await' o.known fun k =>
      if truthy k then await' ref.names.known fun k' =>
        if truthy k' then awaitNames dry fuel ref name else await' ref.outputs.secret .ret
      else await' ref.outputs.secret .ret

/-- `stack_reference.py:70-79` `get_output` and `:81-92` `require_output`. -/
def getOutput (dry : Bool) (fuel : Nat) (require : Bool) (ref : Ref) (name : Val) : Sync OutRef :=
  (fromInput dry fuel name).bind fun o =>
  (outputAll dry fuel [.out o, .out ref.outputs] []).bind fun both =>
  (apply dry both (fun l => match fetch require l with
    | .ok v => .pure v
    | .error e => .raise e) false).bind fun value =>
  .spawn (isSecretName dry fuel ref name) fun ts =>
  .spawn (getValue value false) fun tv =>
    mkOutput value.resources (.result tv) value.known (.result ts)

/-- `stack_reference.py:94-102` `translate_output_property`. -/
def translateOutputProperty (prop : String) : String :=
  if prop = "secretOutputNames" then "secret_output_names" else prop

end Pulumi.StackRef
