import Verif.StackRef.Model
import Verif.Output.Follow
/-!
# What outputs of another stack mean
-/
namespace Pulumi.StackRef
open Pulumi.Async Pulumi.Output

/-- The outputs `kvs` have a value `v` for the name `s` (names are unique in a dict). -/
def HasOutput (kvs : List (String × Val)) (s : String) (v : Val) : Prop := (s, v) ∈ kvs

/-- A name is on the list of secret outputs. -/
def Listed (names : List Val) (s : String) : Prop := Val.str s ∈ names

/-- The keys of a Python dict are distinct. -/
def Distinct (kvs : List (String × Val)) : Prop := (kvs.map (·.1)).Nodup

end Pulumi.StackRef
