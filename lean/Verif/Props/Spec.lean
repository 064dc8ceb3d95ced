import Verif.Props.Model
/-!
# What is said about comparing property values
-/
namespace Pulumi.Props
open Pulumi.Engine (EV Blob RefId)

/-- What an unknown value may stand for if unknown values are to be compared: nothing that is, or has in it, an array, an object, an
output, a secret or an asset. `unknown` and `Output` from the SDKs stand for the empty string. -/
def flat : EV → Bool
  | .null => true
  | .bool _ => true
  | .num _ => true
  | .str _ => true
  | .ref .. => true
  | .computed e => flat e
  | _ => false

mutual
/-- A value Go can hold and compare: no key twice in an object, the hash of every asset can be found, and unknown values stand for
what can be compared. -/
def proper (hash : Blob → Option String) : EV → Bool
  | .array xs => properList hash xs
  | .object a => decide (a.map (·.1)).Nodup && properKvs hash a
  | .blob b => (hash b).isSome
  | .secret v => proper hash v
  | .output v _ _ _ => proper hash v
  | .computed e => flat e
  | _ => true
def properList (hash : Blob → Option String) : List EV → Bool
  | [] => true
  | x :: xs => proper hash x && properList hash xs
def properKvs (hash : Blob → Option String) : List (String × EV) → Bool
  | [] => true
  | (_, v) :: rest => proper hash v && properKvs hash rest
end

mutual
/-- No output values anywhere -/
def noOutputs : EV → Bool
  | .array xs => noOutputsList xs
  | .object a => noOutputsKvs a
  | .secret v => noOutputs v
  | .output .. => false
  | _ => true
def noOutputsList : List EV → Bool
  | [] => true
  | x :: xs => noOutputs x && noOutputsList xs
def noOutputsKvs : List (String × EV) → Bool
  | [] => true
  | (_, v) :: rest => noOutputs v && noOutputsKvs rest
end

mutual
/-- A value without the properties that are ignored: those of objects in objects, and not those of objects in arrays or secrets -/
def strip (ign : String → Bool) : EV → EV
  | .object a => .object (stripKvs ign a)
  | v => v
def stripKvs (ign : String → Bool) : List (String × EV) → List (String × EV)
  | [] => []
  | (k, v) :: rest => if ign k then stripKvs ign rest else (k, strip ign v) :: stripKvs ign rest
end

mutual
/-- What a diff makes of a value: it is given the value and, of the diff, what was added, deleted and updated. What the diff says the
new value is, it is told of but for values that are no arrays and no objects. -/
def patch : VDiff → EV → EV
  | .leaf _ new, _ => new
  | .arr _ _ adds dels _ ups, .array xs => .array (patchIdx ups (xs.take (xs.length - dels.length)) ++ adds.map (·.2))
  | .obj _ _ adds dels _ ups, .object a =>
    .object (patchKey ups (a.filter (fun kv => decide (kv.1 ∉ dels.map (·.1)) && decide (kv.1 ∉ adds.map (·.1)))) ++ adds)
  | _, v => v
def patchIdx : List (Nat × VDiff) → List EV → List EV
  | [], xs => xs
  | (i, d) :: ups, xs => patchIdx ups (xs.modify i (patch d))
def patchKey : List (String × VDiff) → List (String × EV) → List (String × EV)
  | [], a => a
  | (k, d) :: ups, a => patchKey ups (a.map (fun kv => if kv.1 = k then (k, patch d kv.2) else kv))
end

end Pulumi.Props
