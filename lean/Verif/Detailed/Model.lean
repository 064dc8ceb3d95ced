import Verif.Props.Model
/-!
# What is shown of a provider's detailed diff

`pkg/engine/detailedDiff.go`: the entries of a detailed diff, each a path and a kind, are made into a diff of the old and the new
properties that can be displayed. Paths are relative to `/repo/`. A panic or a failed assertion is `none`.
-/
namespace Pulumi.Detailed
open Pulumi.Engine (EV Blob)
open Pulumi.Paths (Key Path Text Kind PropertyDiff)
open Pulumi.Props (VDiff)

/-- `getProperty` (detailedDiff.go:11-32): a property or an element of a value, null where there is none; what is not known or secret is its
own property. -/
def getProperty (k : Key) : EV → EV
  | .array xs => match k with
    | .idx i => if 0 ≤ i then (xs[i.toNat]?).getD .null else .null
    | .name _ => .null
  | .object kvs => match k with
    | .name n => (Paths.member n kvs).getD .null
    | .idx _ => .null
  | .computed e => .computed e
  | .output e a b c => .output e a b c
  | .secret e => .secret e
  | _ => .null

/-- `ValueDiff` as `addDiff` builds it (resource/properties_diff.go:95-108): what was added and deleted at each key of the object or the
array, and its updates. Of an update, the diff a leaf entry recorded (`upd`) and what longer paths put into it (`sub`) are kept apart, where
Go has the second write into the first; the keys of an object and of an array are different keys of one map. -/
inductive Tree where
  | mk (adds dels : Key → Option EV) (upd : Key → Option VDiff) (sub : Key → Option Tree)

/-- the zero `ValueDiff` -/
def Tree.empty : Tree := .mk (fun _ => none) (fun _ => none) (fun _ => none) (fun _ => none)

/-- an assignment to a Go map -/
def set {α : Type} (f : Key → Option α) (k : Key) (v : Option α) : Key → Option α := fun k' => if k' = k then v else f k'

/-- `Adds[element] = new` (65, 80, 103, 118) -/
def Tree.setAdd : Tree → Key → EV → Tree
  | .mk a d u s, k, v => .mk (set a k (some v)) d u s

/-- `Deletes[element] = old` (67, 82, 105, 120) -/
def Tree.setDel : Tree → Key → EV → Tree
  | .mk a d u s, k, v => .mk a (set d k (some v)) u s

/-- `Updates[element] = valueDiff` (69-73, 107-111), in place of what was there -/
def Tree.setUpd : Tree → Key → VDiff → Tree
  | .mk a d u s, k, v => .mk a d (set u k (some v)) (set s k none)

/-- `ed := Updates[element]` (84, 122) -/
def Tree.child : Tree → Key → Tree
  | .mk _ _ _ s, k => (s k).getD .empty

/-- `Updates[element] = ed` (86, 124) -/
def Tree.setSub : Tree → Key → Tree → Tree
  | .mk a d u s, k, c => .mk a d u (set s k (some c))

/-- Lines 63-76 and 101-114: an entry at its last element, given the old and the new value there. `resource.ValueDiff{Old, New}` stands where the
two do not differ (69-72). -/
def leaf (hash : Blob → Option String) (kind : Kind) (t : Tree) (k : Key) (old new : EV) : Option Tree :=
  match kind with
  | .add => some (t.setAdd k new)
  | .addReplace => some (t.setAdd k new)
  | .delete => some (t.setDel k old)
  | .deleteReplace => some (t.setDel k old)
  | _ => (Props.diff hash (fun _ => false) old new).map (fun d => t.setUpd k (d.getD (.leaf old new)))

/-- `addDiff` (detailedDiff.go:40-130). The two cases of an int and a string are the same. -/
def addDiff (hash : Blob → Option String) (kind : Kind) : Path → Tree → EV → EV → Option Tree
  | [], _, _, _ => none
  | [k], t, oldP, newP => leaf hash kind t k (getProperty k oldP) (getProperty k newP)
  | k :: k' :: ks, t, oldP, newP =>
    let old := getProperty k oldP
    let new := getProperty k newP
    if old.isNull && !new.isNull then some (t.setAdd k new)
    else if !old.isNull && new.isNull then some (t.setDel k old)
    else (addDiff hash kind (k' :: ks) (t.child k) old new).map (t.setSub k)

/-- An entry of the detailed diff (143-146): the path, or the whole text as a name where it cannot be parsed -/
def elements (path : Text) : Path :=
  match Paths.parse path with
  | .ok p => p
  | .error _ => [.name path]

/-- What the translation takes of a step: the old outputs, the old inputs and the new inputs -/
structure StepProps where
  oldOutputs : EV
  oldInputs : EV
  newInputs : EV

/-- the old properties an entry is about (148-151) -/
def StepProps.olds (s : StepProps) (d : PropertyDiff) : EV := if d.inputDiff then s.oldInputs else s.oldOutputs

/-- the loop of `TranslateDetailedDiff` (142-153), over the map in the order of its iteration -/
def translateFrom (hash : Blob → Option String) (s : StepProps) : Tree → List (Text × PropertyDiff) → Option Tree
  | t, [] => some t
  | t, (p, d) :: es =>
    match addDiff hash d.kind (elements p) t (s.olds d) s.newInputs with
    | none => none
    | some t' => translateFrom hash s t' es

/-- `diff.Object` (155) is `nil` unless an entry began with a name -/
def hasObject (es : List (Text × PropertyDiff)) : Bool :=
  es.any (fun e => match elements e.1 with | .name _ :: _ => true | _ => false)

/-- only the keys that are names -/
def names {α : Type} (f : Key → Option α) : Key → Option α
  | .name n => f (.name n)
  | .idx _ => none

/-- `diff.Object` of a diff -/
def Tree.object : Tree → Tree
  | .mk a d u s => .mk (names a) (names d) (names u) (names s)

/-- `TranslateDetailedDiff` (134-156): `some none` is a nil diff. -/
def translate (hash : Blob → Option String) (s : StepProps) (es : List (Text × PropertyDiff)) : Option (Option Tree) :=
  (translateFrom hash s .empty es).map (fun t => if hasObject es then some t.object else none)

end Pulumi.Detailed
