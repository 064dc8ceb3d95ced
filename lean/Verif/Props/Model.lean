import Verif.Paths.Model
/-!
# Comparing property values

`sdk/go/common/resource/properties_diff.go`, with `HasValue` (`properties.go:365-371`), the equality of assets and archives
(`asset.go:209-224, 543-558`), the detailed diffs made of a diff (`plugin/provider.go:230-294`), and what a provider's answer
"unknown" comes to (`pkg/resource/deploy/step_generator.go:1364-1393`). Paths are relative to `/repo/`.

Values are those of `Engine.EV`. Go maps are association lists, in the order of their keys where the code sorts them. Numbers are
integers: NaN, which is not even equal to itself, is left out. A comparison that panics is `none`.
-/
namespace Pulumi.Props
open Pulumi.Engine (EV Blob RefId)
open Pulumi.Paths (Text Kind PropertyDiff Changes DiffResult)

/-- `HasValue` (properties.go:365-371) -/
def hasValue : EV → Bool
  | .output _ known _ _ => known
  | .null => false
  | _ => true

/-- `IsOutput` (properties.go:505-508) -/
def isOutput : EV → Bool
  | .output .. => true
  | _ => false

/-- `IsComputed` (properties.go:499-502) -/
def isComputed : EV → Bool
  | .computed _ => true
  | _ => false

/-- Which of the two kinds of blob -/
def isAsset : Blob → Bool
  | .asset .. => true
  | _ => false

/-- `Equals` of assets and archives (asset.go:209-224, 543-558), asked of two of a kind (properties_diff.go:305-316). `hash` is what
`EnsureHash` makes of a blob: `none` where it fails. -/
def blobEq (hash : Blob → Option String) (a b : Blob) : Bool :=
  (isAsset a == isAsset b) &&
    match hash a, hash b with
    | some x, some y => decide (x = y)
    | _, _ => false

/-- Go's `==` on `PropertyValue` (372): slices, maps and structs with slices in them cannot be compared; secrets and blobs are compared
by address, and are taken to be at different ones. -/
def goEq : EV → EV → Option Bool
  | .null, .null => some true
  | .bool a, .bool b => some (decide (a = b))
  | .num a, .num b => some (decide (a = b))
  | .str a, .str b => some (decide (a = b))
  | .array _, .array _ => none
  | .object _, .object _ => none
  | .output .., .output .. => none
  | .ref u i v, .ref u' i' v' => some (decide (u = u' ∧ i = i' ∧ v = v'))
  | .computed e, .computed e' => goEq e e'
  | _, _ => some false

mutual
/-- `PropertyValue.DeepEquals` (287-373). Of the id of a reference there are but three kinds, which are equal where they are the same
(351-355). -/
def deepEq (hash : Blob → Option String) : EV → EV → Option Bool
  | .array xs, .array ys => if xs.length ≠ ys.length then some false else eqList hash xs ys
  | .blob a, .blob b => some (blobEq hash a b)
  | .object a, .object b =>
    match eqKvs hash a b with
    | some true => some (b.all (fun kw => (a.lookup kw.1).isSome || !hasValue kw.2))
    | r => r
  | .secret v, .secret w => deepEq hash v w
  | .ref u i _, .ref u' i' _ => some (decide (u = u') && decide (i = i'))
  | .output v k s d, .output v' k' s' d' => if k ≠ k' ∨ s ≠ s' ∨ d ≠ d' then some false else deepEq hash v v'
  | .null, .null => some true
  | .bool a, .bool b => some (decide (a = b))
  | .num a, .num b => some (decide (a = b))
  | .str a, .str b => some (decide (a = b))
  | .computed e, .computed e' => goEq e e'
  | _, _ => some false
/-- the elements of two arrays (297-301) -/
def eqList (hash : Blob → Option String) : List EV → List EV → Option Bool
  | [], _ => some true
  | _, [] => some true
  | x :: xs, y :: ys =>
    match deepEq hash x y with
    | some true => eqList hash xs ys
    | r => r
/-- `PropertyMap.DeepEquals` (264-284), the first loop -/
def eqKvs (hash : Blob → Option String) : List (String × EV) → List (String × EV) → Option Bool
  | [], _ => some true
  | (k, v) :: rest, b =>
    match b.lookup k with
    | some w =>
      match deepEq hash v w with
      | some true => eqKvs hash rest b
      | r => r
    | none => if hasValue v then some false else eqKvs hash rest b
end

/-- `ValueDiff` (95-100), with `ArrayDiff` (103-108) and `ObjectDiff` (22-27) in it: added, deleted, same and updated -/
inductive VDiff where
  | leaf (old new : EV)
  | arr (old new : EV) (adds dels sames : List (Nat × EV)) (ups : List (Nat × VDiff))
  | obj (old new : EV) (adds dels sames : List (String × EV)) (ups : List (String × VDiff))

/-- Where a property of the old map goes (152-178): the maps `adds`, `deletes`, `sames` and `updates`, or none of them -/
inductive Fate where
  | skip
  | add (new : EV)
  | del (old : EV)
  | same (old : EV)
  | up (d : VDiff)

/-- Lines 158-172: a property both maps have, given how the two values differ. For an output the values are not compared. -/
def fate (old new : EV) (r : Option (Option VDiff)) : Option Fate :=
  if isOutput new then some (.same old)
  else
    match r with
    | none => none
    | some none => some (.same old)
    | some (some d) => if !hasValue old then some (.add new) else if !hasValue new then some (.del old) else some (.up d)

/-- lines 173-176: a property the new map does not have -/
def fateGone (old : EV) : Fate := if hasValue old then .del old else .skip

/-- `ObjectDiff` (22-27) -/
structure ODiff where
  adds : List (String × EV)
  dels : List (String × EV)
  sames : List (String × EV)
  ups : List (String × VDiff)

/-- The maps of the first loop -/
def gather : List (String × Fate) → ODiff
  | [] => ⟨[], [], [], []⟩
  | (k, f) :: fs =>
    let d := gather fs
    match f with
    | .skip => d
    | .add v => { d with adds := (k, v) :: d.adds }
    | .del v => { d with dels := (k, v) :: d.dels }
    | .same v => { d with sames := (k, v) :: d.sames }
    | .up u => { d with ups := (k, u) :: d.ups }

/-- `PropertyMap.Diff` (140-196) after its first loop: the properties of the new map alone (181-189), and `nil` where nothing was
found (192-194) -/
def finish (ign : String → Bool) (a b : List (String × EV)) (fs : List (String × Fate)) : Option ODiff :=
  let d := gather fs
  let adds := d.adds ++ b.filter (fun kw => !ign kw.1 && (a.lookup kw.1).isNone && hasValue kw.2)
  if adds = [] ∧ d.dels = [] ∧ d.ups = [] then none else some { d with adds := adds }

/-- the elements past the end of another array (204-212) -/
def past (n : Nat) (xs : List EV) : List (Nat × EV) := (xs.drop n).zipIdx n |>.map (fun xi => (xi.2, xi.1))

mutual
/-- `PropertyValue.Diff` (199-261); `ign` is whether one of `ignoreKeys` holds. The elements of arrays are compared without it (217). -/
def diff (hash : Blob → Option String) (ign : String → Bool) : EV → EV → Option (Option VDiff)
  | .array xs, .array ys =>
    match diffList hash 0 xs ys with
    | none => none
    | some (sames, ups) =>
      if past xs.length ys = [] ∧ past ys.length xs = [] ∧ ups = [] then some none
      else some (some (.arr (.array xs) (.array ys) (past xs.length ys) (past ys.length xs) sames ups))
  | .object a, .object b =>
    match diffKvs hash ign a b with
    | none => none
    | some fs => some ((finish ign a b fs).map (fun d => .obj (.object a) (.object b) d.adds d.dels d.sames d.ups))
  | v, w =>
    match deepEq hash v w with
    | none => none
    | some true => some none
    | some false => some (some (.leaf v w))
/-- the elements two arrays have in common (214-222): the same ones and the updated ones -/
def diffList (hash : Blob → Option String) (i : Nat) : List EV → List EV → Option (List (Nat × EV) × List (Nat × VDiff))
  | [], _ => some ([], [])
  | _, [] => some ([], [])
  | x :: xs, y :: ys =>
    match diff hash (fun _ => false) x y, diffList hash (i + 1) xs ys with
    | some (some d), some (sames, ups) => some (sames, (i, d) :: ups)
    | some none, some (sames, ups) => some ((i, x) :: sames, ups)
    | _, _ => none
/-- `PropertyMap.Diff` (140-196), the first loop (152-178) -/
def diffKvs (hash : Blob → Option String) (ign : String → Bool) :
    List (String × EV) → List (String × EV) → Option (List (String × Fate))
  | [], _ => some []
  | (k, old) :: rest, b =>
    match diffKvs hash ign rest b with
    | none => none
    | some fs =>
      if ign k then some fs
      else
        match b.lookup k with
        | some new =>
          match fate old new (diff hash ign old new) with
          | none => none
          | some f => some ((k, f) :: fs)
        | none => some ((k, fateGone old) :: fs)
end

/-- `PropertyMap.Diff` (140-196) -/
def mapDiff (hash : Blob → Option String) (ign : String → Bool) (a b : List (String × EV)) : Option (Option ODiff) :=
  (diffKvs hash ign a b).map (finish ign a b)

/-! ## Detailed diffs -/

/-- the name of a property in a detailed diff (`getPrefix`, provider.go:242-247) -/
def nameIn (pre : Text) (k : String) : Text := if pre = [] then k.toList else pre ++ '.' :: k.toList

/-- the name of an element in a detailed diff (provider.go:265) -/
def elemIn (pre : Text) (i : Nat) : Text := pre ++ '[' :: (Nat.toDigits 10 i ++ [']'])

/-- `acc[k] = d` -/
def put (k : Text) (d : PropertyDiff) (acc : List (Text × PropertyDiff)) : List (Text × PropertyDiff) :=
  (k, d) :: acc.filter (fun e => decide (e.1 ≠ k))

/-- lines 258-259, 272-273: entries of one kind -/
def putAll (kind : Kind) (ks : List Text) (acc : List (Text × PropertyDiff)) : List (Text × PropertyDiff) :=
  ks.foldl (fun acc k => put k { kind := kind, inputDiff := false } acc) acc

/-- lines 284-292 -/
def leafKind (old new : EV) : Kind :=
  if old.isNull && !new.isNull then .add else if !old.isNull && new.isNull then .delete else .update

mutual
/-- `valueDiffToDetailedDiff` (278-294), with `objectDiffToDetailedDiff` (240-261) and `arrayDiffToDetailedDiff` (263-276) -/
def detail (pre : Text) : VDiff → List (Text × PropertyDiff) → List (Text × PropertyDiff)
  | .leaf old new, acc => put pre { kind := leafKind old new, inputDiff := false } acc
  | .arr _ _ adds dels _ ups, acc =>
    putAll .delete (dels.map (fun e => elemIn pre e.1)) (putAll .add (adds.map (fun e => elemIn pre e.1)) (detailIdx pre ups acc))
  | .obj _ _ adds dels _ ups, acc =>
    putAll .delete (dels.map (fun e => nameIn pre e.1)) (putAll .add (adds.map (fun e => nameIn pre e.1)) (detailKey pre ups acc))
/-- the updates of an array (266-268) -/
def detailIdx (pre : Text) : List (Nat × VDiff) → List (Text × PropertyDiff) → List (Text × PropertyDiff)
  | [], acc => acc
  | (i, d) :: ups, acc => detailIdx pre ups (detail (elemIn pre i) d acc)
/-- the updates of a map (249-252) -/
def detailKey (pre : Text) : List (String × VDiff) → List (Text × PropertyDiff) → List (Text × PropertyDiff)
  | [], acc => acc
  | (k, d) :: ups, acc => detailKey pre ups (detail (nameIn pre k) d acc)
end

/-- `NewDetailedDiffFromObjectDiff` (231-238) -/
def detailed : Option ODiff → List (Text × PropertyDiff)
  | none => []
  | some d =>
    putAll .delete (d.dels.map (fun e => nameIn [] e.1)) (putAll .add (d.adds.map (fun e => nameIn [] e.1)) (detailKey [] d.ups []))

end Pulumi.Props
