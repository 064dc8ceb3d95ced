import Verif.Props.Theorems
/-!
# Plans: what happens to properties

`pkg/resource/deploy/plan.go` and, of `sdk/go/common/resource/properties_diff.go`, the comparisons that take unknown values for anything
(396-659). Paths are relative to `/repo/`.

Go maps are association lists. Complaints are the properties complained of, with what the update would do to them, not texts.
-/
namespace Pulumi.Plan
open Pulumi.Engine (EV Blob RefId)
open Pulumi.Props (VDiff ODiff Fate hasValue isOutput isComputed blobEq gather finish past nothing valueAt isAsset)

mutual
/-- `PropertyValue.DeepEqualsIncludeUnknowns` (properties_diff.go:550-659). Nothing is left that Go cannot compare. -/
def eqU (hash : Blob → Option String) : EV → EV → Bool
  | .computed _, _ => true
  | _, .computed _ => true
  | .array xs, .array ys => decide (xs.length = ys.length) && eqUList hash xs ys
  | .blob a, .blob b => blobEq hash a b
  | .object a, .object b => eqUKvs hash a b && b.all (fun kw => (a.lookup kw.1).isSome || !hasValue kw.2)
  | .secret v, .secret w => eqU hash v w
  | .ref u i _, .ref u' i' _ => decide (u = u') && (decide (i = .unknown) || decide (i' = .unknown) || decide (i = i'))
  | .output v k s d, .output v' k' s' d' => decide (k = k') && decide (s = s') && decide (d = d') && eqU hash v v'
  | .null, .null => true
  | .bool a, .bool b => decide (a = b)
  | .num a, .num b => decide (a = b)
  | .str a, .str b => decide (a = b)
  | _, _ => false
/-- the elements of two arrays (566-570) -/
def eqUList (hash : Blob → Option String) : List EV → List EV → Bool
  | x :: xs, y :: ys => eqU hash x y && eqUList hash xs ys
  | _, _ => true
/-- `PropertyMap.DeepEqualsIncludeUnknowns` (527-548), the first loop -/
def eqUKvs (hash : Blob → Option String) : List (String × EV) → List (String × EV) → Bool
  | [], _ => true
  | (k, v) :: rest, b =>
    (match b.lookup k with
      | some w => eqU hash v w
      | none => !hasValue v || isComputed v) && eqUKvs hash rest b
end

/-- Lines 417-432: a property both maps have. What is the same is the new value here, not the old one as in `Props.fate`. -/
def fateU (old new : EV) (r : Option VDiff) : Fate :=
  if isOutput new then .same new
  else
    match r with
    | none => .same new
    | some d => if !hasValue old then .add new else if !hasValue new then .del old else .up d

/-- Lines 433-441: a property the new map does not have; an unknown one may have come to nothing. -/
def fateGoneU (old : EV) : Fate := if isComputed old then .skip else if hasValue old then .del old else .skip

mutual
/-- `PropertyValue.DiffIncludeUnknowns` (468-525), nothing ignored -/
def diffU (hash : Blob → Option String) : EV → EV → Option VDiff
  | .array xs, .array ys =>
    let (sames, ups) := diffUList hash 0 xs ys
    if past xs.length ys = [] ∧ past ys.length xs = [] ∧ ups = [] then none
    else some (.arr (.array xs) (.array ys) (past xs.length ys) (past ys.length xs) sames ups)
  | .object a, .object b =>
    (finish nothing a b (diffUKvs hash a b)).map (fun d => .obj (.object a) (.object b) d.adds d.dels d.sames d.ups)
  | v, w => if eqU hash v w then none else some (.leaf v w)
/-- the elements two arrays have in common (483-493) -/
def diffUList (hash : Blob → Option String) (i : Nat) : List EV → List EV → List (Nat × EV) × List (Nat × VDiff)
  | x :: xs, y :: ys =>
    let (sames, ups) := diffUList hash (i + 1) xs ys
    match diffU hash x y with
    | some d => (sames, (i, d) :: ups)
    | none => ((i, y) :: sames, ups)
  | _, _ => ([], [])
/-- `PropertyMap.DiffIncludeUnknowns` (397-465), the first loop (412-442) -/
def diffUKvs (hash : Blob → Option String) : List (String × EV) → List (String × EV) → List (String × Fate)
  | [], _ => []
  | (k, old) :: rest, b =>
    (k, match b.lookup k with
      | some new => fateU old new (diffU hash old new)
      | none => fateGoneU old) :: diffUKvs hash rest b
end

/-- `PropertyMap.DiffIncludeUnknowns` (397-465) -/
def mapDiffU (hash : Blob → Option String) (a b : List (String × EV)) : Option ODiff := finish nothing a b (diffUKvs hash a b)

/-- `PlanDiff` (plan.go:54-58) -/
structure PlanDiff where
  adds : List (String × EV)
  dels : List String
  ups : List (String × EV)

/-- the `New` of a `ValueDiff` -/
def newOf : VDiff → EV
  | .leaf _ new => new
  | .arr _ new .. => new
  | .obj _ new .. => new

/-- `NewPlanDiff` (145-169) -/
def newPlanDiff : Option ODiff → PlanDiff
  | none => ⟨[], [], []⟩
  | some d => ⟨d.adds, d.dels.map (·.1), d.ups.map (fun ku => (ku.1, newOf ku.2))⟩

/-- Whether a value is not what was planned (315, 354, 360, 386, 416), or is not there although it was planned and known (394, 425) -/
def strays (hash : Blob → Option String) (expected : EV) : Option EV → Bool
  | some actual => !eqU hash expected actual
  | none => !isComputed expected

/-- What is said of a property that is in neither list: that it is kept, or that it is gone -/
def kept : Option EV → Char
  | some _ => '='
  | none => '-'

/-- `checkDiff` (306-460): the keys complained of, with the operation -/
def checkDiff (hash : Blob → Option String) (olds news : List (String × EV)) (pd : PlanDiff) : List (String × Char) :=
  let d := (mapDiffU hash olds news).getD ⟨[], [], [], []⟩
  -- 311-322
  ((d.adds.filter (fun ka => match pd.adds.lookup ka.1 with
    | some expected => strays hash expected (some ka.2)
    | none => true)).map (fun ka => (ka.1, '+'))) ++
  -- 325-343
  ((d.dels.filter (fun kv => !decide (kv.1 ∈ pd.dels) && (match pd.ups.lookup kv.1 with
    | some expected => !isComputed expected
    | none => true))).map (fun kv => (kv.1, '-'))) ++
  -- 350-367
  ((d.ups.filter (fun ku => match pd.ups.lookup ku.1, pd.adds.lookup ku.1 with
    | some expected, _ => strays hash expected (some (newOf ku.2))
    | none, some expected => strays hash expected (some (newOf ku.2))
    | none, none => true)).map (fun ku => (ku.1, '~'))) ++
  -- 375-399
  ((pd.adds.filter (fun ke => (d.adds.lookup ke.1).isNone && (d.ups.lookup ke.1).isNone && strays hash ke.2 (news.lookup ke.1))).map
    (fun ke => (ke.1, kept (news.lookup ke.1)))) ++
  -- 401-429
  ((pd.ups.filter (fun ke => (d.ups.lookup ke.1).isNone && ((d.adds.lookup ke.1).isSome || strays hash ke.2 (news.lookup ke.1)))).map
    (fun ke => (ke.1, if (d.adds.lookup ke.1).isSome then '+' else kept (news.lookup ke.1)))) ++
  -- 431-450
  ((pd.dels.filter (fun k => (d.dels.lookup k).isNone &&
    ((d.adds.lookup k).isSome || (d.ups.lookup k).isSome || (d.sames.lookup k).isSome))).map
    (fun k => (k, if (d.adds.lookup k).isSome then '+' else if (d.ups.lookup k).isSome then '~' else '=')))

/-! ## What is said about it -/

/-- Nothing is unknown, anywhere. -/
inductive Known : EV → Prop
  | null : Known .null
  | bool (b : Bool) : Known (.bool b)
  | num (n : Int) : Known (.num n)
  | str (s : String) : Known (.str s)
  | array (xs : List EV) : (∀ x ∈ xs, Known x) → Known (.array xs)
  | object (a : List (String × EV)) : (∀ k v, (k, v) ∈ a → Known v) → Known (.object a)
  | blob (b : Blob) : Known (.blob b)
  | secret (v : EV) : Known v → Known (.secret v)
  | ref (u : String) (i : RefId) (v : String) : i ≠ .unknown → Known (.ref u i v)

/-- What the values of a preview come to in the update: an unknown one may come to any value, or to nothing in an object, and the rest
is what it was. Objects are compared with nulls for what is missing, assets and archives by kind and hash, references by URN and id. -/
inductive Resolves (hash : Blob → Option String) : EV → EV → Prop
  | unknown (e v : EV) : Resolves hash (.computed e) v
  | null : Resolves hash .null .null
  | bool (b : Bool) : Resolves hash (.bool b) (.bool b)
  | num (n : Int) : Resolves hash (.num n) (.num n)
  | str (s : String) : Resolves hash (.str s) (.str s)
  | array (xs ys : List EV) : xs.length = ys.length → (∀ (i : Nat) (x y : EV), xs[i]? = some x → ys[i]? = some y → Resolves hash x y) →
      Resolves hash (.array xs) (.array ys)
  | object (a b : List (String × EV)) : (∀ k, Resolves hash (valueAt a k) (valueAt b k)) → Resolves hash (.object a) (.object b)
  | blob (b c : Blob) (h : String) : isAsset b = isAsset c → hash b = some h → hash c = some h → Resolves hash (.blob b) (.blob c)
  | secret (v w : EV) : Resolves hash v w → Resolves hash (.secret v) (.secret w)
  | ref (u : String) (i i' : RefId) (v v' : String) : (i = .unknown ∨ i = i') → Resolves hash (.ref u i v) (.ref u i' v')

/-- A plan made by a preview lists a key at most once. -/
def PlanDiff.ok (pd : PlanDiff) : Prop := (pd.adds.map (·.1) ++ pd.dels ++ pd.ups.map (·.1)).Nodup

end Pulumi.Plan
