import Verif.Paths.Tree
/-!
# `ignoreChanges`

`processIgnoreChanges` (`pkg/resource/deploy/step_generator.go:1420-1457`).

The copy of the inputs that it works on (1425, `sdk/go/common/resource/properties.go:193-199`) is shallow: a member of it is the
same map or slice as that member of the inputs, and after `Set` of the old value at a single key, as that member of the old
inputs. So the copy is modelled by where each of its members comes from, and a change below a member is made there.

Not modelled: values inside the inputs that are, after `Set` of the old value at a longer path, those inside the old inputs. A
change below one of them writes to the old inputs too, but what it writes is what is there: see `old_inputs_kept`.
-/
namespace Pulumi.Paths
open Pulumi.Engine (EV)

inductive Src where
  | own
  | old
deriving DecidableEq, Repr

/-- `inputs` (the properties of the goal), `oldInputs`, and the members of `ignoredInputs` -/
structure IState where
  own : EV
  old : EV
  copy : List (Text × Src)

def srcOf (k : Text) : List (Text × Src) → Option Src
  | [] => none
  | (k', s) :: rest => if k' = k then some s else srcOf k rest

def putSrc (k : Text) (copy : List (Text × Src)) : List (Text × Src) := (k, .old) :: copy.filter (fun ks => decide (ks.1 ≠ k))

def dropSrc (k : Text) (copy : List (Text × Src)) : List (Text × Src) := copy.filter (fun ks => decide (ks.1 ≠ k))

/-- what a member of the copy is -/
def copyMember (s : IState) (k : Text) : Option EV :=
  match srcOf k s.copy with
  | none => none
  | some .own => step s.own (.name k)
  | some .old => step s.old (.name k)

/-- `path.Get` of the copy, but for the empty path -/
def copyGet (s : IState) : Path → Option EV
  | [] => none
  | .idx _ :: _ => none
  | .name k :: ks => (copyMember s k).bind (get ks)

/-- `inputs.Copy()` (1425) -/
def startCopy (own old : List (String × EV)) : IState :=
  { own := .object own, old := .object old, copy := own.map (fun kv => (kv.1.toList, .own)) }

/-- `path.Set(ignoredInputs, oldValue)` (1439, 1442) -/
def setCopy (p : Path) (v : EV) (s : IState) : Option IState :=
  match p with
  | [] => none
  | .idx _ :: _ => none
  | [.name k] => some { s with copy := putSrc k s.copy }
  | .name k :: ks =>
    match srcOf k s.copy with
    | none => none
    | some .own => (setAt (.name k :: ks) v s.own).map (fun t => { s with own := t })
    | some .old => (setAt (.name k :: ks) v s.old).map (fun t => { s with old := t })

/-- `path.Delete(ignoredInputs)` (1444) -/
def deleteCopy (p : Path) (s : IState) : Option IState :=
  match p with
  | [] => none
  | .idx _ :: _ => none
  | [.name k] => some { s with copy := dropSrc k s.copy }
  | .name k :: ks =>
    match srcOf k s.copy with
    | none => none
    | some .own => (deleteAt (.name k :: ks) s.own).map (fun t => { s with own := t })
    | some .old => (deleteAt (.name k :: ks) s.old).map (fun t => { s with old := t })

/-- What comes of one of the paths -/
inductive One where
  /-- `contract.Assert(ok)` fails (1440) -/
  | crash
  /-- `!ok` (1448) -/
  | bad
  | ok (s : IState)

/-- lines 1433-1447 -/
def ignoreOne (s : IState) (p : Path) : One :=
  match get p s.old with
  | some v =>
    match setCopy p v s with
    | some s' => .ok s'
    | none => if (get p s.own).isSome then .crash else .bad
  | none =>
    if (get p s.own).isSome then
      match deleteCopy p s with
      | some s' => .ok s'
      | none => .bad
    else .ok s

/-- How it ends: with a panic, with the paths that cannot be ignored (1452-1455), or with the inputs to use -/
inductive Ignored where
  | crashed
  | refused (paths : List Text)
  | done (s : IState)

/-- the loop (1426-1451); a text that is not a path is passed over (1428-1431) -/
def ignoreLoop : List Text → List Text → IState → Ignored
  | [], bad, s => if bad = [] then .done s else .refused bad
  | o :: opts, bad, s =>
    match parse o with
    | .error _ => ignoreLoop opts bad s
    | .ok p =>
      match ignoreOne s p with
      | .crash => .crashed
      | .bad => ignoreLoop opts (bad ++ [o]) s
      | .ok s' => ignoreLoop opts bad s'

/-- `processIgnoreChanges` (1422-1457); the inputs and the old inputs are those of `IState` afterwards -/
def processIgnoreChanges (inputs oldInputs : List (String × EV)) (opts : List Text) : Ignored :=
  ignoreLoop opts [] (startCopy inputs oldInputs)

/-! ## what is said about it -/

/-- at `p`, the value is the old one; without an old one there is none, or null in an array -/
def Kept (p : Path) (old : EV) (now : Option EV) : Prop :=
  match get p old with
  | some v => now = some v
  | none => Gone p now

/-- the paths of the option -/
def IsPath (opts : List Text) (p : Path) : Prop := ∃ o ∈ opts, parse o = .ok p

/-- no path of the option is the same as, or inside, another one -/
def AllApart (opts : List Text) : Prop :=
  List.Pairwise (fun o o' => ∀ p q, parse o = .ok p → parse o' = .ok q → Apart p q) opts

/-- there is something at the path or it could be assigned there -/
def HasPlace (t : EV) (p : Path) : Prop := ∃ q k d, p = q ++ [k] ∧ get q t = some d ∧ Accepts d k

end Pulumi.Paths
