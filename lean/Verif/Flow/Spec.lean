import Verif.Output.Spec
import Verif.Flow.Model
/-!
# What a program shows

The meaning of an expression, given what the properties of the resources show. No event loop, no futures.
-/
namespace Pulumi.Flow
open Pulumi.Async Pulumi.Output

/-- What each property of each resource shows. -/
abbrev World := Nat → String → View

mutual
/-- Plain data: no outputs, awaitables or input classes, at any depth. -/
def isData : Val → Bool
  | .list xs => isDataList xs
  | .dict kvs => isDataDict kvs
  | .input .. | .fut _ | .out _ => false
  | _ => true
def isDataList : List Val → Bool
  | [] => true
  | x :: xs => isData x && isDataList xs
def isDataDict : List (String × Val) → Bool
  | [] => true
  | (_, x) :: xs => isData x && isDataDict xs
end

mutual
/-- Nesting depth. -/
def depth : Val → Nat
  | .list xs => depthList xs + 1
  | .dict kvs => depthDict kvs + 1
  | _ => 0
def depthList : List Val → Nat
  | [] => 0
  | x :: xs => max (depth x) (depthList xs)
def depthDict : List (String × Val) → Nat
  | [] => 0
  | (_, x) :: xs => max (depth x) (depthDict xs)
end

/-- An expression that uses only properties that exist (`has`) and whose callbacks turn data into data. -/
def Expr.Ok (has : Nat → String → Prop) : Expr → Prop
  | .value v => isData v = true
  | .prop r p => has r p
  | .map e f => e.Ok has ∧ ∀ v, isData v = true → isData (f v) = true
  | .bind e f => e.Ok has ∧ ∀ v, isData v = true → (f v).Ok has
  | .all es => okList es
  | .item e get => e.Ok has ∧ ∀ v, isData v = true → isData (get v) = true
  | .secret e => e.Ok has
  | .unsecret e => e.Ok has
where
  okList : List Expr → Prop
    | [] => True
    | e :: es => e.Ok has ∧ okList es

/-- What `apply` shows: during a preview an unknown source stays unknown and nothing else happens; otherwise the source,
then what the callback gave. -/
def thenView (dry : Bool) (w : View) (next : Val → View) : View :=
  if dry && !w.known then { value := .none, known := false, secret := w.secret, deps := w.deps } else w.after (next w.value)

/-- What a consumer that accepts unknowns is given: during a preview, the unknown marker for a value that is not known. -/
def marked (dry : Bool) (w : View) : Val :=
  if dry && !w.known && !containsUnknowns w.value then .unknown else w.value

/-- A member of an aggregate: its value or the marker, its secretness, its dependencies. -/
def memberView (dry : Bool) (w : View) : View :=
  { w with value := marked dry w, known := !containsUnknowns (marked dry w) }

mutual
/-- What an expression shows in a world. -/
def Expr.view (dry : Bool) (world : World) : Expr → View
  | .value v => .ofPlain v
  | .prop r p => world r p
  | .map e f => thenView dry (e.view dry world) fun v => .ofPlain (f v)
  | .bind e f => thenView dry (e.view dry world) fun v => (f v).view dry world
  | .all es => .aggregate ((Expr.viewList dry world es).map (memberView dry)) .list
  | .item e get =>
    (e.view dry world).after (.ofPlain (match marked dry (e.view dry world) with
      | .unknown => .unknown
      | v => get v))
  | .secret e => { memberView dry (e.view dry world) with secret := true }
  | .unsecret e => { e.view dry world with secret := false }
def Expr.viewList (dry : Bool) (world : World) : List Expr → List View
  | [] => []
  | e :: es => e.view dry world :: Expr.viewList dry world es
end

/-- Values of resources are data, a known one has no unknown inside (C04), and each depends on its resource (C24). -/
structure World.Ok (has : Nat → String → Prop) (world : World) : Prop where
  data : ∀ r p, has r p → isData (world r p).value = true
  known : ∀ r p, has r p → (world r p).known = true → containsUnknowns (world r p).value = false
  own : ∀ r p, has r p → (world r p).deps r

mutual
/-- How deep `from_input` has to follow the values that it meets: the model of it bounds the depth, the code does not. -/
def Expr.need (dry : Bool) (world : World) : Expr → Nat
  | .value v => depth v + 1
  | .prop _ _ => 0
  | .map e _ => e.need dry world
  | .bind e f => max (e.need dry world) ((f (e.view dry world).value).need dry world)
  | .all es => Expr.needList dry world es
  | .item e _ => e.need dry world
  | .secret e => max (e.need dry world) (depth (e.view dry world).value + 2)
  | .unsecret e => e.need dry world
def Expr.needList (dry : Bool) (world : World) : List Expr → Nat
  | [] => 0
  | e :: es => max (max (e.need dry world) (depth (e.view dry world).value + 2)) (Expr.needList dry world es)
end

/-- No use of `Output.unsecret`. -/
def Expr.NoUnsecret : Expr → Prop
  | .value _ => True
  | .prop _ _ => True
  | .map e _ => e.NoUnsecret
  | .bind e f => e.NoUnsecret ∧ ∀ v, (f v).NoUnsecret
  | .all es => noList es
  | .item e _ => e.NoUnsecret
  | .secret e => e.NoUnsecret
  | .unsecret _ => False
where
  noList : List Expr → Prop
    | [] => True
    | e :: es => e.NoUnsecret ∧ noList es

end Pulumi.Flow
