/-!
# Type annotations

Models `_types.py:691-747` (unions, optional types) and `950-1024` (`unwrap_optional_type`, `unwrap_type`), with the
aliases `Input` and `InputType` of `output.py:48-50`.

Simplified: type variables and forward references have been resolved (`get_type_hints`).  `X | Y` is not modelled.
-/

namespace Pulumi.Types

/-- What a subscripted annotation is a subscription of. -/
inductive Origin
  | list | dict | mapping | awaitable | output
  | other (name : String)
  deriving DecidableEq, Repr

/-- Annotations. -/
inductive Ty where
  | noneType
  | any
  | str
  /-- `dict`, without arguments -/
  | dictCls
  /-- `Output`, without argument -/
  | outputCls
  /-- another class, and whether it is an input type -/
  | cls (name : String) (input : Bool)
  /-- `List[T]`, `Dict[K, V]`, `Output[T]`, ... -/
  | gen (o : Origin) (args : List Ty)
  /-- a `Union` as `typing` keeps it -/
  | union (args : List Ty)
  deriving Repr

mutual
/-- `==` of annotations. Unions are compared in order here; `typing` compares them as sets. -/
def Ty.beq : Ty → Ty → Bool
  | .noneType, .noneType => true
  | .any, .any => true
  | .str, .str => true
  | .dictCls, .dictCls => true
  | .outputCls, .outputCls => true
  | .cls a i, .cls b j => a == b && i == j
  | .gen o as, .gen p bs => decide (o = p) && beqList as bs
  | .union as, .union bs => beqList as bs
  | _, _ => false
def beqList : List Ty → List Ty → Bool
  | [], [] => true
  | a :: as, b :: bs => a.beq b && beqList as bs
  | _, _ => false
end

/-- The members of a union, or the one annotation (`typing._flatten_literal_params`, `_remove_dups_flatten`). -/
def flatten : List Ty → List Ty
  | [] => []
  | .union as :: ts => as ++ flatten ts
  | t :: ts => t :: flatten ts

/-- Without repetitions: the first one is kept. -/
def dedup : List Ty → List Ty
  | [] => []
  | t :: ts => t :: (dedup ts).filter (fun u => !u.beq t)

/-- `Union[...]`: nested unions are flattened, repetitions removed, and a union of one annotation is that annotation. -/
def mkUnion (ts : List Ty) : Ty :=
  match dedup (flatten ts) with
  | [t] => t
  | us => .union us

/-- `Optional[T]` -/
def optionalOf (t : Ty) : Ty := mkUnion [t, .noneType]

/-- `Output[T]` -/
def outputOf (t : Ty) : Ty := .gen .output [t]

/-- `Input[T] = Union[T, Awaitable[T], "Output[T]"]` (output.py:48). -/
def inputOf (t : Ty) : Ty := mkUnion [t, .gen .awaitable [t], outputOf t]

/-- `InputType[T] = Union[T, Mapping[str, Any]]` (output.py:50). -/
def inputTypeOf (t : Ty) : Ty := mkUnion [t, .gen .mapping [.str, .any]]

inductive Err
  | assertion | typeError | attributeError | nameError
  deriving DecidableEq, Repr

/-- `get_origin` (_types.py:707-710) -/
def getOrigin : Ty → Option Origin
  | .gen o _ => some o
  | _ => none

/-- `get_args` (_types.py:711-712) -/
def getArgs : Ty → List Ty
  | .gen _ as => as
  | .union as => as
  | _ => []

/-- `tp is type(None)` -/
def isNoneType : Ty → Bool
  | .noneType => true
  | _ => false

mutual
/-- `_is_optional_type` (_types.py:752-757) -/
def isOptional : Ty → Bool
  | .noneType => true
  | .union as => anyOptional as
  | _ => false
def anyOptional : List Ty → Bool
  | [] => false
  | t :: ts => isOptional t || anyOptional ts
end

/-- `unwrap_optional_type` (_types.py:950-963) -/
def unwrapOptional (t : Ty) : Except Err Ty :=
  if isOptional t then
    match getArgs t with
    | [a, b] => if isNoneType b then .ok a else .error .assertion
    | _ => .ok t
  else .ok t

/-- `is_input_type` (_types.py:299-300) of an annotation. -/
def isInputCls : Ty → Bool
  | .cls _ i => i
  | _ => false

/-- `x is dict` -/
def isDictCls : Ty → Bool
  | .dictCls => true
  | _ => false

/-- `isInputType(args)` (_types.py:984-990), for the first two members: `and` binds closer than `or`. -/
def looksInputType (a b : Ty) : Bool :=
  (isInputCls a && isDictCls b) || decide (getOrigin b = some .dict) || decide (getOrigin b = some .mapping)

/-- `isInput(args, i)` (_types.py:992-997), for members `i` and `i + 1`. -/
def looksInput (a b : Ty) : Bool :=
  decide (getOrigin a = some .awaitable) && decide (getOrigin b = some .output)

/-- _types.py:999-1017: the member that a union is unwrapped to. -/
def unwrapUnion : List Ty → Option Ty
  | [a, b] => if looksInputType a b then some a else none
  | [a, b, c] =>
    if looksInput b c then some a
    else if looksInputType a b && isNoneType c then some a else none
  | [a, b, c, d] =>
    if looksInput b c && isNoneType d then some a
    else if looksInputType a b && looksInput c d then some a else none
  | [a, b, c, d, e] =>
    if looksInputType a b && looksInput c d && isNoneType e then some a else none
  | _ => none

/-- _types.py:973-977: the argument of an `Output[T]`. -/
def unwrapOutput : Ty → Except Err Ty
  | .gen .output [t] => .ok t
  | .gen .output _ => .error .assertion
  | t => .ok t

/-- `unwrap_type` after an `Output` has been unwrapped (_types.py:979-1019). -/
def unwrapInner : Ty → Except Err Ty
  | .union as =>
    match unwrapUnion as with
    | some t => .ok t
    | none => unwrapOptional (.union as)
  | t => unwrapOptional t

/-- `unwrap_type` (_types.py:966-1019) -/
def unwrapType (t : Ty) : Except Err Ty := do
  let u ← unwrapOutput t
  unwrapInner u

/-- How `serialize_property` (rpc.py:434-463) and `translate_output_properties` (rpc.py:843-890) treat an annotation that
was unwrapped: `Any` or none; a list with its element; a dict with its value; a class; or anything else, with which a
program's dict is sent with its keys as they are, lists are refused, and dicts of the engine are refused. -/
inductive Use
  | any | listOf (t : Ty) | dictOf (t : Ty) | bareDict | cls (name : String) | other

def use : Ty → Use
  | .any => .any
  | .gen .list [t] => .listOf t
  | .gen .dict [.str, t] => .dictOf t
  | .gen .mapping [.str, t] => .dictOf t
  | .gen .dict _ => .bareDict
  | .gen .mapping _ => .bareDict
  | .dictCls => .bareDict
  | .cls n _ => .cls n
  | _ => .other

end Pulumi.Types
