/-!
# Traversals of arbitrary object graphs

Models `contains_unknowns` (`runtime/rpc.py:976-989`) and `massage` (`runtime/stack.py:163-255`), the two
functions that walk arbitrary Python object graphs, with sharing and cycles, guarding against loops by a list of
objects already seen, compared by identity.
-/
namespace Pulumi.Graph

/-- Object identity (`id(x)`, what `is` compares). -/
abbrev Addr := Nat

/-! ## contains_unknowns -/

/-- What `contains_unknowns` distinguishes. Objects that are neither unknown, dict nor list are `other`. -/
inductive Obj where
  | unknown
  | dict (entries : List (String × Addr))
  | list (items : List Addr)
  | other

/-- The values visited: `val[k] for k in val`, resp. `x for x in val`. -/
def Obj.children : Obj → List Addr
  | .dict es => es.map (·.2)
  | .list xs => xs
  | _ => []

/-- A heap: the object at each address. -/
abbrev Heap := Addr → Obj

/-- `any(...)` over a generator whose members have a side effect on the shared list: stops at the first `True`. -/
def anyM (f : Addr → List Addr → Option (Bool × List Addr)) : List Addr → List Addr → Option (Bool × List Addr)
  | [], stack => some (false, stack)
  | x :: xs, stack =>
    match f x stack with
    | none => none
    | some (true, stack) => some (true, stack)
    | some (false, stack) => anyM f xs stack

/-- `impl(val, stack)` (`runtime/rpc.py:977-987`). The shared list `stack` is threaded through; `none` means
that the recursion is deeper than `fuel`. -/
def impl (h : Heap) : Nat → Addr → List Addr → Option (Bool × List Addr)
  | 0, _, _ => none
  | fuel + 1, a, stack =>
    match h a with
    | .unknown => some (true, stack)
    | .dict es => if a ∈ stack then some (false, stack) else anyM (impl h fuel) (es.map (·.2)) (stack ++ [a])
    | .list xs => if a ∈ stack then some (false, stack) else anyM (impl h fuel) xs (stack ++ [a])
    | .other => if a ∈ stack then some (false, stack) else some (false, stack ++ [a])

/-- `contains_unknowns(val)` (`runtime/rpc.py:976-989`). -/
def containsUnknowns? (h : Heap) (fuel : Nat) (a : Addr) : Option Bool := (impl h fuel a []).map (·.1)

/-! ## massage -/

/-- A dict key: a string, or an object without `startswith`. -/
inductive Key where
  | str (s : String)
  | notStr
deriving DecidableEq

/-- What `massage` distinguishes, in the order of its tests: primitive values (including strings), dicts, Outputs,
other awaitables, resources and other objects with a `__dict__`, everything else (iterables). -/
inductive MObj where
  | prim (v : String)
  | dict (entries : List (Key × Addr))
  | output
  | awaitable
  | resource (dict : Addr)
  | object (dict : Addr)
  | iterable (items : List Addr)

abbrev MHeap := Addr → MObj

/-- The plain data `massage` builds. `applied a` is the Output returned by `attr.apply(lambda v: massage(v, seen))`
for the Output or awaitable at `a`; `urnOf a` is the `urn` of the resource at `a`. -/
inductive Out where
  | prim (v : String)
  | none
  | true
  | dict (entries : List (String × Out))
  | list (items : List Out)
  | applied (a : Addr)
  | urnOf (a : Addr)

/-- How a call of `massage` ends. -/
inductive Ret (α : Type) where
  | ok (a : α)
  | raised (e : String)
  | outOfFuel

/-- `key.startswith("_")`. -/
def isPrivate (s : String) : Bool := s.toList.head? == some '_'

/-- Lines 191-198: the loop over a dict. -/
def massageDict (f : Addr → List Addr → Ret (Out × List Addr)) :
    List (Key × Addr) → List Addr → Ret (List (String × Out) × List Addr)
  | [], seen => .ok ([], seen)
  | (.notStr, _) :: _, _ => .raised "AttributeError"
  | (.str k, a) :: es, seen =>
    if isPrivate k then massageDict f es seen
    else
      match f a seen with
      | .raised e => .raised e
      | .outOfFuel => .outOfFuel
      | .ok (r, seen) =>
        match massageDict f es seen with
        | .raised e => .raised e
        | .outOfFuel => .outOfFuel
        | .ok (rs, seen) => .ok ((k, r) :: rs, seen)

/-- Line 224: `[massage(a, seen) for a in attr]`. -/
def massageList (f : Addr → List Addr → Ret (Out × List Addr)) : List Addr → List Addr → Ret (List Out × List Addr)
  | [], seen => .ok ([], seen)
  | a :: as, seen =>
    match f a seen with
    | .raised e => .raised e
    | .outOfFuel => .outOfFuel
    | .ok (r, seen) =>
      match massageList f as seen with
      | .raised e => .raised e
      | .outOfFuel => .outOfFuel
      | .ok (rs, seen) => .ok (r :: rs, seen)

/-- `massage(attr, seen)` (`runtime/stack.py:163-224`). `dry` is `is_dry_run()`. The dict built for a resource gets
the extra entry `@isPulumiResource` in a preview; if the resource's `__dict__` object itself had been seen before,
`massage` returned `None` for it and the assignment raises `TypeError`. -/
def massage (dry : Bool) (h : MHeap) : Nat → Addr → List Addr → Ret (Out × List Addr)
  | 0, _, _ => .outOfFuel
  | fuel + 1, a, seen =>
    match h a with
    | .prim v => .ok (.prim v, seen)
    | .resource d =>
      if a ∈ seen then .ok (.urnOf a, seen)
      else
        match massage dry h fuel d (seen ++ [a]) with
        | .raised e => .raised e
        | .outOfFuel => .outOfFuel
        | .ok (r, seen) =>
          if dry then
            match r with
            | .dict es => .ok (.dict (es ++ [("@isPulumiResource", .true)]), seen)
            | _ => .raised "TypeError"
          else .ok (r, seen)
    | .dict es =>
      if a ∈ seen then .ok (.none, seen)
      else
        match massageDict (massage dry h fuel) es (seen ++ [a]) with
        | .raised e => .raised e
        | .outOfFuel => .outOfFuel
        | .ok (rs, seen) => .ok (.dict rs, seen)
    | .output => if a ∈ seen then .ok (.none, seen) else .ok (.applied a, seen ++ [a])
    | .awaitable => if a ∈ seen then .ok (.none, seen) else .ok (.applied a, seen ++ [a])
    | .object d => if a ∈ seen then .ok (.none, seen) else massage dry h fuel d (seen ++ [a])
    | .iterable xs =>
      if a ∈ seen then .ok (.none, seen)
      else
        match massageList (massage dry h fuel) xs (seen ++ [a]) with
        | .raised e => .raised e
        | .outOfFuel => .outOfFuel
        | .ok (rs, seen) => .ok (.list rs, seen)

end Pulumi.Graph
