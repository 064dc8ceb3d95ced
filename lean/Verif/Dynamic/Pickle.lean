/-!
# Pickling of dynamic providers

Models `serialize_provider` (`dynamic/dynamic.py:214-247`) and what it changes in the `pickle` module.  The Python
pickler (`pickle._Pickler`, on which `dill.Pickler` is based) is modelled as far as dictionaries, lists, sets and the
memo go; it is part of the Python library and not of this repository.

Simplified: instances, functions and classes are pickled by way of the dicts of their attributes, so only the data is
modelled; batches are not split after 1000 entries; empty lists and sets are written like others; a string key is memoised by its text.
-/

namespace Pulumi.Dynamic.Pickle

/-- Keys of dictionaries: strings and numbers. -/
inductive Key
  | str (s : String)
  | int (n : Int)
  deriving DecidableEq, Repr

/-- Python objects. Objects that the pickler memoises carry their identity `oid`. The entries of a dict are in insertion
order, the elements of a set in iteration order, which depends on the hashes of the process. -/
inductive Obj where
  | int (n : Int)
  | str (oid : Nat) (s : String)
  | list (oid : Nat) (xs : List Obj)
  | set (oid : Nat) (xs : List Obj)
  | dict (oid : Nat) (kvs : List (Key × Obj))

/-- Opcodes. -/
inductive Op
  | int (n : Int) | str (s : String) | memoize | get (n : Nat)
  | emptyList | emptySet | emptyDict | mark | appends | addItems | setItems
  deriving DecidableEq, Repr

/-- What is in the memo: objects, and texts of string keys. -/
inductive Ref
  | obj (oid : Nat)
  | key (s : String)
  deriving DecidableEq, Repr

abbrev Memo := List Ref

inductive Err
  /-- `sorted` compares a string with a number -/
  | typeError
  | recursionError
  deriving DecidableEq, Repr

/-- Writes an object, given how deep the stack is, and the memo. -/
abbrev Writer := (depth : Nat) → Memo → Except Err (List Op × Memo)

/-- Two writers, one after the other. -/
def Writer.andThen (a b : Writer) : Writer := fun d m => do
  let (x, m1) ← a d m
  let (y, m2) ← b d m1
  return (x ++ y, m2)

/-- Writes opcodes. -/
def emit (ops : List Op) : Writer := fun _ m => .ok (ops, m)

/-- One after the other. -/
def writeAll : List Writer → Writer
  | [] => emit []
  | w :: ws => w.andThen (writeAll ws)

/-- `save` with the memo: an object that was written is only referred to; otherwise `w` writes it, after the opcodes
`head` and after it has been memoised. -/
def memoized (r : Ref) (head : List Op) (w : Writer) : Writer := fun d m =>
  match m.idxOf? r with
  | some i => .ok ([.get i], m)
  | none => ((emit (head ++ [.memoize])).andThen w) d (m ++ [r])

/-- A key, with `save`. -/
def saveKey : Key → Writer
  | .int n => emit [.int n]
  | .str s => memoized (.key s) [.str s] (emit [])

/-- `a <= b` for keys of the same type. -/
def Key.le : Key → Key → Bool
  | .str a, .str b => decide (a ≤ b)
  | .int a, .int b => decide (a ≤ b)
  | .str _, .int _ => false
  | .int _, .str _ => true

/-- Insertion into a sorted list of entries. -/
def insert {α : Type} (p : Key × α) : List (Key × α) → List (Key × α)
  | [] => [p]
  | q :: l => if Key.le p.1 q.1 then p :: q :: l else q :: insert p l

def sort {α : Type} : List (Key × α) → List (Key × α)
  | [] => []
  | p :: l => insert p (sort l)

def Key.isStr : Key → Bool
  | .str _ => true
  | .int _ => false

/-- `sorted(items)` of (key, value) pairs with distinct keys: by the keys; `TypeError` if there are keys of both
types. -/
def sorted {α : Type} (items : List (Key × α)) : Except Err (List (Key × α)) :=
  if items.any (·.1.isStr) && items.any (fun p => !p.1.isStr) then .error .typeError else .ok (sort items)

/-- `_batch_setitems` of `pickle._Pickler`, unpatched: the entries in the order given. -/
def setItems (items : List (Key × Writer)) : Writer :=
  if items.isEmpty then emit []
  else (emit [.mark]).andThen ((writeAll (items.map fun p => (saveKey p.1).andThen p.2)).andThen (emit [.setItems]))

/-- The `_batch_setitems` that `pickle._Pickler` has after it was patched `layers` times
(dynamic.py:223-228): each patch keeps the previous function and calls it with the sorted entries, one stack frame
deeper. `limit` is the recursion limit. -/
def batchSetItems (limit : Nat) : (layers : Nat) → List (Key × Writer) → Writer
  | 0, items => setItems items
  | n + 1, items => fun d m =>
    if d ≥ limit then .error .recursionError
    else
      match sorted items with
      | .error e => .error e
      | .ok l => batchSetItems limit n l (d + 1) m

/-- `save_dict_sorted` (dynamic.py:230-238): the patched `save_dict`; the original one does the same with the
`_batch_setitems` there is. -/
def saveDict (limit layers oid : Nat) (items : List (Key × Writer)) : Writer :=
  memoized (.obj oid) [.emptyDict] (batchSetItems limit layers items)

mutual
/-- `save` of `pickle._Pickler`. -/
def save (limit layers : Nat) : Obj → Writer
  | .int n => emit [.int n]
  | .str oid s => memoized (.obj oid) [.str s] (emit [])
  | .list oid xs => memoized (.obj oid) [.emptyList]
      ((emit [.mark]).andThen ((writeAll (saveList limit layers xs)).andThen (emit [.appends])))
  | .set oid xs => memoized (.obj oid) [.emptySet]
      ((emit [.mark]).andThen ((writeAll (saveList limit layers xs)).andThen (emit [.addItems])))
  | .dict oid kvs => saveDict limit layers oid (saveKvs limit layers kvs)
def saveList (limit layers : Nat) : List Obj → List Writer
  | [] => []
  | x :: xs => save limit layers x :: saveList limit layers xs
def saveKvs (limit layers : Nat) : List (Key × Obj) → List (Key × Writer)
  | [] => []
  | (k, x) :: kvs => (k, save limit layers x) :: saveKvs limit layers kvs
end

/-- The bytes: the opcodes of the object, from an empty memo. -/
def dumps (limit layers depth : Nat) (o : Obj) : Except Err (List Op) :=
  (save limit layers o depth []).map (·.1)

/-- The pickler class that the name `pickle.Pickler` refers to. -/
inductive PicklerClass
  /-- the one written in C -/
  | c
  /-- `pickle._Pickler` -/
  | python
  deriving DecidableEq, Repr

/-- The state of the `pickle` module: what `pickle.Pickler` is, and how often the methods of `pickle._Pickler` have been
replaced. -/
structure Module where
  pickler : PicklerClass
  layers : Nat

/-- `serialize_provider` (dynamic.py:214-247) on the data of the provider. `base64` is left out. -/
def serializeProvider (limit depth : Nat) (m : Module) (provider : Obj) : Except Err (List Op) × Module :=
  let old := m.pickler
  let m1 : Module := { pickler := .python, layers := m.layers + 1 }
  (dumps limit m1.layers depth provider, { m1 with pickler := old })

/-- Several providers are serialised, one for each dynamic resource of the program. -/
def serializeAll (limit depth : Nat) (m : Module) : List Obj → List (Except Err (List Op)) × Module
  | [] => ([], m)
  | p :: ps =>
    let (r, m1) := serializeProvider limit depth m p
    let (rs, m2) := serializeAll limit depth m1 ps
    (r :: rs, m2)

end Pulumi.Dynamic.Pickle
