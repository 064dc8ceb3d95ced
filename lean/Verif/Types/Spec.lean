import Verif.Types.Model

/-!
# Specification of input types, output types and resource classes
-/

namespace Pulumi.Types

variable {V : Type}

/-- A property as a programmer thinks of it: Python name, Pulumi name, type, default. `plain` says that the short
declaration is `name: T` or `name: T = default` instead of `name: T = pulumi.property("pulumiName", default=..)`. -/
structure Field (V : Type) where
  py : String
  pulumi : String
  ty : Ty
  dflt : Dflt V := .missing
  plain : Bool := false

/-- What is assigned to the name in the short declaration. -/
def Field.assigned (f : Field V) : Option (Attr V) :=
  if f.plain then
    match f.dflt with
    | .missing => none
    | .given v => some (.value v)
  else some (.marker f.pulumi f.dflt)

/-- The two ways to declare a class, see the head of `_types.py`. -/
inductive Form
  | short | verbose

/-- The class body. Short: annotations. Verbose: an `__init__` that calls `pulumi.set` for each argument (only if it is not
`None`, when that is its default), empty getters and, for input types, empty setters. -/
def Form.body (form : Form) (fs : List (Field V)) (input : Bool) (translate : Option (String → String)) : ClassDict V :=
  match form with
  | .short =>
    { annotations := fs.map fun f => (f.py, f.ty)
      attrs := fs.filterMap fun f => f.assigned.map fun a => (f.py, a)
      translate := translate }
  | .verbose =>
    { attrs := fs.map fun f =>
        (f.py, .prop { getter f.py (some f.pulumi) (some f.ty) none with fset := if input then .empty else .absent })
      init := some
        { params := fs.map fun f => (f.py, f.dflt)
          body := fs.map fun f => { param := f.py, guarded := f.dflt.isNone, target := .set f.py } }
      translate := translate }

/-- Properties with names of their own. -/
structure Named (fs : List (Field V)) : Prop where
  py : (fs.map (·.py)).Nodup
  pulumi : (fs.map (·.pulumi)).Nodup
  named : ∀ f ∈ fs, f.py ≠ "" ∧ f.pulumi ≠ ""
  /-- the name is only left out when it is the Python name -/
  plain : ∀ f ∈ fs, f.plain = true → f.pulumi = f.py

/-- A sensible list of properties: those without default come first. -/
structure Good (fs : List (Field V)) : Prop extends Named fs where
  order : fs.Pairwise fun a b => a.dflt.has = true → b.dflt.has = true

/-- A base class that has nothing to do with the properties: no such attributes, and no properties of its own. -/
structure Neutral (fs : List (Field V)) (b : ClassDict V) : Prop where
  attrs : ∀ f ∈ fs, b.attrs.lookup f.py = none
  props : dictProperties b = []
  input : b.isInput = false
  output : b.isOutput = false
  table : b.table = none

/-- The class statement, before it is decorated. -/
def declare (form : Form) (fs : List (Field V)) (input : Bool) (translate : Option (String → String))
    (bases : List (ClassDict V)) (isDict : Bool) : Class V :=
  { own := form.body fs input translate, bases := bases, isDict := isDict }

/-- What a property is given by a call: its argument, or its default. -/
def argOf (kwargs : Store V) (f : Field V) : Val V :=
  match kwargs.lookup f.py, f.dflt with
  | some v, _ => v
  | none, .given v => v
  | none, .missing => .none

/-- The arguments are those of properties, and there is one for each property without default. -/
def Acceptable (fs : List (Field V)) (kwargs : Store V) : Prop :=
  (∀ a ∈ kwargs, ∃ f ∈ fs, f.py = a.1) ∧ ∀ f ∈ fs, f.dflt.has = false → (kwargs.lookup f.py).isSome = true

/-- The dict has exactly the properties that are not `None`, under their Pulumi names. -/
def Sent (d : Store V) (fs : List (Field V)) (val : Field V → Val V) : Prop :=
  ∀ k v, d.lookup k = some v ↔ v ≠ .none ∧ ∃ f ∈ fs, f.pulumi = k ∧ val f = v

/-- A sequence of assignments `obj.name = value`. -/
def Class.assignAll (c : Class V) (i : Inst V) : List (String × Val V) → Except Err (Inst V)
  | [] => .ok i
  | (n, v) :: ops => do
    let j ← c.assign i n v
    c.assignAll j ops

/-- The value last assigned to a name. -/
def lastAssigned (n : String) : List (String × Val V) → Option (Val V)
  | [] => none
  | (m, v) :: ops =>
    match lastAssigned n ops with
    | some w => some w
    | none => if m = n then some v else none

end Pulumi.Types
