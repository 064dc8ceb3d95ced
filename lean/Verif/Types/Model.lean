import Verif.Wire.Model
import Verif.Types.Unwrap

/-!
# Input types, output types and the names of resource classes

Models `_types.py:299-688` (the decorators `input_type`, `output_type` and `getter`, and `get` and `set`), `760-947` (tables
of names and types) and `1025-1137` (the generated `__init__`).

Simplified: `V` are the values of properties, about which nothing is known but whether they are `None`.  A class is the
list of the class dicts in its method resolution order, without `dict` and `object`; only attributes, properties,
annotations, `__init__` and `_translate_property` are kept of each.  Python's `property` objects are compared by what
they do.  Whether a function is empty (`_utils.is_empty_function`) is given with it.
-/

namespace Pulumi.Types

open Pulumi.Wire (setKey)

/-- Values: `None`, a value, or an object that the program did not mean as a value (a `property` or `_Property` object
of the class). -/
inductive Val (V : Type) where
  | none
  | val (v : V)
  | object (name : String)
  deriving DecidableEq

/-- `v is None` -/
def Val.isNone {V : Type} : Val V → Bool
  | .none => true
  | _ => false

/-- The entries of a dict. -/
abbrev Store (V : Type) := List (String × Val V)

/-- An instance: what it holds as a dict, and its `__dict__`. -/
structure Inst (V : Type) where
  items : Store V
  fields : Store V

/-- A default: `MISSING` or a value. -/
inductive Dflt (V : Type) where
  | missing
  | given (v : Val V)

/-- The function of a getter: `get(self, name)`, or other code. -/
inductive Getter (V : Type) where
  | stored (name : String)
  | own (f : Inst V → Val V)

/-- The function of a setter: there is none, an empty one, `set(self, name, value)`, or other code. -/
inductive Setter (V : Type) where
  | absent
  | empty
  | stored (name : String)
  | own (f : Inst V → Val V → Inst V)

/-- A `property` object. `pulumiName` is the mark that `getter` leaves on the function, `hint` its return annotation. -/
structure PyProp (V : Type) where
  pulumiName : Option String
  hint : Option Ty
  fget : Getter V
  fset : Setter V

/-- Attributes of a class: a `property`, what `pulumi.property(name, default=..)` returned, or anything else. -/
inductive Attr (V : Type) where
  | prop (p : PyProp V)
  | marker (name : String) (dflt : Dflt V)
  | value (v : Val V)

/-- Where a line of an `__init__` stores an argument: in itself under a name, under
`__self__._translate_property(name)`, or by `pulumi.set(self, name, ..)`. -/
inductive Target where
  | own (key : String)
  | translated (pulumiName : String)
  | set (name : String)

/-- A line of an `__init__`: stores an argument, if `guarded` only if it is not `None`. -/
structure Stmt where
  param : String
  guarded : Bool
  target : Target

/-- An `__init__` with keyword-only parameters. -/
structure Init (V : Type) where
  params : List (String × Dflt V)
  body : List Stmt

/-- `cls.__dict__` -/
structure ClassDict (V : Type) where
  attrs : List (String × Attr V) := []
  annotations : List (String × Ty) := []
  init : Option (Init V) := none
  /-- `_pulumi_input_type` -/
  isInput : Bool := false
  /-- `_pulumi_output_type` -/
  isOutput : Bool := false
  /-- `_translate_property`; it does not look at the instance -/
  translate : Option (String → String) := none
  /-- `_pulumi_python_to_pulumi_table` -/
  table : Option (List (String × String)) := none

/-- A class: its own dict, those of its bases in method resolution order, and whether it is a subclass of `dict`. -/
structure Class (V : Type) where
  own : ClassDict V
  bases : List (ClassDict V) := []
  isDict : Bool := false

variable {V : Type}

/-- `cls.__mro__` -/
def Class.mro (c : Class V) : List (ClassDict V) := c.own :: c.bases

/-- `getattr(cls, name)` -/
def Class.findAttr (c : Class V) (name : String) : Option (Attr V) := c.mro.findSome? fun d => d.attrs.lookup name

/-- `is_input_type` (_types.py:300-301) -/
def Class.isInputType (c : Class V) : Bool := c.mro.any (·.isInput)

/-- `is_output_type` (_types.py:304-305) -/
def Class.isOutputType (c : Class V) : Bool := c.mro.any (·.isOutput)

/-- `getattr(cls, "_translate_property")` -/
def Class.translate (c : Class V) : Option (String → String) := c.mro.findSome? (·.translate)

/-- `getattr(cls, "_pulumi_python_to_pulumi_table")` -/
def Class.table (c : Class V) : Option (List (String × String)) := c.mro.findSome? (·.table)

/-- A `_Property` (_types.py:318-331), with the attribute it belongs to. -/
structure Prop_ (V : Type) where
  py : String
  name : String
  dflt : Dflt V
  ty : Ty

/-- `get_property` (_types.py:355-363): the default is whatever the attribute of that name is. -/
def getProperty (c : Class V) (a : String × Ty) : Prop_ V :=
  match c.findAttr a.1 with
  | some (.marker n d) => { py := a.1, name := n, dflt := d, ty := a.2 }
  | some (.prop _) => { py := a.1, name := a.1, dflt := .given (.object a.1), ty := a.2 }
  | some (.value v) => { py := a.1, name := a.1, dflt := .given v, ty := a.2 }
  | none => { py := a.1, name := a.1, dflt := .missing, ty := a.2 }

/-- `_properties_from_annotations` (_types.py:346-367): only the annotations of the class itself. -/
def propertiesFromAnnotations (c : Class V) : List (Prop_ V) := c.own.annotations.map (getProperty c)

/-- `isinstance(getattr(cls, name, None), _Property)` -/
def isMarker (c : Class V) (name : String) : Bool :=
  match c.findAttr name with
  | some (.marker _ _) => true
  | _ => false

/-- `delattr(cls, name)`: `AttributeError` if the class itself does not have the attribute. -/
def delAttr (c : Class V) (name : String) : Except Err (Class V) :=
  if (c.own.attrs.lookup name).isSome then
    .ok { c with own := { c.own with attrs := c.own.attrs.filter fun a => a.1 != name } }
  else .error .attributeError

/-- The cleaning up of class attributes (_types.py:377-382). -/
def cleanUp (c : Class V) : List String → Except Err (Class V)
  | [] => .ok c
  | n :: ns =>
    if isMarker c n then
      match delAttr c n with
      | .ok c' => cleanUp c' ns
      | .error e => .error e
    else cleanUp c ns

/-- `setattr(cls, name, prop)` -/
def Class.setAttr (c : Class V) (name : String) (a : Attr V) : Class V :=
  { c with own := { c.own with attrs := setKey c.own.attrs name a } }

/-- `_create_py_property` (_types.py:423-444) -/
def createPyProperty (p : Prop_ V) (setter : Bool) : PyProp V :=
  { pulumiName := some p.name, hint := some p.ty, fget := .stored p.py, fset := if setter then .stored p.py else .absent }

/-- `prop.default is not MISSING` -/
def Dflt.has : Dflt V → Bool
  | .missing => false
  | .given _ => true

/-- `prop.default is None` -/
def Dflt.isNone : Dflt V → Bool
  | .given .none => true
  | _ => false

/-- The check of the order of properties in `_init_fn` (_types.py:1100-1107). -/
def defaultsLast (seen : Bool) : List (Prop_ V) → Bool
  | [] => true
  | p :: ps => if p.dflt.has then defaultsLast true ps else !seen && defaultsLast seen ps

/-- `_property_init` (_types.py:1045-1077) -/
def propertyInit (translated : Bool) (p : Prop_ V) : Stmt :=
  { param := p.py, guarded := p.dflt.isNone, target := if translated then .translated p.name else .own p.py }

/-- `_init_fn` (_types.py:1094-1137) -/
def initFn (ps : List (Prop_ V)) (translated : Bool) : Except Err (Init V) :=
  if defaultsLast false ps then
    .ok { params := ps.map fun p => (p.py, p.dflt), body := ps.map (propertyInit translated) }
  else .error .typeError

/-- `_process_class` (_types.py:370-420): the generated `__init__`, if the class itself has none. -/
def addInit (c : Class V) (ps : List (Prop_ V)) (isInput : Bool) : Except Err (Class V) :=
  match c.own.init with
  | some _ => .ok c
  | none =>
    match initFn ps (!isInput && c.translate.isSome) with
    | .ok i => .ok { c with own := { c.own with init := some i } }
    | .error e => .error e

/-- `setattr(cls, signifier_attr, True)` -/
def mark (c : Class V) (isInput : Bool) : Class V :=
  { c with own := { c.own with isInput := c.own.isInput || isInput, isOutput := c.own.isOutput || !isInput } }

/-- `_process_class` (_types.py:370-420). The setters are created for input types. -/
def processClass (c : Class V) (isInput : Bool) : Except Err (Class V) :=
  let ps := propertiesFromAnnotations c
  match cleanUp c (ps.map (·.py)) with
  | .error e => .error e
  | .ok c1 => addInit (ps.foldl (fun c p => c.setAttr p.py (.prop (createPyProperty p isInput))) (mark c1 isInput)) ps isInput

/-- The marked properties of a class dict. -/
def dictProperties (d : ClassDict V) : List (String × String × PyProp V) :=
  d.attrs.filterMap fun a =>
    match a.2 with
    | .prop p => p.pulumiName.map fun n => (a.1, n, p)
    | _ => none

/-- `_py_properties` (_types.py:447-454) -/
def Class.pyProperties (c : Class V) : List (String × String × PyProp V) := c.mro.reverse.flatMap dictProperties

/-- _types.py:479-486, for one property. -/
def fillSetter (c : Class V) (x : String × String × PyProp V) : Class V :=
  match x.2.2.fset with
  | .empty => c.setAttr x.1 (.prop { x.2.2 with fset := .stored x.1 })
  | _ => c

/-- The loop (_types.py:479-486) goes over the bases first; what it sets, it sets on the class itself, whose properties
it goes over at the end. -/
def fillSetters (c : Class V) : Class V :=
  let c1 := (c.bases.reverse.flatMap dictProperties).foldl fillSetter c
  (dictProperties c1.own).foldl fillSetter c1

/-- `input_type` (_types.py:457-487) -/
def inputType (c : Class V) : Except Err (Class V) :=
  if c.isInputType || c.isOutputType then .error .assertion
  else (processClass c true).map fillSetters

/-- The table of names that `output_type` makes (_types.py:564-570). -/
def nameTable (c : Class V) : Option (List (String × String)) :=
  let t := (c.pyProperties.filter fun x => x.1 != x.2.1).foldl (fun t x => setKey t x.1 x.2.1) []
  if t.isEmpty then none else some t

/-- The end of `output_type` (_types.py:557-570). -/
def addTable (c : Class V) : Class V :=
  if c.translate.isSome then
    match nameTable c with
    | some t => { c with own := { c.own with table := some t } }
    | none => c
  else c

/-- `output_type` (_types.py:537-572) -/
def outputType (c : Class V) : Except Err (Class V) :=
  if c.isInputType || c.isOutputType then .error .assertion
  else (processClass c false).map addTable

/-- `getter` (_types.py:584-614) as a decorator of a function of the given name, under `@property`: an empty function is
replaced. `body` is `none` for an empty function. -/
def getter (fn : String) (name : Option String) (hint : Option Ty) (body : Option (Inst V → Val V)) : PyProp V :=
  { pulumiName := some (name.getD fn), hint := hint
    fget := match body with
      | none => .stored fn
      | some f => .own f
    fset := .absent }

/-! ## Instances -/

/-- `names.get(k) or k` -/
def nameOr (names : List (String × String)) (k : String) : String :=
  match names.lookup k with
  | some n => if n = "" then k else n
  | none => k

/-- `_translate_name` (_types.py:617-630) -/
def Class.translateName (c : Class V) (name : String) : String :=
  if c.isOutputType then
    match c.translate with
    | some f => f (nameOr (c.table.getD []) name)
    | none => name
  else name

/-- What `get` reads from. -/
def Class.store (c : Class V) (i : Inst V) : Store V := if c.isDict then i.items else i.fields

/-- `self[name] = value` or `self.__dict__[name] = value`. -/
def Class.put (c : Class V) (i : Inst V) (name : String) (v : Val V) : Inst V :=
  if c.isDict then { i with items := setKey i.items name v } else { i with fields := setKey i.fields name v }

/-- `get` (_types.py:633-662), for instances that are not resources. -/
def Class.get (c : Class V) (i : Inst V) (name : String) : Except Err (Val V) :=
  if name = "" then .error .typeError
  else if c.isInputType || c.isOutputType then .ok (((c.store i).lookup (c.translateName name)).getD .none)
  else .error .assertion

/-- `set` (_types.py:665-688) -/
def Class.set (c : Class V) (i : Inst V) (name : String) (v : Val V) : Except Err (Inst V) :=
  if name = "" then .error .typeError
  else if c.isInputType || c.isOutputType then .ok (c.put i (c.translateName name) v)
  else .error .assertion

/-- Calling a getter. -/
def Class.call (c : Class V) (i : Inst V) : Getter V → Except Err (Val V)
  | .stored n => c.get i n
  | .own f => .ok (f i)

/-- `obj.name`: a property of the class comes first, then `__dict__`, then other attributes of the class. -/
def Class.read (c : Class V) (i : Inst V) (name : String) : Except Err (Val V) :=
  match c.findAttr name with
  | some (.prop p) => c.call i p.fget
  | a =>
    match i.fields.lookup name, a with
    | some v, _ => .ok v
    | none, some (.value v) => .ok v
    | none, some _ => .ok (.object name)
    | none, none => .error .attributeError

/-- `obj.name = value` -/
def Class.assign (c : Class V) (i : Inst V) (name : String) (v : Val V) : Except Err (Inst V) :=
  match c.findAttr name with
  | some (.prop p) =>
    match p.fset with
    | .absent => .error .attributeError
    | .empty => .ok i
    | .stored n => c.set i n v
    | .own f => .ok (f i v)
  | _ => .ok { i with fields := setKey i.fields name v }

/-- The argument that a parameter is bound to. -/
def bindParam (kwargs : Store V) (p : String × Dflt V) : Except Err (String × Val V) :=
  match kwargs.lookup p.1, p.2 with
  | some v, _ => .ok (p.1, v)
  | none, .given v => .ok (p.1, v)
  | none, .missing => .error .typeError

def bindParams (kwargs : Store V) : List (String × Dflt V) → Except Err (Store V)
  | [] => .ok []
  | p :: ps => do
    let a ← bindParam kwargs p
    let as ← bindParams kwargs ps
    return a :: as

/-- Storing an argument. -/
def Class.storeArg (c : Class V) (i : Inst V) (v : Val V) : Target → Except Err (Inst V)
  | .own k => .ok (c.put i k v)
  | .translated n =>
    match c.translate with
    | some f => .ok (c.put i (f n) v)
    | none => .error .attributeError
  | .set n => c.set i n v

/-- A line of the body. -/
def Class.exec (c : Class V) (args : Store V) (i : Inst V) (s : Stmt) : Except Err (Inst V) :=
  match args.lookup s.param with
  | none => .error .nameError
  | some v => if s.guarded && v.isNone then .ok i else c.storeArg i v s.target

def Class.execAll (c : Class V) (args : Store V) (i : Inst V) : List Stmt → Except Err (Inst V)
  | [] => .ok i
  | s :: ss => do
    let j ← c.exec args i s
    c.execAll args j ss

/-- `cls.__init__` -/
def Class.init (c : Class V) : Option (Init V) := c.mro.findSome? (·.init)

/-- `cls(**kwargs)`: unknown and missing arguments raise `TypeError`. Without an `__init__`, `dict` takes the arguments as
its entries and `object` takes none. -/
def Class.construct (c : Class V) (kwargs : Store V) : Except Err (Inst V) :=
  match c.init with
  | none =>
    if c.isDict then .ok { items := kwargs, fields := [] }
    else if kwargs.isEmpty then .ok { items := [], fields := [] } else .error .typeError
  | some init =>
    if kwargs.all (fun a => (init.params.lookup a.1).isSome) then do
      let args ← bindParams kwargs init.params
      c.execAll args { items := [], fields := [] } init.body
    else .error .typeError

/-- The entries of `input_type_to_dict` (_types.py:509-525). -/
def Class.entries (c : Class V) (i : Inst V) : List (String × String × PyProp V) → Store V → Except Err (Store V)
  | [], acc => .ok acc
  | x :: xs, acc => do
    let v ← c.call i x.2.2.fget
    c.entries i xs (if v.isNone then acc else setKey acc x.2.1 v)

/-- `input_type_to_dict` (_types.py:509-525) -/
def Class.toDict (c : Class V) (i : Inst V) : Except Err (Store V) :=
  if c.isInputType then c.entries i c.pyProperties [] else .error .assertion

/-- The arguments that `output_type_from_dict` makes (_types.py:578-580). -/
def outputArgs (ps : List (String × String × PyProp V)) (output : Store V) : Store V :=
  ps.foldl (fun a x => setKey a x.1 ((output.lookup x.2.1).getD .none)) []

/-- `output_type_from_dict` (_types.py:575-581) -/
def Class.fromDict (c : Class V) (output : Store V) : Except Err (Inst V) :=
  if c.isOutputType then c.construct (outputArgs c.pyProperties output) else .error .assertion

/-- The generated `__eq__` (_types.py:405-420) on instances of the same class: dicts are equal if they have the same
entries, in any order. -/
def Class.eq (c : Class V) (a b : Inst V) : Prop := ∀ k, (c.store a).lookup k = (c.store b).lookup k

/-! ## Tables of names and types -/

/-- A dict from pairs. -/
def dictOf {α : Type} (kvs : List (String × α)) : List (String × α) := kvs.foldl (fun d kv => setKey d kv.1 kv.2) []

/-- `{**a, **b}` -/
def merge {α : Type} (a b : List (String × α)) : List (String × α) := b.foldl (fun d kv => setKey d kv.1 kv.2) a

/-- `_py_to_pulumi_names_from_py_properties` (_types.py:823-826), also `input_type_py_to_pulumi_names` (490-499). -/
def Class.pyToPulumi (c : Class V) : List (String × String) := dictOf (c.pyProperties.map fun x => (x.1, x.2.1))

/-- `_pulumi_to_py_names_from_py_properties` (_types.py:817-820) -/
def Class.pulumiToPy (c : Class V) : List (String × String) := dictOf (c.pyProperties.map fun x => (x.2.1, x.1))

/-- `_names_from_annotations` (_types.py:876-886): only the annotations of the class itself. -/
def Class.annotatedNames (c : Class V) : List (String × String) :=
  c.own.annotations.map fun a =>
    (a.1, match c.findAttr a.1 with
      | some (.marker n _) => n
      | _ => a.1)

/-- `resource_py_to_pulumi_names` (_types.py:936-947) -/
def Class.resourcePyToPulumi (c : Class V) : List (String × String) := merge (dictOf c.annotatedNames) c.pyToPulumi

/-- `resource_pulumi_to_py_names` (_types.py:922-933) -/
def Class.resourcePulumiToPy (c : Class V) : List (String × String) :=
  merge (dictOf (c.annotatedNames.map fun x => (x.2, x.1))) c.pulumiToPy

/-- One entry of a table of types: the annotation is unwrapped; a bare `Output` is left out (_types.py:802-814, 866-872). -/
def typeEntry (t : List (String × Ty)) (name : String) (hint : Option Ty) : Except Err (List (String × Ty)) :=
  match hint with
  | none => .ok t
  | some h => do
    let u ← unwrapType h
    return match u with
      | .outputCls => t
      | u => setKey t name u

def typeEntries (t : List (String × Ty)) : List (String × Option Ty) → Except Err (List (String × Ty))
  | [] => .ok t
  | x :: xs => do
    let t' ← typeEntry t x.1 x.2
    typeEntries t' xs

/-- `_types_from_py_properties` (_types.py:769-814) -/
def Class.typesFromProperties (c : Class V) : Except Err (List (String × Ty)) :=
  typeEntries [] (c.pyProperties.map fun x => (x.2.1, x.2.2.hint))

/-- `_types_from_annotations` (_types.py:829-873) -/
def Class.typesFromAnnotations (c : Class V) : Except Err (List (String × Ty)) :=
  typeEntries [] ((propertiesFromAnnotations c).map fun p => (p.name, some p.ty))

/-- `resource_types` (_types.py:908-919) -/
def Class.resourceTypes (c : Class V) : Except Err (List (String × Ty)) := do
  let a ← c.typesFromAnnotations
  let p ← c.typesFromProperties
  return merge a p

/-- The names that `ignore_changes` and `replace_on_changes` are sent with, for a resource with an arguments class
(runtime/resource.py:296-311, 332-350). -/
def Class.inputNames (c : Class V) (names : List String) : List String := names.map (nameOr c.pyToPulumi)

/-- The names that `additional_secret_outputs` is sent with (runtime/resource.py:314-330). -/
def Class.outputNames (c : Class V) (names : List String) : List String := names.map (nameOr c.resourcePyToPulumi)

/-- The attributes of a resource that hold its outputs: `transfer_properties` (runtime/rpc.py:724-783) assigns to `__dict__`
under the names of the arguments, `resolve_outputs` (runtime/rpc.py:1012-1037) finds them by
`pulumi_to_py_names.get(k) or k`, a later key taking the place of an earlier one that has the same translation. The
resource was given `props`; the engine's values are `outputs`. Simplified: outputs hold their values; values of arguments
do not stand in for outputs that the engine left out. -/
def Class.resolve (c : Class V) (props : List String) (outputs : Store V) : Inst V :=
  { items := []
    fields := (props.filter fun n => n != "id" && n != "urn").map fun n =>
      (n, ((dictOf (outputs.map fun kv => (nameOr c.resourcePulumiToPy kv.1, kv.2))).lookup n).getD .none) }

/-- `get` (_types.py:633-662) and attribute access, for a resource. -/
def Class.readResource (c : Class V) (i : Inst V) (name : String) : Except Err (Val V) :=
  match c.findAttr name with
  | some (.prop p) =>
    match p.fget with
    | .stored n => if n = "" then .error .typeError else .ok ((i.fields.lookup n).getD .none)
    | .own f => .ok (f i)
  | a =>
    match i.fields.lookup name, a with
    | some v, _ => .ok v
    | none, some (.value v) => .ok v
    | none, some _ => .ok (.object name)
    | none, none => .error .attributeError

end Pulumi.Types
