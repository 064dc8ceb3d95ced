/-!
# Resource options and how `ResourceOptions.merge` combines them

`resource.py:491-744`; paths are relative to `/repo/sdk/python/lib/pulumi/`. Because the property to be shown is also
about which objects are changed, option bags, lists, tuples and dicts live in a heap and the code is written with
allocations and assignments.

Simplified: the check of `depends_on` in the constructor (574-583) is left out, warnings and log messages have no effect,
and an Output or awaitable is represented by what it resolves to.
-/
namespace Pulumi.Options

/-- Python values. `obj n` is an object that is never changed here: a resource, a provider, an alias, a function, a
`CustomTimeouts`. `ref a` is a list, a tuple, a dict or an option bag in the heap. `out v` is an Output or an awaitable
that resolves to `v`. -/
inductive Val where
  | none
  | bool (b : Bool)
  | str (s : String)
  | obj (n : Nat)
  | ref (a : Nat)
  | out (v : Val)
deriving DecidableEq, Repr

/-- The attributes of a `ResourceOptions` (`resource.py:491-572`). `mergeSelf` is the object that the instance attribute
`merge` is bound to (556). -/
structure Opts where
  parent : Val := .none
  protect : Val := .none
  provider : Val := .none
  providers : Val := .none
  deleteBeforeReplace : Val := .none
  ignoreChanges : Val := .none
  version : Val := .none
  pluginDownloadUrl : Val := .none
  aliases : Val := .none
  additionalSecretOutputs : Val := .none
  customTimeouts : Val := .none
  id : Val := .none
  import_ : Val := .none
  transformations : Val := .none
  urn : Val := .none
  replaceOnChanges : Val := .none
  dependsOn : Val := .none
  retainOnDelete : Val := .none
  mergeSelf : Nat
deriving DecidableEq, Repr

/-- What is at an address. -/
inductive Cell where
  | list (xs : List Val)
  | tuple (xs : List Val)
  | dict (kvs : List (String × Val))
  | opts (o : Opts)
deriving DecidableEq, Repr

/-- Addresses are positions. -/
abbrev Heap := List Cell

inductive Err where
  | type
  | attribute
deriving DecidableEq, Repr

/-- Code that allocates, assigns and may raise. -/
abbrev H (α : Type) := Heap → Except Err α × Heap

def H.bind {α β : Type} (m : H α) (f : α → H β) : H β := fun h =>
  match m h with
  | (.ok a, h') => f a h'
  | (.error e, h') => (.error e, h')

instance : Monad H where
  pure a := fun h => (.ok a, h)
  bind := H.bind

def raise {α : Type} (e : Err) : H α := fun h => (.error e, h)

def alloc (c : Cell) : H Nat := fun h => (.ok h.length, h ++ [c])

def load (a : Nat) : H (Option Cell) := fun h => (.ok h[a]?, h)

/-- Read an option bag. -/
def loadOpts (a : Nat) : H Opts := fun h =>
  match h[a]? with
  | some (.opts o) => (.ok o, h)
  | _ => (.error .attribute, h)

/-- Assign to attributes of an option bag. -/
def assign (a : Nat) (f : Opts → Opts) : H Unit := fun h =>
  match h[a]? with
  | some (.opts o) => (.ok (), h.set a (.opts (f o)))
  | _ => (.error .attribute, h)

/-- `ResourceOptions()` -/
def newOptions : H Nat := fun h => (.ok h.length, h ++ [.opts { mergeSelf := h.length }])

/-- `copy.copy(opts)`: a new object with the same attributes, the instance attribute `merge` among them. -/
def copyOptions (a : Nat) : H Nat := do
  let o ← loadOpts a
  alloc (.opts o)

/-- Lines 637-644: `None` stands for an empty bag, anything but a `ResourceOptions` is rejected. -/
def asOptions : Val → H Nat
  | .none => newOptions
  | .ref a => fun h =>
    match h[a]? with
    | some (.opts _) => (.ok a, h)
    | _ => (.error .type, h)
  | _ => raise .type

/-- `p.package`; only providers have it. -/
def packageOf (pkg : Nat → Option String) : Val → H String
  | .obj n =>
    match pkg n with
    | some s => pure s
    | none => raise .attribute
  | _ => raise .attribute

/-- The loop over the mapping (653-657), which looks at the package of every provider. -/
def checkKeys (pkg : Nat → Option String) : List (String × Val) → H Unit
  | [] => pure ()
  | (_, p) :: rest => do
    let _ ← packageOf pkg p
    checkKeys pkg rest

/-- `expand_providers` (650-659). -/
def expandProviders (pkg : Nat → Option String) (v : Val) : H Val :=
  match v with
  | .ref a => do
    match ← load a with
    | some (.dict kvs) => do
      checkKeys pkg kvs
      return .ref (← alloc (.list (kvs.map (·.2))))
    | _ => return v
  | v => return v

/-- `dest + source` -/
def addLists (d s : Val) : H Val :=
  match d, s with
  | .ref a, .ref b => do
    match ← load a, ← load b with
    | some (.list xs), some (.list ys) => return .ref (← alloc (.list (xs ++ ys)))
    | some (.tuple xs), some (.tuple ys) => return .ref (← alloc (.tuple (xs ++ ys)))
    | _, _ => raise .type
  | _, _ => raise .type

/-- `_merge_lists` (737-744). -/
def mergeLists (d s : Val) : H Val :=
  if d = .none then return s
  else if s = .none then return d
  else addLists d s

/-- `lambda x: list(x) if isinstance(x, Sequence) else [x]` (602); a string is not given here. -/
def toList (v : Val) : H Val :=
  match v with
  | .ref a => do
    match ← load a with
    | some (.list xs) => return .ref (← alloc (.list xs))
    | some (.tuple xs) => return .ref (← alloc (.list xs))
    | _ => return .ref (← alloc (.list [v]))
  | v => return .ref (← alloc (.list [v]))

/-- `_map_input` (`output.py:581-595`). -/
def mapInput (f : Val → H Val) (v : Val) : H Val :=
  match v with
  | .out v => do return .out (← f v)
  | v => f v

/-- `_map2_input` (`output.py:598-626`). -/
def map2Input (f : Val → Val → H Val) (v w : Val) : H Val :=
  match v, w with
  | .out v, .out w => do return .out (← f v w)
  | .out v, w => do return .out (← f v w)
  | v, .out w => do return .out (← f v w)
  | v, w => f v w

/-- `_depends_on_list` (595-603). -/
def dependsOnList (o : Opts) : H Val :=
  if o.dependsOn = .none then do return .ref (← alloc (.list []))
  else mapInput toList o.dependsOn

/-- `x if y is None else y` -/
def pick (d s : Val) : Val := if s = .none then d else s

/-- `d[k] = v` -/
def setKey : List (String × Val) → String → Val → List (String × Val)
  | [], k, v => [(k, v)]
  | (k', v') :: rest, k, v => if k' = k then (k', v) :: rest else (k', v') :: setKey rest k v

/-- `for prov in providers: d[prov.package] = prov` (728-730). -/
def byPackage (pkg : Nat → Option String) (acc : List (String × Val)) : List Val → H (List (String × Val))
  | [] => pure acc
  | p :: rest => do
    let k ← packageOf pkg p
    byPackage pkg (setKey acc k p) rest

/-- `_collapse_providers` (715-734). A tuple falls through both branches of the inner `if`; a dict cannot come here from
`merge`. -/
def collapseProviders (pkg : Nat → Option String) (a : Nat) : H Unit := do
  let o ← loadOpts a
  match o.providers with
  | .ref p => do
    match ← load p with
    | some (.list xs) =>
      if xs = [] then assign a fun o => { o with providers := .none }
      else do
        let kvs ← byPackage pkg [] xs
        let d ← alloc (.dict kvs)
        assign a fun o => { o with providers := .ref d }
    | some (.tuple xs) =>
      if xs = [] then assign a fun o => { o with providers := .none }
      else do
        let d ← alloc (.dict [])
        assign a fun o => { o with providers := .ref d }
    | _ => raise .type
  | .none => pure ()
  | _ => raise .type

/-- Lines 647-683: the collections. -/
def mergeCollections (pkg : Nat → Option String) (dest source : Nat) : H Unit := do
  let d ← loadOpts dest
  let s ← loadOpts source
  let dp ← expandProviders pkg d.providers
  let sp ← expandProviders pkg s.providers
  let providers ← mergeLists dp sp
  assign dest fun o => { o with providers := providers }
  let d1 ← dependsOnList d
  let s1 ← dependsOnList s
  let dependsOn ← map2Input addLists d1 s1
  assign dest fun o => { o with dependsOn := dependsOn }
  let ignoreChanges ← mergeLists d.ignoreChanges s.ignoreChanges
  assign dest fun o => { o with ignoreChanges := ignoreChanges }
  let replaceOnChanges ← mergeLists d.replaceOnChanges s.replaceOnChanges
  assign dest fun o => { o with replaceOnChanges := replaceOnChanges }
  let aliases ← mergeLists d.aliases s.aliases
  assign dest fun o => { o with aliases := aliases }
  let additionalSecretOutputs ← mergeLists d.additionalSecretOutputs s.additionalSecretOutputs
  assign dest fun o => { o with additionalSecretOutputs := additionalSecretOutputs }
  let transformations ← mergeLists d.transformations s.transformations
  assign dest fun o => { o with transformations := transformations }

/-- Lines 685-707: the scalars. -/
def mergeScalars (dest source : Nat) : H Unit := do
  let s ← loadOpts source
  assign dest fun d => { d with
    parent := pick d.parent s.parent
    protect := pick d.protect s.protect
    deleteBeforeReplace := pick d.deleteBeforeReplace s.deleteBeforeReplace
    version := pick d.version s.version
    pluginDownloadUrl := pick d.pluginDownloadUrl s.pluginDownloadUrl
    customTimeouts := pick d.customTimeouts s.customTimeouts
    id := pick d.id s.id
    import_ := pick d.import_ s.import_
    urn := pick d.urn s.urn
    provider := pick d.provider s.provider
    retainOnDelete := pick d.retainOnDelete s.retainOnDelete }

/-- `ResourceOptions.merge(opts1, opts2)` (606-712). -/
def merge (pkg : Nat → Option String) (opts1 opts2 : Val) : H Nat := do
  let a1 ← asOptions opts1
  let a2 ← asOptions opts2
  let dest ← copyOptions a1
  let source ← copyOptions a2
  mergeCollections pkg dest source
  mergeScalars dest source
  collapseProviders pkg dest
  return dest

/-- `opts1.merge(opts2)`: the instance attribute, a bound method (556, 590-591). -/
def instanceMerge (pkg : Nat → Option String) (opts1 : Nat) (opts2 : Val) : H Nat := do
  let o ← loadOpts opts1
  merge pkg (.ref o.mergeSelf) opts2

end Pulumi.Options
