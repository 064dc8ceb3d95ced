import Verif.Urn.Model
/-!
# Constructing resources

`Resource.__init__` (`resource.py:799-943`), `_get_providers` (945-998), `get_provider` (1038-1054), the part of
`prepare_resource` that chooses providers (`runtime/resource.py:145-172`), `convert_providers` (742-764), `Stack.__init__`
(`runtime/stack.py:136-155`) and `register_stack_transformation` (258-270). Paths are relative to
`/repo/sdk/python/lib/pulumi/`.

A world is the list of the resources constructed so far, the root resource, and what the user's code keeps (`σ`).
Resources are named by their position. Transformations are named by numbers; what they do is an arbitrary function `call`
of their arguments and the user's state.

Simplified: a transformation does not itself construct resources; an object whose constructor raised is not used again;
options that the constructor only passes on are one opaque field; aliases are modelled in `Urn`.
-/
namespace Pulumi.Construct
open Pulumi.Urn (Text splitChar)

/-- A provider resource: its identity and the `package` attribute (`resource.py:1131-1167`). -/
structure Provider where
  id : Nat
  package : Text
deriving DecidableEq, Repr

/-- The `providers` option: absent, a sequence, or a mapping. -/
inductive Providers where
  | none
  | seq (ps : List Provider)
  | map (kvs : List (Text × Provider))
deriving DecidableEq, Repr

/-- The `parent` option: absent, a resource, or some other object. -/
inductive Parent where
  | none
  | res (i : Nat)
  | other
deriving DecidableEq, Repr

/-- The options that the constructor looks at; `rest` is the others. -/
structure Opts where
  parent : Parent := .none
  protect : Option Bool := none
  provider : Option Provider := none
  providers : Providers := .none
  transformations : Option (List Nat) := none
  urn : Option Text := none
  id : Option Text := none
  rest : Nat := 0
deriving DecidableEq, Repr

/-- Python dicts with string keys. -/
abbrev Dict := List (Text × Provider)

/-- `d[k] = v` -/
def Dict.set (d : Dict) (k : Text) (v : Provider) : Dict :=
  match d with
  | [] => [(k, v)]
  | (k', v') :: rest => if k' = k then (k', v) :: rest else (k', v') :: Dict.set rest k v

/-- `{**a, **b}` -/
def Dict.update (a b : Dict) : Dict := b.foldl (fun d p => Dict.set d p.1 p.2) a

/-- What is done with the resource at the end (932-943). -/
inductive Action where
  | get
  | read
  | register
deriving DecidableEq, Repr

/-- The parts of the request to the engine that the constructor determines. -/
structure Request (P : Type) where
  action : Action
  type_ : Text
  name : Text
  props : P
  opts : Opts
  provider : Option Provider
  providers : Dict
deriving Repr

/-- A constructed resource: the attributes `_transformations` (absent for a `DependencyResource`), `_protect`, `_provider`
and `_providers`, and, for the specification only, the constructor's arguments (`type_`, `asked`), the options after the
transformations (`given`), the transformations registered for the stack at the time (`stackAt`) and the request. -/
structure Res (P : Type) where
  transformations : Option (List Nat)
  protect : Bool
  provider : Option Provider
  providers : Dict
  type_ : Text
  custom : Bool
  asked : Opts
  given : Opts
  stackAt : List Nat
  request : Option (Request P)

structure World (P σ : Type) where
  res : List (Res P) := []
  root : Option Nat := none
  user : σ

inductive Err where
  | missingType
  | missingName
  | attribute
  | parentNotResource
  | reparent
  | wrongProvider (a : Action)
  | notCustom
  | secondStack
  | noStack
  | raised (n : Nat)
deriving DecidableEq, Repr

/-- `ResourceTransformationArgs` -/
structure TArgs (P : Type) where
  resource : Nat
  type_ : Text
  name : Text
  props : P
  opts : Opts

/-- What the user's transformations do: raise, return None, or return new properties and options. -/
abbrev Call (P σ : Type) := Nat → TArgs P → σ → Except Nat (Option (P × Opts)) × σ

/-- The loop over the transformations (864-880). -/
def transform {P σ : Type} (call : Call P σ) (self : Nat) (t name : Text) :
    List Nat → P → Opts → σ → Except Err (P × Opts) × σ
  | [], props, opts, s => (.ok (props, opts), s)
  | f :: rest, props, opts, s =>
    match call f ⟨self, t, name, props, opts⟩ s with
    | (.error n, s') => (.error (.raised n), s')
    | (.ok none, s') => transform call self t name rest props opts s'
    | (.ok (some (props', opts')), s') =>
      if opts'.parent ≠ opts.parent then (.error .reparent, s')
      else transform call self t name rest props' opts' s'

/-- `t.split(":")` and the package if there are three components (908-911). -/
def packageOf (t : Text) : Option Text :=
  match splitChar ':' t with
  | [pkg, _, _] => some pkg
  | _ => none

/-- Lines 965-970. -/
def ownProviders : Providers → Dict
  | .none => []
  | .seq ps => ps.foldl (fun d p => Dict.set d p.package p) []
  | .map kvs => Dict.update [] kvs

/-- `get_provider` (1038-1054). -/
def getProvider (providers : Dict) (t : Text) : Option Provider :=
  match packageOf t with
  | none => none
  | some pkg => providers.lookup pkg

/-- `pkg and pkg in d`: the entry of a dict for a package that is not the empty string. -/
def ambient (d : Dict) (pkg : Option Text) : Option Provider :=
  match pkg with
  | none => none
  | some k => if k = [] then none else d.lookup k

/-- Lines 986-992: the `provider` option is added to the mapping under the resource's own package. -/
def addExplicit (d : Dict) (pkg : Option Text) (provider : Option Provider) : Dict :=
  match pkg, provider with
  | some k, some p => if k = [] then d else if (d.lookup k).isSome then d else Dict.set d k p
  | _, _ => d

/-- `_get_providers` (945-998). `inherited` is `self._providers`, which at this point is that of the parent. -/
def getProviders (t : Text) (pkg : Option Text) (opts : Opts) (parentProviders : Option Dict) (inherited : Dict) :
    Option Provider × Dict :=
  let own := ownProviders opts.providers
  let fromParent := parentProviders.bind fun d => getProvider d t
  let provider := (opts.provider.or (ambient own pkg)).or fromParent
  (provider, Dict.update inherited (addExplicit own pkg opts.provider))

/-- Lines 918-924 and 932-938. -/
def actionOf (opts : Opts) : Action :=
  if opts.urn.isSome then .get else if opts.id.isSome then .read else .register

/-- `convert_providers` (`runtime/resource.py:742-764`). -/
def convertProviders (provider : Option Provider) : Providers → Dict
  | ps =>
    match provider with
    | some p => [(p.package, p)]
    | none =>
      match ps with
      | .none => []
      | .map kvs => Dict.update [] kvs
      | .seq ps => ps.foldl (fun d p => Dict.set d p.package p) []

/-- The request: the reference to the provider only for custom resources, the references to all providers only for remote
ones (`runtime/resource.py:145-172`), and neither when an existing resource is looked up by URN (216-296). -/
def request {P : Type} (a : Action) (custom remote : Bool) (t name : Text) (props : P) (opts : Opts) : Request P :=
  { action := a, type_ := t, name := name, props := props, opts := opts
    provider := if a ≠ .get ∧ custom then opts.provider else none
    providers := if a = .register ∧ remote then convertProviders opts.provider opts.providers else [] }

/-- The resource with this number and its `_transformations`. -/
def transformationsOf {P σ : Type} (w : World P σ) (i : Nat) : Except Err (List Nat) :=
  match w.res[i]? with
  | none => .error .attribute
  | some r =>
    match r.transformations with
    | none => .error .attribute
    | some ts => .ok ts

/-- Lines 855-863: the transformations of the parent, or of the root resource when there is no parent. -/
def parentTransformations {P σ : Type} (w : World P σ) : Parent → Except Err (List Nat)
  | .res i => transformationsOf w i
  | .other => .error .attribute
  | .none =>
    match w.root with
    | none => .ok []
    | some i => transformationsOf w i

/-- What the parent option resolves to (890-892). -/
def parentRes {P σ : Type} (w : World P σ) : Parent → Except Err (Option (Res P))
  | .none => .ok none
  | .other => .error .parentNotResource
  | .res i =>
    match w.res[i]? with
    | none => .error .parentNotResource
    | some r => .ok (some r)

/-- The transformations registered for the stack so far. -/
def stackTransformations {P σ : Type} (w : World P σ) : List Nat :=
  match w.root.bind (w.res[·]?) with
  | none => []
  | some r => r.transformations.getD []

/-- `self._providers` before `_get_providers` (884, 905): empty, or that of the parent. -/
def inheritedProviders {P : Type} : Option (Res P) → Dict
  | none => []
  | some p => p.providers

/-- `opts.provider if custom else None` (916). -/
def ifCustom (custom : Bool) (p : Option Provider) : Option Provider := if custom then p else none

/-- Lines 882-943: from the transformed options to the resource. -/
def finish {P σ : Type} (w : World P σ) (t name : Text) (custom remote : Bool) (asked : Opts) (ts : List Nat) (props : P)
    (given : Opts) : Except Err (Res P) :=
  match parentRes w given.parent with
  | .error e => .error e
  | .ok parent =>
    let protect := given.protect.or (parent.map (·.protect))
    let pkg := packageOf t
    let chosen := getProviders t pkg given (parent.map (·.providers)) (inheritedProviders parent)
    let provider := ifCustom custom chosen.1
    let action := actionOf given
    if provider.any (fun p => some p.package ≠ pkg) then .error (.wrongProvider action)
    else if action = .read ∧ ¬ custom then .error .notCustom
    else .ok {
      transformations := some ts, protect := protect.getD false, provider := provider, providers := chosen.2
      type_ := t, custom := custom, asked := asked, given := given, stackAt := stackTransformations w
      request := some (request action custom remote t name props { given with protect := protect, provider := chosen.1 }) }

/-- `Resource.__init__` (799-943). -/
def construct {P σ : Type} (call : Call P σ) (t name : Text) (custom remote : Bool) (props : P) (opts : Opts) (w : World P σ) :
    Except Err Nat × World P σ :=
  if t = [] then (.error .missingType, w)
  else if name = [] then (.error .missingName, w)
  else
    match parentTransformations w opts.parent with
    | .error e => (.error e, w)
    | .ok inherited =>
      let ts := opts.transformations.getD [] ++ inherited
      match transform call w.res.length t name ts props opts w.user with
      | (.error e, s) => (.error e, { w with user := s })
      | (.ok (props', opts'), s) =>
        match finish w t name custom remote opts ts props' opts' with
        | .error e => (.error e, { w with user := s })
        | .ok r => (.ok w.res.length, { w with res := w.res ++ [r], user := s })

/-- The attributes of a `DependencyResource` (822-825): protection and providers are set, nothing else. -/
def dependencyRes {P σ : Type} (w : World P σ) : Res P where
  transformations := none
  protect := false
  provider := none
  providers := []
  type_ := []
  custom := true
  asked := {}
  given := {}
  stackAt := stackTransformations w
  request := none

/-- `DependencyResource(urn)` (1170-1185). -/
def dependency {P σ : Type} (w : World P σ) : Except Err Nat × World P σ :=
  (.ok w.res.length, { w with res := w.res ++ [dependencyRes w] })

/-- `"pulumi:pulumi:Stack"` -/
def stackType : Text := ['p','u','l','u','m','i',':','p','u','l','u','m','i',':','S','t','a','c','k']

/-- `Stack.__init__` (`runtime/stack.py:136-147`). -/
def newStack {P σ : Type} (call : Call P σ) (name : Text) (props : P) (w : World P σ) : Except Err Nat × World P σ :=
  if w.root.isSome then (.error .secondStack, w)
  else
    match construct call stackType name false false props {} w with
    | (.ok i, w') => (.ok i, { w' with root := some i })
    | (.error e, w') => (.error e, w')

/-- `register_stack_transformation` (`runtime/stack.py:258-270`). -/
def registerStackTransformation {P σ : Type} (f : Nat) (w : World P σ) : Except Err Unit × World P σ :=
  match w.root with
  | none => (.error .noStack, w)
  | some i =>
    match w.res[i]? with
    | none => (.error .attribute, w)
    | some r => (.ok (), { w with res := w.res.set i { r with transformations := some (r.transformations.getD [] ++ [f]) } })

end Pulumi.Construct
