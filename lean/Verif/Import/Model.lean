import Verif.Snapshot.IntegritySpec
/-!
# Importing resources

Models `pkg/resource/deploy/import.go`, whose line numbers are given, and of `step.go` what a step of an import does (852-997), a step that keeps a resource (123-142) and one that makes
a provider (223-266). Paths are relative to `/repo/pkg/resource/deploy/`.

What is read off URNs and types, the configuration, the plugins and the schedule are parameters; property maps are texts, as in the model of checkpoints. A previewed import, which saves
nothing, is left out, and so are the migration of old states (C200) and messages.
-/
namespace Pulumi.Import
open Pulumi.Snapshot (State Provider Ref Env)

/-- `ProviderRequest` (providers/provider.go): version, package and where the plugin is from -/
structure Request where
  version : Option String
  pkg : String
  url : String
deriving DecidableEq, Repr

/-- `Import` (33-44) -/
structure Import where
  type : String
  name : String
  id : String
  parent : String := ""
  provider : String := ""
  version : Option String := none
  url : String := ""
  protect : Bool := true
  properties : List String := []
deriving DecidableEq, Repr

/-- What `Read` gives (step.go:910-929): the ID, the inputs and the outputs, each of which may be missing, and the init errors -/
structure Read where
  id : String
  inputs : Option String
  outputs : Option String
  initErrors : String := ""
deriving DecidableEq, Repr

structure World where
  env : Env
  /-- `resource.RootStackType` -/
  rootType : String
  /-- `URN.Type` -/
  typeOf : String → String
  /-- `generateURN` (deployment.go:396-405), of a parent, a type and a name -/
  urn : String → String → String → String
  /-- the URN of the stack (168-169) -/
  stackUrn : String
  /-- `Type.Package` -/
  pkg : String → String
  /-- `MakeProviderType` -/
  provType : String → String
  /-- `req.Name` -/
  provName : Request → String
  /-- `GetPackageConfig`, and `Check` with the version and the URL (245-260): the inputs of the provider, if nothing fails -/
  provInputs : Request → Option String
  /-- `Create` of a provider: its ID and outputs, if it does not fail -/
  create : String → Option (String × String)
  /-- `sort.Slice` of the requests by their texts (225-227) -/
  sort : List Request → List Request
  /-- `Read` of a provider: nothing if there is an error that is no `InitError` -/
  read : Ref → String → String → Option Read
  /-- `Check` of the inputs does not fail -/
  checks : String → String → Bool
  /-- the properties of these names (step.go:956-961) -/
  select : List String → String → String
  /-- `ImportID`, which is a part of `rest` -/
  importId : State → String
  /-- no properties -/
  noProps : String

/-- In which order steps end, and which ones do: the steps before a cancellation, and their numbers in the order in which they are recorded -/
structure Schedule where
  existing : Nat
  stack : Bool
  providers : List Nat
  imports : List Nat

inductive Outcome where
  | ok | failed | panic
deriving DecidableEq, Repr

/-- `olds` (deployment.go:291-315): the resource of a URN that is not to be deleted -/
def old (prev : List State) (u : String) : Option State := prev.find? fun s => !s.delete && s.urn == u

/-- A copy without its ID (149-150), to which `SameStep.Apply` (step.go:125-126) gives the ID and the outputs of the resource -/
def same (r : State) : State := { { r with id := "" } with id := r.id, outputs := r.outputs }

/-- `registerExistingResources` (139-156), of which `k` steps end: what is recorded, and what is left in the base -/
def existing : Nat → List State → List State × List State
  | _, [] => ([], [])
  | k, r :: l =>
    if r.delete then ((existing k l).1, r :: (existing k l).2)
    else
      match k with
      | 0 => ([], r :: l)
      | k + 1 => (same r :: (existing k l).1, (existing k l).2)

/-- The stack, if there is one (160-166) -/
def World.findStack (W : World) (prev : List State) : Option String := (prev.find? fun s => s.type == W.rootType).map (·.urn)

/-- The stack that is made (168-172), with the outputs that are registered for it (366-368) -/
def World.stack (W : World) : State :=
  { type := W.rootType, urn := W.stackUrn, custom := false, delete := false, id := "", inputs := W.noProps, outputs := W.noProps, parent := "", protect := false, external := false,
    deps := [], provider := .none, propDeps := [], pendingReplacement := false, aliases := [], timeouts := "", retainOnDelete := false, rest := "" }

/-- The request of an import that names no provider (201, 330) -/
def World.request (W : World) (i : Import) : Request := ⟨i.version, W.pkg i.type, i.url⟩

/-- The URN of a default provider (202-203, 331-332) -/
def World.provUrn (W : World) (r : Request) : String := W.urn "" (W.provType r.pkg) (W.provName r)

/-- References of providers by URN -/
abbrev Refs := List (String × Provider)

/-- `registerProviders` (180-221): the references of the providers that there are, and the requests for those that there are not. `none` is a failed assertion (195, 206). -/
def World.requests (W : World) (prev : List State) : List Import → Option (Except Unit (Refs × List Request))
  | [] => some (.ok ([], []))
  | i :: l =>
    if i.provider ≠ "" then
      match old prev i.provider with
      | none => (W.requests prev l).map fun r => r.map fun (refs, reqs) => ((i.provider, .malformed i.provider) :: refs, reqs)
      | some s =>
        if !W.env.validProviderUrn i.provider then none
        else (W.requests prev l).map fun r => r.map fun (refs, reqs) => ((i.provider, .ref ⟨i.provider, s.id⟩) :: refs, reqs)
    else if W.pkg i.type = "" then some (.error ())
    else
      match old prev (W.provUrn (W.request i)) with
      | some s =>
        if !W.env.validProviderUrn (W.provUrn (W.request i)) then none
        else (W.requests prev l).map fun r => r.map fun (refs, reqs) => ((W.provUrn (W.request i), .ref ⟨W.provUrn (W.request i), s.id⟩) :: refs, reqs)
      | none => (W.requests prev l).map fun r => r.map fun (refs, reqs) => (refs, W.request i :: reqs)

/-- The first request for every URN (190, 211-217) -/
def World.distinct (W : World) : List Request → List String → List Request
  | [], _ => []
  | r :: l, seen => if W.provUrn r ∈ seen then W.distinct l seen else r :: W.distinct l (W.provUrn r :: seen)

/-- The provider of a request (241-265), before it is made -/
def World.provider (W : World) (r : Request) (inputs : String) : State :=
  { type := W.provType r.pkg, urn := W.provUrn r, custom := true, delete := false, id := "", inputs := inputs, outputs := W.noProps, parent := "", protect := false, external := false,
    deps := [], provider := .none, propDeps := [], pendingReplacement := false, aliases := [], timeouts := "", retainOnDelete := false, rest := "" }

/-- The steps that make the providers (229-266); `none` is an error. -/
def World.provSteps (W : World) : List Request → Option (List State)
  | [] => some []
  | r :: l =>
    match W.provInputs r with
    | none => none
    | some inputs => (W.provSteps l).map (W.provider r inputs :: ·)

/-- `CreateStep.Apply` (step.go:223-266) of a provider -/
def World.made (W : World) (s : State) : Option State :=
  match W.create s.urn with
  | none => none
  | some (id, outs) => if id = "" then none else some { s with id := id, outputs := outs }

/-- Steps that are run side by side: what is recorded, in the order in which they end -/
def run (f : State → Option State) (steps : List State) (order : List Nat) : List State := order.filterMap fun i => steps[i]?.bind f

/-- All of them have ended well. -/
def allRun (f : State → Option State) (steps : List State) (order : List Nat) : Bool :=
  (List.range steps.length).all fun i => order.contains i && (steps[i]?.bind f).isSome

/-- The ID a resource was imported with, or else its ID (319-322) -/
def World.oldId (W : World) (s : State) : String := if W.importId s ≠ "" then W.importId s else s.id

/-- What is to be imported (296-359): `none` is a failed assertion (337, step.go:853-859), an error a duplicate. `seen` are the URNs so far. -/
def World.importSteps (W : World) (prev : List State) (stackUrn : String) (refs : Refs) : List Import → List String → Option (Except Unit (List State))
  | [], _ => some (.ok [])
  | i :: l, seen =>
    let parent := if i.parent = "" then stackUrn else i.parent
    let u := W.urn parent i.type i.name
    if u ∈ seen then some (.error ())
    else if (old prev u).map W.oldId = some i.id then W.importSteps prev stackUrn refs l (u :: seen)
    else
      match refs.lookup (if i.provider = "" then W.provUrn (W.request i) else i.provider) with
      | none => none
      | some p =>
        if i.id = "" then none
        else
          (W.importSteps prev stackUrn refs l (u :: seen)).map fun r => r.map fun steps =>
            { type := W.typeOf u, urn := u, custom := true, delete := false, id := i.id, inputs := W.noProps, outputs := W.noProps, parent := parent, protect := i.protect, external := false,
              deps := [], provider := p, propDeps := [], pendingReplacement := false, aliases := [], timeouts := "", retainOnDelete := false, rest := "" } :: steps

/-- The properties that are asked for (step.go:942-949): those of the first import with the ID -/
def askedFor (imps : List Import) (id : String) : List String := ((imps.find? fun i => i.id == id).map (·.properties)).getD []

/-- `ImportStep.Apply` (step.go:888-997) of a planned import. `known` are the providers that the registry has. -/
def World.imported (W : World) (prev known : List State) (imps : List Import) (s : State) : Option State :=
  if (old prev s.urn).isSome then none
  else if W.typeOf s.parent ≠ W.rootType ∧ (old prev s.parent).isNone then none
  else
    match s.provider with
    | .ref r =>
      if !known.any (fun x => W.env.isProviderType x.type && x.urn == r.urn && x.id == r.id) then none
      else
        match W.read r s.urn s.id with
        | none => none
        | some rd =>
          match rd.outputs, rd.inputs with
          | some outs, some ins =>
            let id := if rd.id ≠ "" then rd.id else s.id
            let ins := if askedFor imps id = [] then ins else W.select (askedFor imps id) ins
            if W.checks s.urn ins then some { s with id := id, inputs := ins, outputs := outs, rest := rd.initErrors } else none
          | _, _ => none
    | _ => none

/-- What is saved of the resources (the base is what no step has dealt with), and how it ends -/
structure Result where
  saved : List State
  outcome : Outcome

/-- `importResources` (287-371), of a state that there is -/
def World.importResources (W : World) (prev : List State) (imps : List Import) (S : Schedule) : Result :=
  let (kept, base) := existing S.existing prev
  if S.existing < (prev.filter (!·.delete)).length then ⟨kept ++ base, .failed⟩
  else
    match W.findStack prev with
    | none => if S.stack then go kept base [W.stack] W.stackUrn else ⟨kept ++ base, .failed⟩
    | some u => go kept base [] u
where
  go (kept base stack : List State) (stackUrn : String) : Result :=
    match W.requests prev imps with
    | none => ⟨kept ++ stack ++ base, .panic⟩
    | some (.error ()) => ⟨kept ++ stack ++ base, .failed⟩
    | some (.ok (refs, reqs)) =>
      match W.provSteps (W.sort (W.distinct reqs [])) with
      | none => ⟨kept ++ stack ++ base, .failed⟩
      | some steps =>
        let provs := run W.made steps S.providers
        if !allRun W.made steps S.providers then ⟨kept ++ stack ++ provs ++ base, .failed⟩
        else
          let refs := provs.map (fun p => (p.urn, .ref ⟨p.urn, p.id⟩)) ++ refs
          match W.importSteps prev stackUrn refs imps [] with
          | none => ⟨kept ++ stack ++ provs ++ base, .panic⟩
          | some (.error ()) => ⟨kept ++ stack ++ provs ++ base, .failed⟩
          | some (.ok isteps) =>
            let f := W.imported prev (prev ++ provs) imps
            ⟨kept ++ stack ++ provs ++ run f isteps S.imports ++ base, if allRun f isteps S.imports then .ok else .failed⟩

end Pulumi.Import
