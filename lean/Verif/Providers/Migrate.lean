import Verif.Snapshot.IntegritySpec
/-!
# States from before there were providers

Models `addDefaultProviders` (194-261), `migrateProviders` (265-291) and `buildResourceMap` (293-315) of `pkg/resource/deploy/deployment.go`, line numbers are of
it: what a deployment does with the resources of the last one before it starts.

What is read off URNs, the configuration and the manifest are parameters; property maps are texts, as in the model of checkpoints.
-/
namespace Pulumi.Providers
open Pulumi.Snapshot (State Provider)

structure Migration where
  /-- `IsProviderType(res.URN.Type())` -/
  isProv : String → Bool
  /-- `res.URN.Type().Package()` -/
  pkg : String → String
  /-- `defaultProviderURN` (401-403), and the type of that URN -/
  urn : String → String
  type : String → String
  /-- `GetPackageConfig` (target.go:33-56) -/
  config : String → Option String
  /-- what the manifest has of a package: the version of the plugin, which it need not have, and where it is from (201-204) -/
  info : String → Option (Option String × String)
  /-- `SetProviderVersion` and `SetProviderURL` (registry.go:37-58) -/
  withInfo : String → String → String → String
  /-- the IDs that are drawn one after the other -/
  uuid : Nat → String
  /-- no property in the map -/
  empty : String → Bool

inductive MigrateErr
  /-- the configuration cannot be read (223-226) -/
  | config
  /-- `SetProviderVersion` with no version -/
  | panic
deriving DecidableEq, Repr

/-- A custom resource that has no provider (216-218) -/
def Migration.needs (M : Migration) (s : State) : Bool := !M.isProv s.urn && s.custom && s.provider = .none

/-- lines 223-230 -/
def Migration.inputs (M : Migration) (pkg : String) : Except MigrateErr String :=
  match M.config pkg with
  | none => .error .config
  | some c =>
    match M.info pkg with
    | none => .ok c
    | some (none, _) => .error .panic
    | some (some v, url) => .ok (M.withInfo c v url)

/-- lines 241-248 -/
def Migration.provider (M : Migration) (pkg id inputs : String) : State :=
  { type := M.type pkg, urn := M.urn pkg, custom := true, delete := false, id := id, inputs := inputs, outputs := inputs, parent := "", protect := false,
    external := false, deps := [], provider := .none, propDeps := [], pendingReplacement := false, aliases := [], timeouts := "", retainOnDelete := false,
    rest := "" }

/-- The loop of `addDefaultProviders` (215-253), with the references so far and how many IDs were drawn: the new providers, and the resources -/
def Migration.add (M : Migration) : List State → (String → Option Snapshot.Ref) → Nat → Except MigrateErr (List State × List State)
  | [], _, _ => .ok ([], [])
  | s :: l, refs, k =>
    if M.needs s then
      match refs (M.pkg s.urn) with
      | some r =>
        match M.add l refs k with
        | .error e => .error e
        | .ok (new, old) => .ok (new, { s with provider := .ref r } :: old)
      | none =>
        match M.inputs (M.pkg s.urn) with
        | .error e => .error e
        | .ok i =>
          let r : Snapshot.Ref := ⟨M.urn (M.pkg s.urn), M.uuid k⟩
          match M.add l (fun p => if p = M.pkg s.urn then some r else refs p) (k + 1) with
          | .error e => .error e
          | .ok (new, old) => .ok (M.provider (M.pkg s.urn) (M.uuid k) i :: new, { s with provider := .ref r } :: old)
    else
      match M.add l refs k with
      | .error e => .error e
      | .ok (new, old) => .ok (new, s :: old)

/-- lines 276-288 -/
def Migration.fill (M : Migration) (s : State) : State :=
  if M.isProv s.urn && !M.empty s.inputs && M.empty s.outputs then { s with outputs := s.inputs } else s

/-- `migrateProviders` (265-291) -/
def Migration.migrate (M : Migration) (l : List State) : Except MigrateErr (List State) :=
  match M.add l (fun _ => none) 0 with
  | .error e => .error e
  | .ok (new, old) => .ok ((new ++ old).map M.fill)

/-- `buildResourceMap` (293-315), with the URNs so far: whether it succeeds -/
def mapBuilt : List State → List String → Bool
  | [], _ => true
  | s :: l, seen => if s.delete then mapBuilt l seen else if s.urn ∈ seen then false else mapBuilt l (s.urn :: seen)

end Pulumi.Providers
