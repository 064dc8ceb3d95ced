/-!
# The engine's checkpoint

`pkg/backend/snapshot.go` (the snapshot manager), `pkg/resource/deploy/snapshot.go` (aliases and integrity), the parts of
`pkg/resource/deploy/step.go` that change states, and how `pkg/resource/deploy/step_executor.go:289-383` and
`pkg/engine/update.go:509-626` bring them together. Paths are relative to `/repo/`.

Resource states are shared by pointer between the engine and the manager, and the engine goes on changing them: a state is
therefore a cell of a heap, and what is saved is what the cells hold when it is saved.
-/
namespace Pulumi.Snapshot

/-- A `*resource.State`. -/
abbrev Ptr := Nat

/-- `providers.Reference` (`pkg/resource/deploy/providers/reference.go:75-78`) -/
structure Ref where
  urn : String
  id : String
deriving DecidableEq, Repr

/-- `State.Provider`: the empty string, a string `ParseReference` (reference.go:140-152) refuses, or a reference. -/
inductive Provider where
  | none
  | malformed (s : String)
  | ref (r : Ref)
deriving DecidableEq, Repr

/-- `resource.State` (`sdk/go/common/resource/resource_state.go:26-47`). Property maps and timeouts are only ever compared,
so they are strings here; `rest` stands for the fields none of the code below looks at (`InitErrors`,
`AdditionalSecretOutputs`, `ImportID`). -/
structure State where
  type : String
  urn : String
  custom : Bool
  delete : Bool
  id : String
  inputs : String
  outputs : String
  parent : String
  protect : Bool
  external : Bool
  deps : List String
  provider : Provider
  propDeps : List (String × List String)
  pendingReplacement : Bool
  aliases : List String
  timeouts : String
  retainOnDelete : Bool
  rest : String
deriving DecidableEq, Repr

/-- `resource.OperationType` (`sdk/go/common/resource/resource_operation.go:18-31`) -/
inductive OpType where
  | creating | updating | deleting | reading | importing
deriving DecidableEq, Repr

/-- What a saved checkpoint holds: the resources and the pending operations with the state of their resource (`Snapshot`,
deploy/snapshot.go:32-37). The manifest, whose magic number the code recomputes for every snapshot, and the secrets manager
are left out. -/
structure Snap where
  resources : List State
  ops : List (State × OpType)
deriving DecidableEq, Repr

/-- What the code asks of type tokens and URNs: `IsProviderType` (reference.go:36-42) and whether `validateURN`
(reference.go:60-72) accepts a URN. -/
structure Env where
  isProviderType : String → Bool
  validProviderUrn : String → Bool

/-! ## Aliases: `NormalizeURNReferences` (deploy/snapshot.go:61-106) -/

/-- Why a snapshot could not be normalised: two resources with one alias (73-75), or a failed assertion, which ends the
process (90 and 92). -/
inductive NormErr where
  | sharedAlias
  | assertion
deriving DecidableEq, Repr

def lookup (m : List (String × String)) (k : String) : Option String :=
  match m with
  | [] => none
  | (k', v) :: m => if k' = k then some v else lookup m k

/-- lines 69-77, the aliases of one state; the map is an association list, of which the first entry counts -/
def addAliases (urn : String) : List String → List (String × String) → Option (List (String × String))
  | [], m => some m
  | a :: as, m =>
    match lookup m a with
    | some other => if other ≠ urn then none else addAliases urn as ((a, urn) :: m)
    | none => addAliases urn as ((a, urn) :: m)

/-- lines 66-78 -/
def aliasMap : List State → List (String × String) → Option (List (String × String))
  | [], m => some m
  | s :: ss, m =>
    match addAliases s.urn s.aliases m with
    | none => none
    | some m' => aliasMap ss m'

/-- `fixUrn` (80-86) -/
def fixUrn (m : List (String × String)) (urn : String) : String :=
  match lookup m urn with
  | some new => new
  | none => urn

/-- `fixProvider` (88-94) under `withUpdatedProvider` (`pkg/resource/deploy/state_builder.go:39-44`) -/
def fixProvider (E : Env) (m : List (String × String)) : Provider → Except NormErr Provider
  | .none => .ok .none
  | .malformed _ => .error .assertion
  | .ref r => if E.validProviderUrn (fixUrn m r.urn) then .ok (.ref ⟨fixUrn m r.urn, r.id⟩) else .error .assertion

/-- `fixResource` (96-103) with the updates of state_builder.go:32-66 -/
def fixResource (E : Env) (m : List (String × String)) (s : State) : Except NormErr State :=
  match fixProvider E m s.provider with
  | .error e => .error e
  | .ok p => .ok { s with
      parent := if s.parent = "" then "" else fixUrn m s.parent
      deps := s.deps.map (fixUrn m)
      propDeps := s.propDeps.map (fun kv => (kv.1, kv.2.map (fixUrn m)))
      provider := p }

def fixAll (E : Env) (m : List (String × String)) : List State → Except NormErr (List State)
  | [] => .ok []
  | s :: ss =>
    match fixResource E m s with
    | .error e => .error e
    | .ok s' =>
      match fixAll E m ss with
      | .error e => .error e
      | .ok ss' => .ok (s' :: ss')

/-- `NormalizeURNReferences` (61-106); the resources of pending operations are left as they are -/
def normalize (E : Env) (s : Snap) : Except NormErr Snap :=
  match aliasMap s.resources [] with
  | none => .error .sharedAlias
  | some m =>
    match fixAll E m s.resources with
    | .error e => .error e
    | .ok rs => .ok { s with resources := rs }

/-! ## Integrity: `VerifyIntegrity` (deploy/snapshot.go:118-185) -/

inductive IntegrityErr where
  | notReferenceable | badProviderReference | unknownProvider
  | parentAfter | missingParent | dependencyAfter | missingDependency | duplicate
deriving DecidableEq, Repr

/-- lines 132-138 -/
def addProvider (E : Env) (s : State) (provs : List Ref) : Except IntegrityErr (List Ref) :=
  if E.isProviderType s.type then
    if E.validProviderUrn s.urn then .ok (⟨s.urn, s.id⟩ :: provs) else .error .notReferenceable
  else .ok provs

/-- lines 139-147 -/
def checkProvider (provs : List Ref) : Provider → Except IntegrityErr Unit
  | .none => .ok ()
  | .malformed _ => .error .badProviderReference
  | .ref r => if r ∈ provs then .ok () else .error .unknownProvider

/-- lines 149-160 -/
def checkParent (urns : List String) (later : List State) (parent : String) : Except IntegrityErr Unit :=
  if parent = "" then .ok ()
  else if parent ∈ urns then .ok ()
  else if later.any (fun o => o.urn = parent) then .error .parentAfter else .error .missingParent

/-- lines 162-173 -/
def checkDeps (urns : List String) (later : List State) : List String → Except IntegrityErr Unit
  | [] => .ok ()
  | d :: ds =>
    if d ∈ urns then checkDeps urns later ds
    else if later.any (fun o => o.urn = d) then .error .dependencyAfter else .error .missingDependency

/-- lines 175-178 -/
def checkUrn (urns : List String) (s : State) : Except IntegrityErr Unit :=
  if s.urn ∈ urns ∧ s.delete = false then .error .duplicate else .ok ()

/-- the loop over the resources (127-181), with the URNs and providers seen so far -/
def verifyFrom (E : Env) : List String → List Ref → List State → Except IntegrityErr Unit
  | _, _, [] => .ok ()
  | urns, provs, s :: later =>
    match addProvider E s provs with
    | .error e => .error e
    | .ok provs' =>
    match checkProvider provs' s.provider with
    | .error e => .error e
    | .ok _ =>
    match checkParent urns later s.parent with
    | .error e => .error e
    | .ok _ =>
    match checkDeps urns later s.deps with
    | .error e => .error e
    | .ok _ =>
    match checkUrn urns s with
    | .error e => .error e
    | .ok _ => verifyFrom E (s.urn :: urns) provs' later

/-- `VerifyIntegrity` (118-185) of a snapshot whose magic number is right -/
def verify (E : Env) (s : Snap) : Except IntegrityErr Unit := verifyFrom E [] [] s.resources

/-! ## Steps (`pkg/resource/deploy/step.go`) -/

inductive Step where
  /-- `SameStep` (59-146); for a skipped create (95-111) the old state is a copy of the new one -/
  | same (old new : Ptr) (skippedCreate : Bool)
  /-- `CreateStep` (149-266): an old state only for a replacement, `pendingDelete` if it is to be deleted afterwards -/
  | create (old : Option Ptr) (new : Ptr) (pendingDelete : Bool)
  /-- `UpdateStep` (403-495) -/
  | update (old new : Ptr)
  /-- `DeleteStep` (270-370) -/
  | delete (old : Ptr) (replacing : Bool)
  /-- `ReplaceStep` (500-551) -/
  | replace (old new : Ptr)
  /-- `ReadStep` (563-682) -/
  | read (old : Option Ptr) (new : Ptr) (replacing : Bool)
  /-- `RefreshStep` (687-793) -/
  | refresh (old : Ptr)
  /-- `RemovePendingReplaceStep` (372-400) -/
  | removePendingReplace (old : Ptr)
  /-- `ImportStep` (795-1043); the original is the state an import replaces -/
  | import (original : Option Ptr) (new : Ptr)
deriving DecidableEq, Repr

/-! ## The snapshot manager (`pkg/backend/snapshot.go`) -/

/-- `SnapshotManager` (58-69), with the lists of its base snapshot; `hasElidedWrites` is a variable of its goroutine
(663) -/
structure Manager where
  base : List Ptr
  baseOps : List (Ptr × OpType)
  resources : List Ptr
  operations : List (Ptr × OpType)
  dones : List Ptr
  completeOps : List Ptr
  hasElidedWrites : Bool
deriving DecidableEq, Repr

/-- `NewSnapshotManager` (647-659) -/
def newManager (base : List Ptr) (baseOps : List (Ptr × OpType)) : Manager :=
  ⟨base, baseOps, [], [], [], [], false⟩

abbrev Heap := Ptr → State

def Heap.set (h : Heap) (p : Ptr) (s : State) : Heap := fun q => if q = p then s else h q

/-- `markDone` (521-525) -/
def Manager.markDone (m : Manager) (p : Ptr) : Manager := { m with dones := p :: m.dones }
/-- `markNew` (530-534) -/
def Manager.markNew (m : Manager) (p : Ptr) : Manager := { m with resources := m.resources ++ [p] }
/-- `markOperationPending` (537-541) -/
def Manager.markPending (m : Manager) (p : Ptr) (t : OpType) : Manager :=
  { m with operations := m.operations ++ [(p, t)] }
/-- `markOperationComplete` (544-548) -/
def Manager.markComplete (m : Manager) (p : Ptr) : Manager := { m with completeOps := p :: m.completeOps }

/-- `snap` (552-622) -/
def Manager.snap (m : Manager) (h : Heap) : Snap :=
  { resources := (m.resources ++ m.base.filter (fun p => p ∉ m.dones)).map h
    ops := ((m.operations.filter (fun o => o.1 ∉ m.completeOps)) ++
      (m.baseOps.filter (fun o => o.2 = .creating))).map (fun o => (h o.1, o.2)) }

/-- `BeginMutation` (128-155) with `doCreate` (303-314), `doUpdate` (347-358), `doDelete` (377-388), `doRead` (423-434) and
`doImport` (488-499): the operation recorded as pending, if there is one -/
def begins : Step → Option (Ptr × OpType)
  | .same .. => none
  | .create _ new _ => some (new, .creating)
  | .update _ new => some (new, .updating)
  | .delete old _ => some (old, .deleting)
  | .replace .. => none
  | .read _ new _ => some (new, .reading)
  | .refresh _ => none
  | .removePendingReplace _ => none
  | .import _ new => some (new, .importing)

/-- `mustWrite` (173-266). Dependencies are compared as sorted lists; that they are sorted in place is left out. -/
def mustWrite (old new : State) : Bool :=
  if old.urn ≠ new.urn then true
  else if old.type ≠ new.type then true
  else if old.custom ≠ new.custom then true
  else if old.timeouts ≠ new.timeouts then true
  else if old.retainOnDelete ≠ new.retainOnDelete then true
  else if old.provider ≠ new.provider then true
  else if old.parent ≠ new.parent then true
  else if old.protect ≠ new.protect then true
  else if old.inputs ≠ new.inputs then true
  else if old.outputs ≠ new.outputs then true
  else if old.deps.isPerm new.deps = false then true
  else false

/-- What a mutation asks of the service loop: to save, to leave the save out, or nothing at all. -/
inductive Write where
  | save | elide | nothing
deriving DecidableEq, Repr

/-- `sameSnapshotMutation.End` (268-301) -/
def endSame (h : Heap) (m : Manager) (old new : Ptr) (skippedCreate : Bool) : Manager × Write :=
  if skippedCreate then (m.markDone old, .elide)
  else ((m.markDone old).markNew new, if mustWrite (h old) (h new) then .save else .elide)

/-- `createSnapshotMutation.End` (320-345) -/
def endCreate (h : Heap) (m : Manager) (old : Option Ptr) (new : Ptr) (ok : Bool) : Manager :=
  let m := m.markComplete new
  if ok then
    let m := m.markNew new
    match old with
    | some o => if (h o).pendingReplacement then m.markDone o else m
    | none => m
  else m

/-- `updateSnapshotMutation.End` (364-375) -/
def endUpdate (m : Manager) (old new : Ptr) (ok : Bool) : Manager :=
  let m := m.markComplete new
  if ok then (m.markDone old).markNew new else m

/-- `deleteSnapshotMutation.End` (394-412); its assertion on protected resources is left out -/
def endDelete (h : Heap) (m : Manager) (old : Ptr) (ok : Bool) : Manager :=
  let m := m.markComplete old
  if ok then (if (h old).pendingReplacement then m else m.markDone old) else m

/-- `readSnapshotMutation.End` (440-454) -/
def endRead (m : Manager) (old : Option Ptr) (new : Ptr) (ok : Bool) : Manager :=
  let m := m.markComplete new
  if ok then
    match old with
    | some o => (m.markDone o).markNew new
    | none => m.markNew new
  else m

/-- `importSnapshotMutation.End` (505-517) -/
def endImport (m : Manager) (new : Ptr) (ok : Bool) : Manager :=
  let m := m.markComplete new
  if ok then m.markNew new else m

/-- `SnapshotMutation.End` of each kind of step; `replaceSnapshotMutation` (418-421), `refreshSnapshotMutation` (460-471),
`removePendingReplaceSnapshotMutation` (477-486) -/
def ends (h : Heap) (m : Manager) (st : Step) (ok : Bool) : Manager × Write :=
  match st with
  | .same old new sk => endSame h m old new sk
  | .create old new _ => (endCreate h m old new ok, .save)
  | .update old new => (endUpdate m old new ok, .save)
  | .delete old _ => (endDelete h m old ok, .save)
  | .replace .. => (m, .nothing)
  | .read old new _ => (endRead m old new ok, .save)
  | .refresh _ => (m, .elide)
  | .removePendingReplace old => (m.markDone old, .save)
  | .import _ new => (endImport m new ok, .save)

/-- `saveSnapshot` (625-639): the new checkpoint and whether an error is returned. `persists` tells whether the backend's
`Save` succeeds. Integrity is checked after saving. -/
def saveSnapshot (E : Env) (h : Heap) (m : Manager) (disk : Snap) (persists : Bool) : Snap × Bool :=
  match normalize E (m.snap h) with
  | .error _ => (disk, true)
  | .ok s =>
    if persists then
      match verify E s with
      | .ok _ => (s, false)
      | .error _ => (s, true)
    else (disk, true)

/-- a mutation request as the service loop treats it (666-681): manager, checkpoint, and whether an error is returned -/
def service (E : Env) (h : Heap) (m : Manager) (w : Write) (disk : Snap) (persists : Bool) : Manager × Snap × Bool :=
  match w with
  | .nothing => (m, disk, false)
  | .elide => ({ m with hasElidedWrites := true }, disk, false)
  | .save =>
    let r := saveSnapshot E h m disk persists
    ({ m with hasElidedWrites := false }, r.1, r.2)

/-! ## An update in progress -/

/-- A physical resource that belongs to the stack: the URN it was created for and what identifies it to its provider. -/
structure Phys where
  urn : String
  id : String
deriving DecidableEq, Repr

/-- What the provider did when a step was applied. -/
inductive Outcome where
  /-- it did what it was asked to -/
  | ok
  /-- it did so, only not completely: the call fails with `StatusPartialFailure` -/
  | partially
  /-- a create that succeeded with this ID, or failed partially with it -/
  | created (id : String)
  /-- the call failed and nothing was done -/
  | failed
  /-- the call failed with `StatusUnknown` although the resource was created -/
  | createdUnknown (id : String)
deriving DecidableEq, Repr

/-- Where a step is between `OnResourceStepPre` and `OnResourceStepPost` (step_executor.go:289-368): not yet applied,
applied by the provider, and its `Apply` returned, with whether its end counts as successful. -/
inductive Phase where
  | begun
  | acted (o : Outcome)
  | applied (ok : Bool)
deriving DecidableEq, Repr

/-- An update in progress: what the engine holds in memory, the checkpoint last saved, the steps in progress, and (only to
state properties) the physical resources of the stack and the states whose physical resource has been deleted or given
up. -/
structure Sys where
  heap : Heap
  mgr : Manager
  disk : Snap
  active : List (Step × Phase)
  world : List Phys
  gone : List Ptr

/-- what the provider does to the world in `Apply`: `CreateStep` (223-266), `DeleteStep` (338-370) and `ReadStep` (630-682).
Deleting an external resource does nothing; deleting a retained one gives it up, and so does reading a resource that the
stack owned. A component has no physical resource and no ID. -/
def act (h : Heap) (world : List Phys) (gone : List Ptr) (st : Step) (o : Outcome) : Option (List Phys × List Ptr) :=
  match st, o with
  | .create _ new _, .created id => if (h new).custom then some (⟨(h new).urn, id⟩ :: world, gone) else none
  | .create _ new _, .createdUnknown id => if (h new).custom then some (⟨(h new).urn, id⟩ :: world, gone) else none
  | .create _ new _, .ok => if (h new).custom then none else some (world, gone)
  | .create .., .failed => some (world, gone)
  | .create .., .partially => none
  | .delete old replacing, .ok =>
    if replacing = false ∧ (h old).protect then none
    else if (h old).external then some (world, gone)
    else some (world.filter (fun p => p.id ≠ (h old).id), old :: gone)
  | .delete .., .failed => some (world, gone)
  | .delete .., _ => none
  | .read (some old) _ false, .ok =>
    if (h old).external then some (world, gone)
    else some (world.filter (fun p => p.id ≠ (h old).id), old :: gone)
  | .read .., .ok => some (world, gone)
  | .read .., .failed => some (world, gone)
  | .read .., _ => none
  | .update .., .ok => some (world, gone)
  | .update .., .partially => some (world, gone)
  | .update .., .failed => some (world, gone)
  | .update .., _ => none
  | .import .., .ok => some (world, gone)
  | .import .., .failed => some (world, gone)
  | .import .., _ => none
  | _, .ok => some (world, gone)
  | _, _ => none

/-- what `Apply` does to the states once the provider has answered, and whether the end is successful
(`err == nil || status == StatusPartialFailure`, update.go:611): `SameStep` 125-126, `CreateStep` 252-259, `UpdateStep`
458-486 with update.go:594-606 for a partial failure, `ReadStep` 664-675, `ImportStep` 926-929 and 1038-1040. What the
provider returned for the outputs is `outs`; the ID a read or an import answers with is `rid`. -/
def apply (h : Heap) (st : Step) (o : Outcome) (outs rid : String) : Heap × Bool :=
  match st, o with
  | .same old new _, _ => (h.set new { h new with id := (h old).id, outputs := (h old).outputs }, true)
  | .create old new pendingDelete, o =>
    match o with
    | .failed => (h, false)
    | .createdUnknown _ => (h, false)
    | o =>
      let h' := match o with
        | .created id => h.set new { h new with id := id, outputs := outs }
        | _ => h
      match old with
      | some q => if pendingDelete then (h'.set q { h' q with delete := true }, true) else (h', true)
      | none => (h', true)
  | .update old new, o =>
    let h' := h.set new { h new with id := (h old).id }
    match o with
    | .ok => (h'.set new { h' new with outputs := if (h new).custom then outs else (h' new).outputs }, true)
    | .partially => (h'.set new { h' new with outputs := outs, inputs := (h old).inputs }, true)
    | _ => (h', false)
  | .read old new replacing, .ok =>
    let h' := h.set new { h new with outputs := outs, id := if rid = "" then (h new).id else rid }
    match old with
    | some q => if replacing then (h'.set q { h' q with delete := true }, true) else (h', true)
    | none => (h', true)
  | .import original new, .ok =>
    let h' := h.set new { h new with outputs := outs, id := if rid = "" then (h new).id else rid }
    match original with
    | some q => (h'.set q { h' q with delete := true }, true)
    | none => (h', true)
  | _, .ok => (h, true)
  | _, _ => (h, false)

/-! ## Rebuilding the base (`pkg/resource/deploy/deployment_executor.go:597-676`) -/

/-- lines 628-670: the states that stay, in order; `step` tells what became of a state, `none` inside for a deleted one.
Dependencies on URNs that no earlier remaining state has are dropped. -/
def rebuildList (step : Ptr → Option Ptr) : Heap → List String → List Ptr → Heap × List Ptr
  | h, _, [] => (h, [])
  | h, seen, p :: ps =>
    match step p with
    | none => rebuildList step h seen ps
    | some q =>
      let h' := h.set q { h q with deps := (h q).deps.filter (fun d => d ∈ seen) }
      let r := rebuildList step h' ((h' q).urn :: seen) ps
      (r.1, q :: r.2)

/-- `undangleParentResources` (678-732): `undeleted` are the URNs of the states not pending deletion -/
def undangle (undeleted : List String) : Heap → List (String × String) → List Ptr → Heap
  | h, _, [] => h
  | h, parents, p :: ps =>
    let parent := if (h p).parent ∈ undeleted then (h p).parent else (lookup parents (h p).parent).getD ""
    let h' := h.set p { h p with parent := parent }
    undangle undeleted h' (((h' p).urn, parent) :: parents) ps

/-- `rebuildBaseState` (597-676) -/
def rebuildBase (step : Ptr → Option Ptr) (h : Heap) (base : List Ptr) : Heap × List Ptr :=
  let r := rebuildList step h [] base
  let undeleted := (r.2.filter (fun p => (r.1 p).delete = false)).map (fun p => (r.1 p).urn)
  (undangle undeleted r.1 [] r.2, r.2)

/-! ## What can happen -/

inductive Event where
  /-- a step is about to be performed: `OnResourceStepPre` (update.go:509-522); `persists` as in `saveSnapshot` -/
  | begin (st : Step) (persists : Bool)
  /-- the provider acts for the step at this place -/
  | act (i : Nat) (o : Outcome)
  /-- `Apply` returns -/
  | ret (i : Nat) (outs rid : String)
  /-- `OnResourceStepPost` (update.go:524-612) -/
  | finish (i : Nat) (persists : Bool)
  /-- the update has been terminated, and the step ends without writing the checkpoint (update.go:534-536) -/
  | abandon (i : Nat)
  /-- `RegisterResourceOutputs` (backend/snapshot.go:121-123), after step_executor.go:164 set the outputs -/
  | outputs (p : Ptr) (outs : String) (persists : Bool)
  /-- a delete-replacement step is made for the state: `NewDeleteReplacementStep` (step.go:308) -/
  | condemn (p : Ptr) (pendingReplace : Bool)
  /-- `rebuildBaseState` -/
  | rebuild (step : List (Ptr × Option Ptr))
  /-- `Close` (backend/snapshot.go:78-81 and 684-689) -/
  | close (persists : Bool)

/-- what became of a state, if there was a step for it -/
def stepFor : List (Ptr × Option Ptr) → Ptr → Option Ptr
  | [], p => some p
  | (q, r) :: rest, p => if q = p then r else stepFor rest p

/-- One event; `none` if it cannot happen. A step whose beginning could not be saved is not performed
(step_executor.go:294-298). -/
def next (E : Env) (s : Sys) : Event → Option Sys
  | .begin st persists =>
    match begins st with
    | none => some { s with active := s.active ++ [(st, .begun)] }
    | some (p, t) =>
      let r := service E s.heap (s.mgr.markPending p t) .save s.disk persists
      some { s with mgr := r.1, disk := r.2.1, active := if r.2.2 then s.active else s.active ++ [(st, .begun)] }
  | .act i o =>
    match s.active[i]? with
    | some (st, .begun) =>
      match act s.heap s.world s.gone st o with
      | some (world, gone) => some { s with world := world, gone := gone, active := s.active.set i (st, .acted o) }
      | none => none
    | _ => none
  | .ret i outs rid =>
    match s.active[i]? with
    | some (st, .acted o) =>
      let r := apply s.heap st o outs rid
      some { s with heap := r.1, active := s.active.set i (st, .applied r.2) }
    | _ => none
  | .finish i persists =>
    match s.active[i]? with
    | some (st, .applied ok) =>
      let e := ends s.heap s.mgr st ok
      let r := service E s.heap e.1 e.2 s.disk persists
      some { s with mgr := r.1, disk := r.2.1, active := s.active.eraseIdx i }
    | _ => none
  | .abandon i => some { s with active := s.active.eraseIdx i }
  | .outputs p outs persists =>
    let h := s.heap.set p { s.heap p with outputs := outs }
    let r := service E h s.mgr .save s.disk persists
    some { s with heap := h, mgr := r.1, disk := r.2.1 }
  | .condemn p b => some { s with heap := s.heap.set p { s.heap p with pendingReplacement := b } }
  | .rebuild step =>
    let r := rebuildBase (stepFor step) s.heap s.mgr.base
    some { s with heap := r.1, mgr := { s.mgr with base := r.2 } }
  | .close persists =>
    let r := if s.mgr.hasElidedWrites then service E s.heap s.mgr .save s.disk persists else (s.mgr, s.disk, false)
    some { s with mgr := r.1, disk := r.2.1 }

/-- Any number of events. -/
def run (E : Env) : Sys → List Event → Option Sys
  | s, [] => some s
  | s, e :: es =>
    match next E s e with
    | some s' => run E s' es
    | none => none

end Pulumi.Snapshot
