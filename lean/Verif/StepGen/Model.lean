import Verif.Paths.Model
import Verif.DepGraph.Model
/-!
# The steps of an update

`pkg/resource/deploy/step_generator.go`: what `GenerateSteps` (245-903) and `GenerateReadSteps` (167-238) make of the resources
a program registers and reads, with the parts of `pkg/resource/deploy/step.go` that mark old states, and the two lists of
deletions of `pkg/resource/deploy/deployment_executor.go` (211, 374-433). The deletions themselves are those of `DepGraph`.
Paths are relative to `/repo/`.

The states of the previous checkpoint are known by their position in it. What depends on the values of properties, on a
provider or on a policy is an answer that comes with the registration, and nothing is assumed about the answers. Update plans
(252-284, 417-423, 501-533) are left out.
-/
namespace Pulumi.StepGen
open Pulumi.Snapshot (State Provider Ref)
open Pulumi.DepGraph (Seen Deletion Differ oldOf dependentReplacements deletions pendingDeletes)
open Pulumi.Paths (DiffResult Changes Text applyReplaceOnChanges)

/-- The steps (step.go), each with the old state and the URN of the new one as far as it has them. `pendingDelete` and
`pendingReplace` are the fields of that name. -/
inductive Step where
  /-- `NewSameStep` (step.go:72) -/
  | same (old : Nat) (urn : String)
  /-- `NewSkippedCreateStep` (step.go:95) -/
  | skippedCreate (urn : String)
  /-- `NewCreateStep` (step.go:163) -/
  | create (urn : String)
  /-- `NewCreateReplacementStep` (step.go:178) -/
  | createReplacement (old : Nat) (urn : String) (pendingDelete : Bool)
  /-- `NewReplaceStep` (step.go:512), which does nothing but tell the user -/
  | replace (old : Nat) (urn : String) (pendingDelete : Bool)
  /-- `NewUpdateStep` (step.go:416) -/
  | update (old : Nat) (urn : String)
  /-- `NewImportStep` (step.go:809) -/
  | importNew (urn : String)
  /-- `NewImportReplacementStep` (step.go:829) -/
  | importReplacement (old : Nat) (urn : String)
  /-- `NewReadStep` (step.go:572) -/
  | read (old : Option Nat) (urn : String)
  /-- `NewReadReplacementStep` (step.go:596) -/
  | readReplacement (old : Nat) (urn : String)
  /-- `NewDeleteReplacementStep` (step.go:289) -/
  | deleteReplacement (old : Nat) (pendingReplace : Bool)
  /-- `NewDeleteStep` (step.go:278) -/
  | delete (old : Nat)
  /-- `NewRemovePendingReplaceStep` (step.go:377) -/
  | removePending (old : Nat)
deriving DecidableEq, Repr

/-- The previous checkpoint: its states, the keys of their inputs, their `ImportID` and whether they have `InitErrors`. -/
structure Prev where
  rs : List State
  inputs : Nat → List String
  importId : Nat → String
  initErrors : Nat → Bool

/-- What the update is run with: `Options` (deployment.go) and the facts about types, URNs and providers the code asks for.
`urnOf` is `Deployment.generateURN`, `isRoot` tells the URNs of the stack resource (141) and `differ` is what
`calculateDependentReplacements` asks the providers. -/
structure Opts where
  preview : Bool
  trustDependencies : Bool
  targetDependents : Bool
  replaceTargets : Option (List String)
  isProviderType : String → Bool
  rootType : String
  isRoot : String → Bool
  urnOf : String → String → String → String
  differ : Differ

/-- What `sg.diff` returns (725-733): a diff, an error, or that no diff is available. -/
inductive Diffed where
  | diff (d : DiffResult)
  | unavailable
  | error (e : String)
deriving Repr

/-- A registration: the goal (`resource.Goal`), and the answers it meets on its way. -/
structure Reg where
  type : String
  name : String
  custom : Bool
  parent : String
  protect : Bool
  deps : List String
  provider : Provider
  id : String
  aliases : List String
  deleteBeforeReplace : Option Bool
  replaceOnChanges : List Text
  /-- whether `processIgnoreChanges` fails (382), see `Paths` -/
  ignoreFails : Option String
  /-- `loadResourceProvider` (403): an error, or whether there is a provider -/
  load : Except String Bool
  /-- the first `Check` (479-499): an error, or whether there are failures -/
  check : Except String Bool
  /-- the analyzers (536-576): an error, or whether a mandatory policy is violated -/
  policy : Except String Bool
  /-- what `sg.diff` says where the resource is not a target for replacement (1337-1361) -/
  diff : Diffed
  /-- the second `Check` (785) -/
  recheck : Except String Bool

/-- A `ReadResourceEvent` -/
structure Rd where
  type : String
  name : String
  parent : String
  id : String

/-- An event of the source that `handleSingleEvent` turns into steps (deployment_executor.go:442-452) -/
inductive Ev where
  | register (g : Reg)
  | read (r : Rd)

/-- `stepGenerator` (37-70), with the marks steps put on old states: `seen` has the sets `GenerateDeletes` looks at,
`superseded` are the states whose `Delete` and `awaiting` those whose `PendingReplacement` was set by a step of this update. -/
structure St where
  seen : Seen
  creates : List String
  deletes : List String
  skipped : List String
  targets : Option (List String)
  superseded : List Nat
  awaiting : List Nat
  sawError : Bool

/-- How an event is dealt with: its steps, an error, a bail-out after telling the user, or a failed assertion, which ends the
program. -/
inductive Made where
  | steps (l : List Step) (st : St)
  | error (e : String)
  | bail
  | crash

/-- What `Delete` is for an old state now: what the checkpoint said or what a step made of it. -/
def isDelete (p : Prev) (st : St) (i : Nat) : Bool := ((p.rs[i]?).map (·.delete)).getD false || decide (i ∈ st.superseded)

/-- `checkParent` (115-149). Where more than one URN is that of a stack resource, Go takes any of them. -/
def checkParent (o : Opts) (st : St) (parent type : String) : Except String String :=
  if type = o.rootType then
    if parent ≠ "" then .error "root stack resource can not have a parent" else .ok parent
  else if parent ≠ "" then
    if parent ∈ st.seen.urns then .ok parent else .error "could not find parent resource"
  else
    match st.seen.urns.find? o.isRoot with
    | some u => .ok u
    | none => .ok parent

/-- `generateURN` (152-163): `none` where the URN was seen before -/
def generateURN (o : Opts) (st : St) (parent type name : String) : Option (String × St) :=
  let urn := o.urnOf parent type name
  if urn ∈ st.seen.urns then none
  else some (urn, { st with seen := { st.seen with urns := urn :: st.seen.urns } })

/-- the loop that looks for the old state (354-376): the name it was found by, and its position -/
def findOld (p : Prev) : List String → Option (String × Nat)
  | [] => none
  | u :: us =>
    match oldOf p.rs u with
    | some i => some (u, i)
    | none => findOld p us

/-- lines 359-373: the state after the old one was found, and whether its name was an alias of another resource already -/
def noteAlias (st : St) (urn : String) : Option (String × Nat) → St × Bool
  | none => (st, false)
  | some (u, _) =>
    if u = urn then (st, false)
    else ({ st with seen := { st.seen with aliased := u :: st.seen.aliased } }, decide (u ∈ st.seen.aliased))

/-- `isTargetedForUpdate` (79-103) for the new state; a provider reference that does not parse fails the assertion of 87 -/
def isTargeted (o : Opts) (st : St) (urn parent : String) (deps : List String) (provider : Provider) : Option Bool :=
  match st.targets with
  | none => some true
  | some ts =>
    if urn ∈ ts then some true
    else if !o.targetDependents then some false
    else
      let rest := (decide (parent ≠ "") && decide (parent ∈ ts)) || deps.any (fun d => decide (d ≠ "") && decide (d ∈ ts))
      match provider with
      | .none => some rest
      | .malformed _ => none
      | .ref r => some (decide (r.urn ∈ ts) || rest)

/-- `isTargetedReplace` (105-107) -/
def isTargetedReplace (o : Opts) (urn : String) : Bool :=
  match o.replaceTargets with
  | none => false
  | some ts => decide (urn ∈ ts)

/-- `isTargetedUpdate` (72-74) -/
def isTargetedUpdate (o : Opts) (st : St) : Bool := st.targets.isSome || o.replaceTargets.isSome

/-- `sg.diff` (1328-1335): a target for replacement is to be replaced, whatever the provider says -/
def diffOf (o : Opts) (urn : String) (g : Reg) : Diffed :=
  if isTargetedReplace o urn then
    .diff { changes := .some, replaceKeys := ["id".toList], stableKeys := [], changedKeys := [], detailed := none,
            deleteBeforeReplace := false }
  else g.diff

/-- lines 725-733: a diff that is not available is some change -/
def diffAnswer : Diffed → Except String DiffResult
  | .error e => .error e
  | .unavailable => .ok { changes := .some, replaceKeys := [], stableKeys := [], changedKeys := [], detailed := none,
                          deleteBeforeReplace := false }
  | .diff d => .ok d

/-- the loop over the dependents that go before the replaced resource (837-864), in the order it is given them.
`NewDeleteReplacementStep` fails an assertion for a state that is marked `Delete` (step.go:307). -/
def condemn (p : Prev) : List Nat → St → Option (List Step × St)
  | [], st => some ([], st)
  | i :: is, st =>
    match p.rs[i]? with
    | none => none
    | some s =>
      if s.urn ∈ st.deletes then condemn p is st
      else if isDelete p st i then none
      else
        match condemn p is { st with deletes := s.urn :: st.deletes, awaiting := i :: st.awaiting } with
        | none => none
        | some (l, st') => some (.deleteReplacement i true :: l, st')

/-- lines 828-865: the dependents, if the dependencies can be trusted -/
def condemnDependents (p : Prev) (o : Opts) (st : St) (i : Nat) : Option (Except String (List Step × St)) :=
  if !o.trustDependencies then some (.ok ([], st))
  else
    match dependentReplacements p.rs st.seen p.inputs o.differ i with
    | none => none
    | some (.error e) => some (.error e)
    | some (.ok deps) => (condemn p deps.reverse st).map .ok

/-- the replacement (777-880); `st` already has the URN among the `replaces` -/
def replaceSteps (p : Prev) (o : Opts) (st : St) (urn : String) (i : Nat) (dbr : Bool) : Made :=
  if dbr then
    match condemnDependents p o st i with
    | none => .crash
    | some (.error e) => .error e
    | some (.ok (l, st')) =>
      if isDelete p st' i then .crash
      else .steps (l ++ [.deleteReplacement i true, .replace i urn false, .createReplacement i urn false])
             { st' with awaiting := i :: st'.awaiting }
  else if isDelete p st i then .crash
  else .steps [.createReplacement i urn true, .replace i urn true] { st with superseded := i :: st.superseded }

/-- `generateStepsFromDiff` (717-903). `old` is the state at position `i`. -/
def stepsFromDiff (p : Prev) (o : Opts) (st : St) (g : Reg) (urn : String) (i : Nat) (old : State) (prov : Bool) : Made :=
  match diffAnswer (diffOf o urn g) with
  | .error e => .error e
  | .ok d =>
    if d.changes = .unknown then .error "unrecognized diff state"
    else
      match applyReplaceOnChanges d g.replaceOnChanges (p.initErrors i) with
      | .error _ => .error "replaceOnChanges"
      | .ok d =>
        if d.changes = .some then
          if d.replace then
            if g.protect && old.protect then .bail
            else if g.id ≠ "" ∧ o.preview = false then .error "previously-imported resources may not be replaced"
            else
              let st := { st with seen := { st.seen with replaces := urn :: st.seen.replaces } }
              let go := replaceSteps p o st urn i (g.deleteBeforeReplace.getD d.deleteBeforeReplace)
              if prov && !isTargetedReplace o urn then
                match g.recheck with
                | .error e => .error e
                | .ok true => .bail
                | .ok false => go
              else go
          else if isDelete p st i then .crash
          else .steps [.update i urn] { st with seen := { st.seen with updates := urn :: st.seen.updates } }
        else if p.initErrors i then
          if isDelete p st i then .crash
          else .steps [.update i urn] { st with seen := { st.seen with updates := urn :: st.seen.updates } }
        else .steps [] st

/-- the end of case 3 (677-679) -/
def sameStep (p : Prev) (st : St) (urn : String) (i : Nat) : Made :=
  if isDelete p st i then .crash
  else .steps [.same i urn] { st with seen := { st.seen with sames := urn :: st.seen.sames } }

/-- lines 632-635: a target's dependents become targets -/
def addTarget (st : St) (urn : String) (targeted : Bool) : St :=
  if targeted then { st with targets := st.targets.map (urn :: ·) } else st

/-- The four cases (583-714). -/
def chooseSteps (p : Prev) (o : Opts) (st : St) (g : Reg) (urn parent : String) (old : Option (Nat × State)) (prov : Bool) :
    Made :=
  if urn ∈ st.deletes then
    match old with
    | none => .crash
    | some (i, _) =>
      if isDelete p st i then .crash
      else
        .steps [.replace i urn false, .createReplacement i urn false]
          { st with deletes := st.deletes.filter (fun u => decide (u ≠ urn)),
                    seen := { st.seen with replaces := urn :: st.seen.replaces } }
  else
    match old with
    | some (i, s) =>
      if s.external then
        if isDelete p st i then .crash
        else .steps [.createReplacement i urn true, .replace i urn true]
               { st with creates := urn :: st.creates, superseded := i :: st.superseded }
      else
        match isTargeted o st urn parent g.deps g.provider with
        | none => .crash
        | some false => sameStep p st urn i
        | some true =>
          match stepsFromDiff p o (addTarget st urn true) g urn i s prov with
          | .steps [] st' => sameStep p st' urn i
          | r => r
    | none =>
      match isTargeted o st urn parent g.deps g.provider with
      | none => .crash
      | some t =>
        if !t && !o.isProviderType g.type then
          .steps [.skippedCreate urn] { st with seen := { st.seen with sames := urn :: st.seen.sames },
                                                skipped := urn :: st.skipped }
        else .steps [.create urn] { addTarget st urn t with creates := urn :: st.creates }

/-- The import (433-468); `i` is the old state, if there is one -/
def importSteps (p : Prev) (st : St) (urn : String) (old : Option Nat) : Made :=
  match old with
  | some i =>
    if urn ∈ st.deletes then .steps [.importNew urn] st
    else if isDelete p st i then .crash
    else .steps [.importReplacement i urn, .replace i urn true] { st with superseded := i :: st.superseded }
  | none => .steps [.importNew urn] st

/-- Whether the registration is an import (435-444) -/
def isImport (p : Prev) (g : Reg) (old : Option (Nat × State)) : Bool :=
  g.custom && decide (g.id ≠ "") &&
    (match old with
     | none => true
     | some (i, s) => s.external || decide ((if p.importId i ≠ "" then p.importId i else s.id) ≠ g.id))

/-- `generateSteps` (329-715) once the parent and the URN are settled -/
def settled (p : Prev) (o : Opts) (st : St) (g : Reg) (urn parent : String) : Made :=
  let found := findOld p (urn :: g.aliases)
  let old : Option (Nat × State) := found.bind (fun f => (p.rs[f.2]?).map (fun s => (f.2, s)))
  let (st, invalid) := noteAlias st urn found
  match (if old.isSome then g.ignoreFails else none), g.load with
  | some e, _ => .error e
  | none, .error e => .error e
  | none, .ok prov =>
    if isImport p g old then importSteps p st urn (old.map (·.1))
    else
      match (if prov then g.check else .ok false), g.policy with
      | .error e, _ => .error e
      | .ok _, .error e => .error e
      | .ok failures, .ok violated =>
        let st := { st with sawError := st.sawError || violated }
        if invalid || failures || (violated && !o.preview) then .bail
        else chooseSteps p o st g urn parent old prov

/-- `generateSteps` (329-715) -/
def generateSteps (p : Prev) (o : Opts) (st : St) (g : Reg) : Made :=
  match checkParent o st g.parent g.type with
  | .error e => .error e
  | .ok parent =>
    match generateURN o st parent g.type g.name with
    | none => .bail
    | some (urn, st) => settled p o st g urn parent

/-- Whether a step makes the new state of the registration and is not a same step (294) -/
def Step.changes : Step → Bool
  | .same .. | .skippedCreate _ | .deleteReplacement .. | .delete _ | .removePending _ => false
  | _ => true

/-- `GenerateSteps` (245-327): in an update with targets, nothing that is made may depend on something that was not created. -/
def generateStepsChecked (p : Prev) (o : Opts) (st : St) (g : Reg) : Made :=
  match generateSteps p o st g with
  | .steps l st' =>
    if isTargetedUpdate o st' && l.any Step.changes && g.deps.any (fun d => decide (d ∈ st'.skipped)) then
      if o.preview then
        .steps l { st' with sawError := true, skipped := st'.skipped.filter (fun u => decide (u ∉ g.deps)) }
      else .bail
    else .steps l st'
  | r => r

/-- `GenerateReadSteps` (167-238); the mark `ReadStep.Apply` puts on the old state is step.go:673-675 -/
def generateReadSteps (p : Prev) (o : Opts) (st : St) (r : Rd) : Made :=
  match checkParent o st r.parent r.type with
  | .error e => .error e
  | .ok parent =>
    match generateURN o st parent r.type r.name with
    | none => .bail
    | some (urn, st) =>
      if r.id = "" then .error "Expected an ID"
      else
        match (oldOf p.rs urn).bind (fun i => (p.rs[i]?).map (fun s => (i, s))) with
        | some (i, s) =>
          if !s.external && decide (s.id ≠ r.id) then
            if isDelete p st i then .crash
            else
              .steps [.readReplacement i urn, .replace i urn true]
                { st with seen := { st.seen with replaces := urn :: st.seen.replaces }, superseded := i :: st.superseded }
          else .steps [.read (some i) urn] { st with seen := { st.seen with reads := urn :: st.seen.reads } }
        | none => .steps [.read none urn] { st with seen := { st.seen with reads := urn :: st.seen.reads } }

/-- `handleSingleEvent` (deployment_executor.go:437-460) -/
def handle (p : Prev) (o : Opts) (st : St) : Ev → Made
  | .register g => generateStepsChecked p o st g
  | .read r => generateReadSteps p o st r

/-- The events of a program one after the other (deployment_executor.go:252-297). Every step has succeeded before the next event
is looked at: the marks on old states are those of all the steps before. -/
def handleAll (p : Prev) (o : Opts) : St → List Ev → Made
  | st, [] => .steps [] st
  | st, e :: es =>
    match handle p o st e with
    | .steps l st' =>
      match handleAll p o st' es with
      | .steps l' st'' => .steps (l ++ l') st''
      | r => r
    | r => r

/-- `newStepGenerator` (1782-1806) after `GeneratePendingDeletes` (1140-1155) -/
def initial (p : Prev) (targets : Option (List String)) : St :=
  { seen := { sames := [], updates := [], replaces := [], reads := [], aliased := [], urns := [],
              pendingDeletes := pendingDeletes p.rs },
    creates := [], deletes := [], skipped := [], targets := targets, superseded := [], awaiting := [], sawError := false }

/-- The old states with the marks the steps put on them -/
def marked (p : Prev) (st : St) : List State :=
  p.rs.mapIdx (fun i s => { s with delete := s.delete || decide (i ∈ st.superseded),
                                   pendingReplacement := s.pendingReplacement || decide (i ∈ st.awaiting) })

/-- the step of a deletion (931, 940, 942) -/
def Step.ofDeletion : Deletion → Step
  | .replaced i => .deleteReplacement i false
  | .gone i => .delete i
  | .removed i => .removePending i

/-- `DeleteStep.Apply` (step.go:338-346): a protected state is not deleted, unless the step is part of a replacement -/
def refused (p : Prev) : Step → Bool
  | .delete i => ((p.rs[i]?).map (·.protect)).getD false
  | _ => false

/-- A whole update without targets: the deletions left over from earlier updates (deployment_executor.go:211-213), the program's
events, and the deletions at the end (374-419). `none` for an update that fails. Whether a deletion at the end is refused is left
to `refused`: the steps before it have been taken. -/
def update (p : Prev) (o : Opts) (es : List Ev) : Option (List Step) :=
  let retire := (pendingDeletes p.rs).map Step.delete
  if retire.any (refused p) then none
  else
    match handleAll p o (initial p none) es with
    | .steps l st => some (retire ++ l ++ (deletions st.seen (marked p st)).map Step.ofDeletion)
    | _ => none

end Pulumi.StepGen
