import Verif.StepGen.Theorems
import Verif.Props.Equal
/-!
# Plans: what happens to resources

The operations of a plan: how a preview records them and how an update is held to them (`pkg/resource/deploy/step_generator.go:252-284,
457-463, 501-515, 845-852, 958-993`, `pkg/resource/deploy/step.go:1197-1217`, `pkg/resource/deploy/deployment_executor.go:310-341`).
Paths are relative to `/repo/`.

A plan is an association list from URNs to the operations that are left. Errors are `none`.
-/
namespace Pulumi.Plan
open Pulumi.StepGen (Step Prev Opts St Ev)
open Pulumi.DepGraph (deletions)

/-- `display.StepOp` (step.go:1046-1060) -/
inductive Op where
  | same | create | update | delete | replace | createReplacement | deleteReplaced | read | readReplacement | refresh | readDiscard
  | discardReplaced | removePendingReplace | import_ | importReplacement
deriving DecidableEq, Repr

/-- `ConstrainedTo` (step.go:1198-1217) -/
def constrainedTo (op constraint : Op) : Bool :=
  match constraint with
  | .create => op = .same ∨ op = .create
  | .update => op = .same ∨ op = .update
  | .replace | .createReplacement | .deleteReplaced => op = .same ∨ op = .update ∨ op = constraint
  | _ => op = constraint

/-- the operations of a plan that are left, by URN -/
abbrev Plans := List (String × List Op)

/-- a write to a Go map -/
def Plans.put (m : Plans) (urn : String) (ops : List Op) : Plans := (urn, ops) :: m.filter (fun e => decide (e.1 ≠ urn))

/-- What happens to plans in the course of an update -/
inductive PEv where
  /-- a registration gets as far as its plan: `newPlans.set` (458-462, 512-514) -/
  | register (urn : String)
  /-- a dependent is going to be deleted (845-852) -/
  | condemn (urn : String)
  /-- a step of a registration comes up (252-284); with the URN its own is an alias of -/
  | step (urn : String) (op : Op) (aliased : Option String)
  /-- a deletion at the end comes up (958-993) -/
  | del (urn : String) (op : Op)

/-- The check of a step (253-268, 960-979): what is left of the plan -/
def enforce1 (m : Plans) (urn : String) (op : Op) : Option Plans :=
  match m.lookup urn with
  | some [] => none
  | some (c :: cs) => if constrainedTo op c then some (m.put urn cs) else none
  | none => if constrainedTo op .same then some m else none

/-- An update with a plan -/
def enforce : Plans → List PEv → Option Plans
  | m, [] => some m
  | m, .register _ :: es => enforce m es
  | m, .condemn _ :: es => enforce m es
  | m, .step urn op _ :: es =>
    match enforce1 m urn op with
    | some m => enforce m es
    | none => none
  | m, .del urn op :: es =>
    match enforce1 m urn op with
    | some m => enforce m es
    | none => none

/-- The end of an update with a plan (deployment_executor.go:310-341): nothing is left but deletions of what is not there. `prev` are the
URNs of the checkpoint. -/
def complete (prev : List String) (m : Plans) : Bool :=
  m.all (fun e => decide (e.2 = []) || (decide (e.2 = [.delete]) && !decide (e.1 ∈ prev)))

/-- A preview, or an update, that makes a plan -/
def record : Plans → List PEv → Option Plans
  | m, [] => some m
  -- a new plan, whatever there was (514)
  | m, .register urn :: es => record (m.put urn []) es
  | m, .condemn urn :: es =>
    match m.lookup urn with
    | some _ => record m es
    | none => record (m.put urn []) es
  | m, .step urn op aliased :: es =>
    match m.lookup (aliased.getD urn) with
    | some ops => record (m.put (aliased.getD urn) (ops ++ [op])) es
    | none => none
  | m, .del urn op :: es => record (m.put urn ((m.lookup urn).getD [] ++ [op])) es

/-! ## The plan of an update of `StepGen` -/

/-- the URN of an old state -/
def oldUrn (p : Prev) (i : Nat) : String := ((p.rs[i]?).map (·.urn)).getD ""

/-- `External` of an old state -/
def external (p : Prev) (i : Nat) : Bool := ((p.rs[i]?).map (·.external)).getD false

/-- `Step.URN` (step.go:117, 214, 332, 392, 448, 538, 624, 880) -/
def urnOf (p : Prev) : Step → String
  | .same _ u | .skippedCreate u | .create u | .createReplacement _ u _ | .replace _ u _ | .update _ u | .importNew u
  | .importReplacement _ u | .read _ u | .readReplacement _ u => u
  | .deleteReplacement i _ | .delete i | .removePending i => oldUrn p i

/-- `Step.Op` (step.go:113, 205-210, 316-328, 386-388, 444, 534, 613-619, 868-875) -/
def opOf (p : Prev) : Step → Op
  | .same .. | .skippedCreate _ => .same
  | .create _ => .create
  | .createReplacement .. => .createReplacement
  | .replace .. => .replace
  | .update .. => .update
  | .importNew _ => .import_
  | .importReplacement .. => .importReplacement
  | .read .. => .read
  | .readReplacement .. => .readReplacement
  | .deleteReplacement i _ => if external p i then .discardReplaced else .deleteReplaced
  | .delete i => if external p i then .readDiscard else .delete
  | .removePending _ => .removePendingReplace

/-- What is deleted ahead of a replacement is noted (step_generator.go:843-853). -/
def condemned (p : Prev) : Step → Option PEv
  | .deleteReplacement i true => some (.condemn (oldUrn p i))
  | _ => none

/-- What the steps of a registration mean for plans, where there are no aliases. A dependent that is deleted is noted before the steps are
looked at; for the resource itself, which has its plan already, that changes nothing. -/
def registered (p : Prev) (urn : String) (l : List Step) : List PEv :=
  .register urn :: (l.filterMap (condemned p) ++ l.map (fun s => .step (urnOf p s) (opOf p s) none))

/-- The events of a program, for plans. Reads are no matter for them (167-238). -/
def planned (p : Prev) (o : Opts) : St → List Ev → List PEv × St
  | st, [] => ([], st)
  | st, e :: es =>
    match StepGen.handle p o st e, e, StepGen.eventUrn o st e with
    | .steps l st', .register _, some urn =>
      let (rest, st'') := planned p o st' es
      (registered p urn l ++ rest, st'')
    | .steps _ st', _, _ => planned p o st' es
    | _, _, _ => ([], st)

/-- A whole update, for plans: what earlier updates left to be deleted (deployment_executor.go:211) is no matter for them. -/
def plannedUpdate (p : Prev) (o : Opts) (es : List Ev) : List PEv :=
  let (evs, st) := planned p o (StepGen.initial p none) es
  evs ++ ((deletions st.seen (StepGen.marked p st)).map Step.ofDeletion).map (fun s => .del (urnOf p s) (opOf p s))

/-! ## What is said about it -/

/-- What is done is no more than what was planned: it is what was planned, or nothing where something was to be created, updated or
replaced, or an update where there was to be a replacement. -/
inductive NoMore : Op → Op → Prop
  | asPlanned (op : Op) : NoMore op op
  | nothing {op : Op} : op ∈ [Op.create, .update, .replace, .createReplacement, .deleteReplaced] → NoMore .same op
  | update {op : Op} : op ∈ [Op.replace, .createReplacement, .deleteReplaced] → NoMore .update op

/-- the operations of a resource, in order -/
def opsOf (urn : String) : List PEv → List Op
  | [] => []
  | .step u op _ :: es => if u = urn then op :: opsOf urn es else opsOf urn es
  | .del u op :: es => if u = urn then op :: opsOf urn es else opsOf urn es
  | _ :: es => opsOf urn es

/-- One operation after the other is no more than what was planned. -/
inductive Within : List Op → List Op → Prop
  | done (rest : List Op) : Within [] rest
  | next {op c : Op} {ops cs : List Op} : NoMore op c → Within ops cs → Within (op :: ops) (c :: cs)

end Pulumi.Plan
