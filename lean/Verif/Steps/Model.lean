/-
Carrying out one step of an update: what its provider is asked, what becomes of the states, what is written to the checkpoint
and when the program hears of it.

Code: pkg/resource/deploy/step.go (the `Apply` of the steps, but for imports: see Import), pkg/resource/deploy/step_executor.go
(executeStep 289-383, ExecuteRegisterResourceOutputs 151-214), pkg/engine/update.go (updateActions.OnResourceStepPre 507-522,
OnResourceStepPost 524-612).

States are values here: where the code lets two states share one property map (a step that changes nothing), or changes a state
it points to, the model copies it.
-/
namespace Pulumi.Steps

/-- A property value: what matters is only whether it is a secret at its top (`IsSecret`, `MakeSecret`) -/
inductive Val where
  | plain (s : String)
  | secret (v : Val)
  deriving DecidableEq

def Val.isSecret : Val → Bool
  | .secret _ => true
  | _ => false

/-- A property map; the order does not matter in the code, and nothing here depends on it -/
abbrev Props := List (String × Val)

/-- `resource.State` (resource_state.go:26-47).  `provider` says whether the type is one of a provider; the fields no step looks
at or changes (parent, dependencies, aliases, timeouts, …) are one field `rest`. -/
structure State where
  urn : String
  provider : Bool := false
  custom : Bool := true
  delete : Bool := false
  id : String := ""
  inputs : Props := []
  outputs : Props := []
  protect : Bool := false
  external : Bool := false
  initErrors : List String := []
  pendingReplacement : Bool := false
  secretOutputs : List String := []
  retainOnDelete : Bool := false
  rest : String := ""
  deriving DecidableEq

/-- `*plugin.InitError`, or another error -/
inductive Err where
  | init (reasons : List String)
  | other (message : String)
  deriving DecidableEq

/-- `resource.Status` -/
inductive Status where
  | ok
  | partialFailure
  | unknown
  deriving DecidableEq

/-- What a provider is asked -/
inductive Call where
  | create (urn : String) (inputs : Props) (preview : Bool)
  | update (urn id : String) (olds news : Props) (preview : Bool)
  | delete (urn id : String) (outputs : Props)
  | read (urn id : String) (inputs state : Props)
  deriving DecidableEq

/-- What it answers.  Outputs and inputs that are `nil` are `none`. -/
structure Answer where
  id : String := ""
  inputs : Option Props := none
  outputs : Option Props := none
  status : Status := .ok
  err : Option Err := none

abbrev Provider := Call → Answer

/-- The kinds of steps (step.go).  A refresh has no new state before it was applied. -/
inductive Step where
  | same (old new : State)
  | create (old : Option State) (new : State) (replacing pendingDelete : Bool)
  | delete (old : State) (replacing : Bool)
  | removePendingReplace (old : State)
  | update (old new : State)
  | replace (old new : State)
  | read (old : Option State) (new : State) (replacing : Bool)
  | refresh (old : State)

/-- What `Apply` leaves: the calls made, its three results (`completes` where the function to call at the end is not `nil`), and
the states of the step afterwards -/
structure Applied where
  calls : List Call := []
  status : Status := .ok
  completes : Bool := false
  err : Option Err := none
  new : Option State
  old : Option State

/-- `InitErrors` after an error that was a partial failure -/
def Err.reasons? : Err → Option (List String)
  | .init r => some r
  | .other _ => none

/-- `s.new.InitErrors = initErr.Reasons` if the error is an `InitError` -/
def State.note (s : State) : Option Err → State
  | some (.init r) => { s with initErrors := r }
  | _ => s

/-- whether the answer to a request is a failure that left nothing behind: `err != nil && rst != StatusPartialFailure` -/
def Answer.failed (a : Answer) : Bool := a.err.isSome && a.status != .partialFailure

/-- what an error that was let pass leaves as status: `resourceStatus` -/
def Answer.kept (a : Answer) : Status := if a.err.isSome then a.status else .ok

/-- `SameStep.Apply` (123-142).  The registry of providers is left out (see Registry). -/
def applySame (old new : State) : Applied :=
  { completes := true, new := some { new with id := old.id, outputs := old.outputs }, old := some old }

/-- the old state of a creation, marked if it is to be deleted (256-259) -/
def pended (old : Option State) (b : Bool) : Option State :=
  if b then old.map (fun o => { o with delete := true }) else old

/-- `CreateStep.Apply` (223-266) -/
def applyCreate (preview : Bool) (prov : Except String Provider) (old : Option State) (new : State)
    (replacing pendingDelete : Bool) : Applied :=
  if new.custom then
    match prov with
    | .error m => { err := some (.other m), new := some new, old := old }
    | .ok p =>
      let c := Call.create new.urn new.inputs preview
      let a := p c
      if a.failed then { calls := [c], status := a.status, err := a.err, new := some new, old := old }
      else if !preview && a.id == "" then
        { calls := [c], status := a.kept, err := some (.other "provider did not return an ID from Create"),
          new := some (new.note a.err), old := old }
      else
        { calls := [c], status := a.kept, completes := true, err := a.err,
          new := some { new.note a.err with id := a.id, outputs := a.outputs.getD [] },
          old := pended old (replacing && pendingDelete) }
  else { completes := true, new := some new, old := pended old (replacing && pendingDelete) }

/-- `DeleteStep.Apply` (338-370) -/
def applyDelete (preview : Bool) (prov : Except String Provider) (old : State) (replacing : Bool) : Applied :=
  if !replacing && old.protect then { err := some (.other "protected"), new := none, old := some old }
  else if preview then { completes := true, new := none, old := some old }
  else if old.external then { completes := true, new := none, old := some old }
  else if old.retainOnDelete then { completes := true, new := none, old := some old }
  else if old.custom then
    match prov with
    | .error m => { err := some (.other m), new := none, old := some old }
    | .ok p =>
      let c := Call.delete old.urn old.id old.outputs
      let a := p c
      match a.err with
      | some e => { calls := [c], status := a.status, err := some e, new := none, old := some old }
      | none => { calls := [c], completes := true, new := none, old := some old }
  else { completes := true, new := none, old := some old }

/-- `UpdateStep.Apply` (456-495) -/
def applyUpdate (preview : Bool) (prov : Except String Provider) (old new : State) : Applied :=
  let new := { new with id := old.id }
  if new.custom then
    match prov with
    | .error m => { err := some (.other m), new := some new, old := some old }
    | .ok p =>
      let c := Call.update new.urn old.id old.outputs new.inputs preview
      let a := p c
      if a.failed then { calls := [c], status := a.status, err := a.err, new := some new, old := some old }
      else
        { calls := [c], status := a.kept, completes := true, err := a.err,
          new := some { new.note a.err with outputs := a.outputs.getD [] }, old := some old }
  else { completes := true, new := some new, old := some old }

/-- `plugin.UnknownStringValue` -/
def unknownID : String := "04da6b54-80e4-46f7-96ec-b56ff0331ba9"

/-- `ReadStep.Apply` (630-682) -/
def applyRead (prov : Except String Provider) (old : Option State) (new : State) (replacing : Bool) : Applied :=
  if new.id = unknownID then { completes := true, new := some { new with outputs := [] }, old := pended old replacing }
  else
    match prov with
    | .error m => { err := some (.other m), new := some new, old := old }
    | .ok p =>
      let c := Call.read new.urn new.id [] new.inputs
      let a := p c
      if a.failed then { calls := [c], status := a.status, err := a.err, new := some new, old := old }
      else
        match a.outputs with
        | none => { calls := [c], err := some (.other "does not exist"), new := some (new.note a.err), old := old }
        | some outs =>
          { calls := [c], status := a.kept, completes := true, err := a.err,
            new := some { new.note a.err with outputs := outs, id := if a.id = "" then new.id else a.id },
            old := pended old replacing }

/-- `RefreshStep.Apply` (729-793) -/
def applyRefresh (prov : Except String Provider) (old : State) : Applied :=
  if !old.custom || old.provider || old.pendingReplacement then { completes := true, new := some old, old := some old }
  else
    match prov with
    | .error m => { err := some (.other m), new := some old, old := some old }
    | .ok p =>
      let c := Call.read old.urn old.id old.inputs old.outputs
      let a := p c
      if a.failed then { calls := [c], status := a.status, err := a.err, new := some old, old := some old }
      else
        let reasons := (a.err.bind Err.reasons?).getD []
        let err := match a.err with
          | some (.init _) => none
          | e => e
        { calls := [c], status := a.status, completes := true, err := err, old := some old,
          new := a.outputs.map (fun outs =>
            { old with id := if a.id = "" then old.id else a.id, inputs := a.inputs.getD old.inputs, outputs := outs,
                       initErrors := reasons }) }

/-- `Step.Apply`.  `RemovePendingReplaceStep.Apply` (398-400) gives no function to call, `ReplaceStep.Apply` (547-551) one that
does nothing; the assertion of the latter is left out (see C161). -/
def apply (preview : Bool) (prov : Except String Provider) : Step → Applied
  | .same old new => applySame old new
  | .create old new replacing pendingDelete => applyCreate preview prov old new replacing pendingDelete
  | .delete old replacing => applyDelete preview prov old replacing
  | .removePendingReplace old => { new := none, old := some old }
  | .update old new => applyUpdate preview prov old new
  | .replace old new => { completes := true, new := some new, old := some old }
  | .read old new replacing => applyRead prov old new replacing
  | .refresh old => applyRefresh prov old

/-! ## The execution of a step -/

/-- making one output secret (326-327) -/
def mark (m : Props) (k : String) : Props :=
  m.map (fun e => if e.1 = k ∧ e.2.isSecret = false then (e.1, .secret e.2) else e)

/-- the loop over `AdditionalSecretOutputs` (319-346); `id` is only warned about -/
def markAll (m : Props) : List String → Props
  | [] => m
  | k :: ks => markAll (if k = "id" then m else mark m k) ks

def State.marked (s : State) : State := { s with outputs := markAll s.outputs s.secretOutputs }

/-- What is seen of an execution, in order -/
inductive Ev where
  /-- `BeginMutation` -/
  | began
  | asked (c : Call)
  /-- the mutation is ended, and the checkpoint written: whether as a success, and with which states -/
  | recorded (success : Bool) (old new : Option State)
  /-- the function given by the step is called: the program gets the state (`Done`), or nothing for deletions -/
  | told (new : Option State)
  deriving DecidableEq

/-- What can go wrong around the step: the checkpoint cannot be written before or after it, the update was terminated by its
user, the resource was registered before (`pendingNews`, 306-312) -/
structure Around where
  pre : Option String := none
  post : Option String := none
  terminated : Bool := false
  twice : Bool := false

/-- `Step.Logical` (step.go) -/
def Step.logical : Step → Bool
  | .same .. => true
  | .create _ _ replacing _ => !replacing
  | .delete _ replacing => !replacing
  | .removePendingReplace _ => false
  | .update .. => true
  | .replace .. => true
  | .read _ _ replacing => !replacing
  | .refresh _ => false

def Step.isUpdate : Step → Bool
  | .update .. => true
  | _ => false

/-- a partially failed update keeps the old inputs (update.go:594-606) -/
def restore (s : Step) (status : Status) (old new : Option State) : Option State :=
  if status = .partialFailure ∧ s.isUpdate = true then
    match old, new with
    | some o, some n => some { n with inputs := o.inputs }
    | _, n => n
  else new

/-- `executeStep` (289-383) with `OnResourceStepPre` and `OnResourceStepPost` -/
def execute (preview : Bool) (prov : Except String Provider) (w : Around) (s : Step) : List Ev × Option Err :=
  match w.pre with
  | some m => ([.began], some (.other m))
  | none =>
    let a := apply preview prov s
    let asked := Ev.began :: a.calls.map .asked
    if a.err.isNone && s.logical && a.new.isSome && w.twice then (asked, some (.other "registered twice"))
    else
      let new := a.new.map State.marked
      if w.terminated then
        (asked ++ (if a.completes then [.told new] else []), a.err)
      else
        let new := restore s a.status a.old new
        let recorded := Ev.recorded (a.err.isNone || a.status == .partialFailure) a.old new
        match w.post with
        | some m => (asked ++ [recorded], some (.other m))
        | none => (asked ++ recorded :: (if a.completes then [.told new] else []), a.err)

/-- `ExecuteRegisterResourceOutputs` (151-214), without plans (see Plan): the outputs are replaced, and written to the
checkpoint.  What is left of the state is returned. -/
def registerOutputs (registered : State) (outs : Props) : State := { registered with outputs := outs }

end Pulumi.Steps
