/-!
# How an update ends

`pkg/resource/deploy/deployment_executor.go`: `Execute` (144-372), `checkTargets` (63-99) and `performDeletes` (374-433), as far as the
result and what is reported go. Paths are relative to `/repo/`.

What the parts of the deployment answer is given: the refresh, the source, the step generator and the step executor are other areas
(`StepGen`, `Workers`, `Steps`, `DepGraph`). What the main loop sees is a list of observations, in any order: `select` may take either of
two that are ready.
-/
namespace Pulumi.Verdict

/-- A `result.Result` that is not nil: a bail, for what was reported already, or an error -/
inductive Res where
  | bail
  | err (msg : String)
  deriving DecidableEq, Repr

/-- What is put on the diagnostics stream: an error, a target that is not there, and the warning about pending operations -/
inductive Report where
  | error (urn msg : String)
  | unknownTarget (urn : String)
  | pendingWarning
  deriving DecidableEq, Repr

/-- `reportError` unless there is no error in the result (261-263, 273-277, 283-286, 352-355) -/
def reportOf (urn : String) : Res → List Report
  | .bail => []
  | .err m => [.error urn m]

/-- What a round of the main loop sees (254-297): an error of the source (260); its end, with what the deletions then give (270); an event, with
what handling it gives (282); or the end of the context, with whether the caller's ended (290-295). -/
inductive Obs where
  | sourceFailed (r : Res)
  | ended (deletes : Option Res)
  | handled (urn : String) (r : Option Res)
  | done (callerCanceled : Bool)
  deriving DecidableEq, Repr

/-- The main loop (252-298): whether it was canceled, its result, and what it reported; `none` while it waits. -/
def loop : List Obs → Option (Bool × Option Res × List Report)
  | [] => none
  | .sourceFailed r :: _ => some (false, some .bail, reportOf "" r)
  | .ended none :: _ => some (false, none, [])
  | .ended (some r) :: _ => some (false, some .bail, reportOf "" r)
  | .handled _ none :: rest => loop rest
  | .handled urn (some r) :: _ => some (false, some .bail, reportOf urn r)
  | .done c :: _ => some (c, none, [])

/-- `checkTargets` (63-99): the targets known are those for which `known` holds -/
def checkTargets (known : String → Bool) (targets : List String) : Option Res × List Report :=
  let missing := targets.filter (fun t => !known t)
  (if missing = [] then none else some .bail, missing.map .unknownTarget)

/-- Lines 315-341: the operations of the plan that are left. One whose only operation left is a deletion, of a resource that was not there,
is passed over. Simplifications: the plan, a Go map, is gone
through in the order of the list, and the previous snapshot is there whenever there is a plan (320 would fail without it). -/
def planLeft (prev : List String) (plan : List (String × List String)) : List String :=
  (plan.filter (fun e => !e.2.isEmpty && !(decide (e.2 = ["delete"]) && !prev.contains e.1))).map (·.1)

/-- What `Execute` takes and what the parts of the deployment answer -/
structure Env where
  /-- `isImport`, and what importing gives -/
  importing : Option (Option Res)
  /-- `opts.Refresh`, and what refreshing gives -/
  refresh : Option (Option Res)
  refreshOnly : Bool
  preview : Bool
  /-- whether the previous snapshot has pending operations -/
  pendingOps : Bool
  updateTargets : List String
  replaceTargets : List String
  destroyTargets : List String
  /-- the resources of the previous snapshot, and those the step generator has seen -/
  olds : String → Bool
  news : String → Bool
  /-- the result of `source.Iterate` -/
  iterate : Option Res
  /-- the result of `retirePendingDeletes` -/
  retire : Option Res
  obs : List Obs
  /-- the URNs of the previous snapshot and the plan with the operations left, if there is a plan -/
  prev : List String
  plan : Option (List (String × List String))
  stepErrored : Bool
  genErrored : Bool
  analyze : Option Res

/-- How `Execute` ends -/
inductive Outcome where
  /-- a nil result -/
  | success
  | failed (r : Res)
  /-- `contract.Failf` (198) -/
  | crash
  deriving DecidableEq, Repr

/-- `reportExecResult` (128-135) -/
def execReport (preview : Bool) (message : String) : Report := .error "" ((if preview then "preview" else "update") ++ " " ++ message)

/-- Lines 343-371, given whether the loop was canceled and the result so far -/
def conclude (e : Env) (canceled : Bool) (res : Option Res) : Outcome × List Report :=
  if res = some .bail then (.failed .bail, [])
  else
    match (if res = none ∧ e.stepErrored = false then e.analyze else none) with
    | some r => (.failed .bail, reportOf "" r)
    | none =>
      if res ≠ none ∨ e.stepErrored = true ∨ e.genErrored = true then (.failed .bail, [execReport e.preview "failed"])
      else if canceled then (.failed .bail, [execReport e.preview "canceled"])
      else (.success, [])

/-- Lines 303-371: what follows the main loop -/
def finish (e : Env) (canceled : Bool) (res : Option Res) : Outcome × List Report :=
  let t := if res = none then checkTargets (fun u => e.olds u || e.news u) e.updateTargets else (res, [])
  let left := if t.1 = none then planLeft e.prev (e.plan.getD []) else []
  let res' := if left = [] then t.1 else some .bail
  let c := conclude e canceled res'
  (c.1, t.2 ++ left.map (fun u => .error u ("expected resource operations for " ++ u ++ " but none were seen")) ++ c.2)

/-- Lines 182-371: what follows the refresh -/
def afterRefresh (e : Env) : Option (Outcome × List Report) :=
  match checkTargets e.olds e.replaceTargets with
  | (some r, reps) => some (.failed r, reps)
  | (none, _) =>
    match checkTargets e.olds e.destroyTargets with
    | (some r, reps) => some (.failed r, reps)
    | (none, _) =>
      if (e.updateTargets ≠ [] ∨ e.replaceTargets ≠ []) ∧ e.destroyTargets ≠ [] then some (.crash, [])
      else
        match e.iterate with
        | some r => some (.failed r, [])
        | none =>
          match e.retire with
          | some r => some (.failed r, [])
          | none =>
            match loop e.obs with
            | none => none
            | some (canceled, res, reps) => some ((finish e canceled res).1, reps ++ (finish e canceled res).2)

/-- `Execute` (144-372): how it ends and what it reports; `none` while it waits. The results of an import, a refresh and the retiring of deletions
are passed on as they are. -/
def execute (e : Env) : Option (Outcome × List Report) :=
  match e.importing with
  | some none => some (.success, [])
  | some (some r) => some (.failed r, [])
  | none =>
    match e.refresh with
    | some (some r) => some (.failed r, [])
    | some none => if e.refreshOnly then some (.success, []) else afterRefresh e
    | none =>
      let warn := if e.pendingOps && !e.preview then [Report.pendingWarning] else []
      (afterRefresh e).map (fun o => (o.1, warn ++ o.2))

/-- `performDeletes` (374-433) where there is something to delete: the result, and the sets of deletions that were begun. `gen` is what generating
the deletions gives; the context ends, if it does, while the set `endsIn` is under way, after which nothing is begun
(`step_executor.go:105-125`, see `Workers`), and waiting for the later sets returns at once (418-419).
Simplification: all of the set under way was begun. -/
def performDeletes (gen : Except Res (List (List String))) (endsIn : Option Nat) : Option Res × List (List String) :=
  match gen with
  | .error r => (some r, [])
  | .ok sets => (none, match endsIn with | none => sets | some i => sets.take (i + 1))

end Pulumi.Verdict
