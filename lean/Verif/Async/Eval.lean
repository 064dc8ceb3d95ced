import Verif.Async.Model
/-!
# Evaluating one task against the final results of all futures

`eval` is a sequential reading of a coroutine: it looks awaited futures up in a given store and returns what the
coroutine writes. `Lemmas.settled` shows that at the end of every execution every task has written exactly what
`eval` says, so properties of all schedules reduce to properties of `eval`.
-/
namespace Pulumi.Async

/-- What a task does: its own result, its slots, the tasks it starts and the callbacks it invokes. -/
structure Outcome where
  result : Option Res
  slots : Nat → Option Res
  children : Nat
  spawned : List (TaskId × Prog)
  calls : List Val

def Outcome.init : Outcome :=
  { result := none, slots := fun _ => none, children := 0, spawned := [], calls := [] }

def eval (σ : Store) (t : TaskId) : Prog → Outcome → Outcome
  | .ret v, o => { o with result := some (.ok v) }
  | .raise e, o => { o with result := some (.exn e) }
  | .await f k, o =>
    match σ f with
    | none => o
    | some r => eval σ t (k r) o
  | .gather fs k, o =>
    match gatherRes σ fs with
    | none => o
    | some r => eval σ t (k r) o
  | .spawn p k, o =>
    eval σ t (k (.child t o.children))
      { o with children := o.children + 1, spawned := o.spawned ++ [(.child t o.children, p)] }
  | .set i r k, o =>
    match o.slots i with
    | none => eval σ t (k true) { o with slots := fun j => if j = i then some r else o.slots j }
    | some _ => eval σ t (k false) o
  | .call v k, o => eval σ t k { o with calls := o.calls ++ [v] }

/-- In state `d` every task has done exactly what its body prescribes given the results of the futures. -/
structure Settled (d : Config) : Prop where
  result : ∀ t T, d.tasks t = some T → d.futs (.result t) = (eval d.futs t T.origin Outcome.init).result
  slots : ∀ t T, d.tasks t = some T → ∀ i, d.futs (.slot t i) = (eval d.futs t T.origin Outcome.init).slots i
  calls : ∀ t T, d.tasks t = some T → T.calls = (eval d.futs t T.origin Outcome.init).calls
  spawned : ∀ t T, d.tasks t = some T → ∀ c p, (c, p) ∈ (eval d.futs t T.origin Outcome.init).spawned →
    ∃ T', d.tasks c = some T' ∧ T'.origin = p
  absent : ∀ f, d.tasks f.task = none → d.futs f = none

end Pulumi.Async
