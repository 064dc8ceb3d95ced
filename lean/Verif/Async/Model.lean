/-!
# The event loop

A small-step model of the part of `asyncio` the SDK uses (`output.py`, `runtime/rpc.py`,
`runtime/resource.py`, `runtime/rpc_manager.py`): futures, tasks created with `asyncio.ensure_future`, `await`,
`asyncio.gather` and `Future.set_result`.

Simplifications:
* every effect is one scheduler step, and any ready task may run next; asyncio switches tasks only at awaits
  of pending futures and runs ready tasks in FIFO order, so its executions are among the ones modelled;
* a future written by a coroutine of the SDK is a *slot* of the task that writes it (in the code the future is
  allocated by the caller and captured by the coroutine's closure; exactly one coroutine sets it);
* an already resolved future (`f = Future(); f.set_result(v)`) is a task that immediately returns `v`;
* task cancellation, timeouts and threads are not modelled;
* when several futures of a `gather` fail, which exception surfaces depends on timing; the model gives the
  failure of a `gather` a single identity `gatherExc`.
-/
namespace Pulumi.Async

/-- Identity of a task: a root task, or the `n`-th task started by another task. -/
inductive TaskId where
  | root (i : Nat)
  | child (t : TaskId) (n : Nat)
deriving DecidableEq, Repr

/-- Identity of a future: the result of a task, or a future that the task sets explicitly. -/
inductive FutId where
  | result (t : TaskId)
  | slot (t : TaskId) (i : Nat)
deriving DecidableEq, Repr

/-- The task that writes a future. -/
def FutId.task : FutId → TaskId
  | .result t => t
  | .slot t _ => t

/-- The four futures of an `Output` object (`output.py:62-86`). -/
structure OutRef where
  resources : FutId
  value : FutId
  known : FutId
  secret : FutId
deriving DecidableEq, Repr

/-- Exceptions are identified by a name. -/
abbrev Exc := String

/-- Python values as far as `output.py` looks at them. -/
inductive Val where
  | none
  | bool (b : Bool)
  | int (i : Int)
  | str (s : String)
  /-- the `UNKNOWN` sentinel object (`output.py:511-523`) -/
  | unknown
  | list (xs : List Val)
  | dict (kvs : List (String × Val))
  /-- an instance of an input class with its `__dict__` -/
  | input (cls : String) (fields : List (String × Val))
  /-- a `Resource` object -/
  | resource (id : Nat)
  /-- a set of `Resource` objects -/
  | resSet (ids : List Nat)
  /-- an awaitable (future or task) -/
  | fut (f : FutId)
  /-- an `Output` -/
  | out (o : OutRef)
  deriving Repr

/-- The outcome of a future. -/
inductive Res where
  | ok (v : Val)
  | exn (e : Exc)
  deriving Repr

/-- Coroutine bodies, as trees of effects. Every branch is finite, so a coroutine always terminates or blocks. -/
inductive Prog where
  /-- `return v` -/
  | ret (v : Val)
  /-- an exception leaves the coroutine -/
  | raise (e : Exc)
  /-- `await f`; the continuation receives a result or an exception (and may catch it) -/
  | await (f : FutId) (k : Res → Prog)
  /-- `await asyncio.gather(*fs)` -/
  | gather (fs : List FutId) (k : Res → Prog)
  /-- `asyncio.ensure_future(p)` for a coroutine `p` -/
  | spawn (p : Prog) (k : TaskId → Prog)
  /-- `slot.set_result(..)` / `set_exception`; the continuation is told whether the write took place
  (`false`: `InvalidStateError`, the future was already done) -/
  | set (i : Nat) (r : Res) (k : Bool → Prog)
  /-- a user callback is invoked with argument `v` (observed, no effect) -/
  | call (v : Val) (k : Prog)

/-- A running or finished task. `origin`, `spawned` and `calls` are history: the body it was created with, the
tasks it started and the callback invocations it made. `prog = none` once finished. -/
structure Task where
  origin : Prog
  prog : Option Prog
  children : Nat
  spawned : List (TaskId × Prog)
  calls : List Val

/-- The results of futures so far. -/
abbrev Store := FutId → Option Res

/-- State of the event loop. -/
structure Config where
  tasks : TaskId → Option Task
  futs : Store

def Store.write (σ : Store) (f : FutId) (r : Res) : Store :=
  fun g => if g = f then (match σ f with | none => some r | some r' => some r') else σ g

def Config.setTask (c : Config) (t : TaskId) (T : Task) : Config :=
  { c with tasks := fun u => if u = t then some T else c.tasks u }

/-- The exception a failed `gather` raises. -/
def gatherExc : Exc := "gather"

/-- `asyncio.gather`: fails as soon as some member has failed, succeeds when all have succeeded. -/
def gatherRes (σ : Store) : List FutId → Option Res
  | [] => some (.ok (.list []))
  | f :: fs =>
    match σ f, gatherRes σ fs with
    | some (.exn _), _ => some (.exn gatherExc)
    | _, some (.exn e) => some (.exn e)
    | some (.ok v), some (.ok (.list vs)) => some (.ok (.list (v :: vs)))
    | _, _ => none

/-- A freshly created task. -/
def Task.fresh (p : Prog) : Task :=
  { origin := p, prog := some p, children := 0, spawned := [], calls := [] }

/-- One scheduler step of task `t`; `none` if `t` cannot run (does not exist, finished, or blocked). -/
def stepTask (c : Config) (t : TaskId) : Option Config :=
  match c.tasks t with
  | none => none
  | some T =>
    match T.prog with
    | none => none
    | some (.ret v) =>
      some { (c.setTask t { T with prog := none }) with futs := c.futs.write (.result t) (.ok v) }
    | some (.raise e) =>
      some { (c.setTask t { T with prog := none }) with futs := c.futs.write (.result t) (.exn e) }
    | some (.await f k) =>
      match c.futs f with
      | none => none
      | some r => some (c.setTask t { T with prog := some (k r) })
    | some (.gather fs k) =>
      match gatherRes c.futs fs with
      | none => none
      | some r => some (c.setTask t { T with prog := some (k r) })
    | some (.spawn p k) =>
      some ((c.setTask (.child t T.children) (Task.fresh p)).setTask t
        { T with prog := some (k (.child t T.children)), children := T.children + 1,
                 spawned := T.spawned ++ [(.child t T.children, p)] })
    | some (.set i r k) =>
      match c.futs (.slot t i) with
      | none => some { (c.setTask t { T with prog := some (k true) }) with
                        futs := c.futs.write (.slot t i) r }
      | some _ => some (c.setTask t { T with prog := some (k false) })
    | some (.call v k) =>
      some (c.setTask t { T with prog := some k, calls := T.calls ++ [v] })

/-- One step of some task. -/
def Step (c c' : Config) : Prop := ∃ t, stepTask c t = some c'

/-- An execution: any finite number of steps, any schedule. The index is the number of steps. -/
inductive Steps : Nat → Config → Config → Prop
  | refl (c) : Steps 0 c c
  | cons {n c c' d} : Step c c' → Steps n c' d → Steps (n + 1) c d

/-- No task can run any more. -/
def Quiescent (c : Config) : Prop := ∀ t, stepTask c t = none

/-- The initial state: some root tasks, no future resolved. -/
def start (roots : Nat → Option Prog) : Config where
  tasks := fun t => match t with
    | .root i => (roots i).map Task.fresh
    | .child _ _ => none
  futs := fun _ => none

/-- A complete execution of the event loop from its initial state. -/
def Completes (roots : Nat → Option Prog) (d : Config) : Prop :=
  ∃ n, Steps n (start roots) d ∧ Quiescent d

/-! ## Synchronous code

Code that runs between two awaits can start tasks but not wait. -/

/-- Synchronous code returning an `α`: `ensure_future` is its only effect. -/
inductive Sync (α : Type) where
  | pure (a : α)
  | raise (e : Exc)
  | spawn (p : Prog) (k : TaskId → Sync α)

def Sync.bind {α β : Type} : Sync α → (α → Sync β) → Sync β
  | .pure a, f => f a
  | .raise e, _ => .raise e
  | .spawn p k, f => .spawn p (fun t => (k t).bind f)

instance : Monad Sync where
  pure := Sync.pure
  bind := Sync.bind

/-- Run synchronous code inside a coroutine; the continuation receives its value or exception. -/
def Sync.run {α : Type} : Sync α → (Except Exc α → Prog) → Prog
  | .pure a, k => k (.ok a)
  | .raise e, k => k (.error e)
  | .spawn p q, k => .spawn p (fun t => (q t).run k)

/-- In the state `d`, task `t` has executed the synchronous code `s`, starting with its `n`-th child, and the
code ended with `r` (a value or an exception): every task the code started is present with the body given to it.
`n'` is the number of children of `t` afterwards. -/
inductive Ran {α : Type} (d : Config) (t : TaskId) : Nat → Sync α → Except Exc α → Nat → Prop
  | pure {n a} : Ran d t n (.pure a) (.ok a) n
  | raise {n e} : Ran d t n (.raise e) (.error e) n
  | spawn {n p k r n'} : (∃ T, d.tasks (.child t n) = some T ∧ T.origin = p) →
      Ran d t (n + 1) (k (.child t n)) r n' → Ran d t n (.spawn p k) r n'

end Pulumi.Async
