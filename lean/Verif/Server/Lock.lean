/-!
# Requests to a component provider

`provider/server.py:66-75` (`Construct`), `197-206` (`Call`), the settings they install (`runtime/settings.py:131-143`,
`287-310`) and the lock of Python's standard library they use (`asyncio.Lock`, CPython's `Lib/asyncio/locks.py`); paths are
relative to `/repo/sdk/python/lib/pulumi/`.

Any number of requests arrive at any time; each may be cancelled at any time, as gRPC does when the client gives up. What
happens inside a body is left open. All interleavings at `await`s are executions of the model.
-/
namespace Pulumi.Server

/-- The future on which a waiting `acquire` awaits. -/
inductive Fut where
  | pending
  /-- `set_result(True)` by `_wake_up_first` -/
  | woken
  /-- `task.cancel()` cancels the future the task awaits -/
  | cancelled
deriving DecidableEq, Repr

def Fut.done : Fut → Bool
  | .pending => false
  | _ => true

/-- Which handler a request goes to. `Configure` and `GetPluginInfo` (server.py:287-300) neither lock nor touch the
settings. -/
inductive Method where
  | construct
  | call
  | other
deriving DecidableEq, Repr

/-- Where a request is. -/
inductive Phase where
  | new
  /-- in `await self.lock.acquire()` -/
  | waiting
  /-- in `self._construct` or `self._call` -/
  | body
  | ended
deriving DecidableEq, Repr

structure State where
  method : Nat → Method
  phase : Nat → Phase
  /-- `Lock._locked` -/
  locked : Bool
  /-- `Lock._waiters` with the request each belongs to -/
  waiters : List (Nat × Fut)
  /-- the request that last called `reset_options`: the module global `SETTINGS` holds what that request brought -/
  settings : Option Nat
  /-- requests with tasks that outlive an `await` of their body -/
  tasks : List Nat

def set {α : Type} (f : Nat → α) (i : Nat) (a : α) : Nat → α := fun j => if j = i then a else f j

/-- `Lock._wake_up_first` -/
def wakeFirst : List (Nat × Fut) → List (Nat × Fut)
  | [] => []
  | (r, f) :: ws => if f.done then (r, f) :: ws else (r, .woken) :: ws

/-- `self._waiters.remove(fut)` -/
def unwait (r : Nat) (ws : List (Nat × Fut)) : List (Nat × Fut) := ws.filter fun w => w.1 ≠ r

/-- Cancel the future that `r` awaits, unless it is done. -/
def cancelFut (r : Nat) (ws : List (Nat × Fut)) : List (Nat × Fut) :=
  ws.map fun w => if w.1 = r ∧ w.2 = .pending then (r, .cancelled) else w

/-- `acquire` when it need not wait: the lock is free and nobody is queued but cancelled ones. -/
def fast (s : State) : Bool := !s.locked && s.waiters.all fun w => w.2 = .cancelled

/-- Do the handlers serialise? `Construct` and `Call` do (server.py:70-75, 200-206). -/
def Method.locks : Method → Bool
  | .construct => true
  | .call => true
  | .other => false

/-- Does the handler run code of the provider, under settings of its own? -/
def Method.runs : Method → Bool
  | .construct => true
  | .call => true
  | .other => false

/-- The lock has been acquired: the body runs up to its first `await`, which is after `reset_options` (81-97, 212-227). -/
def enter (s : State) (r : Nat) : State := { s with locked := true, phase := set s.phase r .body, settings := some r }

/-- A request arrives (`acquire` up to its await). -/
def arrive (s : State) (r : Nat) : State :=
  if (s.method r).locks then
    if fast s then enter s r
    else { s with waiters := s.waiters ++ [(r, .pending)], phase := set s.phase r .waiting }
  else if (s.method r).runs then { s with phase := set s.phase r .body, settings := some r }
  else { s with phase := set s.phase r .ended }

/-- `release` in the `finally`; on a lock that is not locked it raises RuntimeError, `none` here. -/
def leave (s : State) (r : Nat) : Option State :=
  if s.locked then some { s with locked := false, waiters := wakeFirst s.waiters, phase := set s.phase r .ended }
  else none

/-- The waiting `acquire` is resumed by its future's result. -/
def resume (s : State) (r : Nat) : State := enter { s with waiters := unwait r s.waiters } r

/-- The waiting `acquire` is resumed by CancelledError: `if not self._locked: self._wake_up_first()`. -/
def giveUp (s : State) (r : Nat) : State :=
  { s with
    waiters := if s.locked then unwait r s.waiters else wakeFirst (unwait r s.waiters)
    phase := set s.phase r .ended }

/-- What can happen next. -/
inductive Step (s : State) : State → Prop
  | arrive {r} : s.phase r = .new → Step s (arrive s r)
  | resume {r} : s.phase r = .waiting → (r, .woken) ∈ s.waiters → Step s (resume s r)
  /-- a request is cancelled while its `acquire` waits; its task notices later -/
  | cancel {r} : s.phase r = .waiting → Step s { s with waiters := cancelFut r s.waiters }
  /-- the task notices; cancellation may also come between the wake-up and the resumption -/
  | giveUp {r f} : s.phase r = .waiting → (r, f) ∈ s.waiters → f.done → Step s (giveUp s r)
  /-- the body returns, raises or is cancelled -/
  | leave {r s'} : s.phase r = .body → leave s r = some s' → Step s s'
  /-- the body creates a task -/
  | spawn {r} : s.phase r = .body → Step s { s with tasks := r :: s.tasks }
  | taskEnd {r} : r ∈ s.tasks → Step s { s with tasks := s.tasks.erase r }

inductive Steps : State → State → Prop
  | refl {s} : Steps s s
  | tail {s t u} : Steps s t → Step t u → Steps s u

/-- A server that has just started. -/
def State.init (method : Nat → Method) : State :=
  { method, phase := fun _ => .new, locked := false, waiters := [], settings := none, tasks := [] }

end Pulumi.Server
