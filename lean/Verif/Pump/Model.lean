/-!
# Waiting synchronously inside the event loop

`runtime/sync_await.py:40-92`, with which `invoke` (`runtime/invoke.py:139-145`) waits for its result in code that is not
a coroutine; paths are relative to `/repo/sdk/python/lib/pulumi/`. The function runs the event loop's `_run_once` from
within a callback of the event loop, so `_run_once` is re-entered. What it has to get right is the interplay with
CPython's `BaseEventLoop._run_once` (3.7 or later), modelled here: `_run_once` polls, takes the length of the ready queue
and then pops exactly that many handles; `Task.__step` brackets a task's code with `_enter_task` and `_leave_task`, which
raise if the current task is not the expected one.

Frames of the Python stack are modelled explicitly. What callbacks and tasks do is left open: at every step they may
schedule callbacks, create tasks, complete futures, stop the loop, wait synchronously, or end.

Simplified: timers and I/O readiness are callbacks that a poll may add; handles are not cancelled by others (a task is
cancelled by completing the future it waits for); exceptions raised by callbacks are not distinguished from their ending.
-/

namespace Pulumi.Pump

/-- What is on the ready queue: the next step of a task, a callback, or a cancelled handle. -/
inductive Handle
  | step (t : Nat)
  | callback (c : Nat)
  | cancelled
  deriving DecidableEq, Repr

/-- Frames of the Python stack. -/
inductive Frame
  /-- `run_forever`, `run_until_complete`. -/
  | forever
  /-- `_run_once` with so many handles still to pop. -/
  | once (todo : Nat)
  /-- The code of a callback (`none`) or a task. -/
  | code (who : Option Nat)
  /-- The loop of `_sync_await`: the future awaited, `ntodo`, the task that was left, and whether `_run_once` has been
  called. -/
  | sync (fut ntodo : Nat) (who : Option Nat) (ran : Bool)
  deriving DecidableEq, Repr

/-- What can go wrong: `popleft` on an empty queue (IndexError), `_enter_task` and `_leave_task` with the wrong current
task (RuntimeError). -/
inductive Err
  | emptyPop
  | enterTask
  | leaveTask
  deriving DecidableEq, Repr

structure State where
  /-- The Python stack, innermost frame first. -/
  stack : List Frame
  /-- `loop._ready`. -/
  ready : List Handle
  /-- `asyncio.current_task()`. -/
  current : Option Nat
  /-- Tasks that wait for futures. -/
  waiters : List (Nat × Nat)
  /-- The tasks created so far. -/
  created : List Nat
  /-- The tasks that have finished. -/
  finished : List Nat
  /-- The futures that are done. -/
  done : List Nat
  /-- `loop._stopping`. -/
  stopping : Bool
  /-- Everything ever scheduled, in order. -/
  scheduled : List Handle
  /-- Everything ever run, in order. -/
  ran : List Handle

/-- An event loop that has just been started on a task. -/
def State.init : State :=
  { stack := [.forever], ready := [.step 0], current := none, waiters := [], created := [0], finished := [], done := [], stopping := false,
    scheduled := [.step 0], ran := [] }

/-- `call_soon`. -/
def schedule (s : State) (hs : List Handle) : State := { s with ready := s.ready ++ hs, scheduled := s.scheduled ++ hs }

/-- `_enter_task`: raises unless there is no current task. -/
def enterTask (s : State) : Option Nat → Except Err State
  | none => .ok s
  | some t => if s.current = none then .ok { s with current := some t } else .error .enterTask

/-- `_leave_task`: raises unless the task is the current one. -/
def leaveTask (s : State) : Option Nat → Except Err State
  | none => .ok s
  | some t => if s.current = some t then .ok { s with current := none } else .error .leaveTask

/-- `Future.set_result`: the tasks that wait for the future are scheduled. -/
def complete (s : State) (f : Nat) : State :=
  schedule { s with done := f :: s.done, waiters := s.waiters.filter (fun w => w.2 != f) }
    ((s.waiters.filter (fun w => w.2 == f)).map fun w => .step w.1)

/-- One pass of the loop in `_run_once` when `todo + 1` handles are left: pop a handle, skip it if it is cancelled, run it
otherwise. -/
def popHandle (s : State) (todo : Nat) (rest : List Frame) : Except Err State :=
  match s.ready with
  | [] => .error .emptyPop
  | .cancelled :: hs => .ok { s with ready := hs, stack := .once todo :: rest }
  | .callback c :: hs =>
    .ok { s with ready := hs, stack := .code none :: .once todo :: rest, ran := s.ran ++ [.callback c] }
  | .step t :: hs =>
    enterTask { s with ready := hs, stack := .code (some t) :: .once todo :: rest, ran := s.ran ++ [.step t] } (some t)

/-- `_run_once` up to its loop: whatever the poll finds becomes ready, and the handles to run are counted. -/
def runOnce (s : State) (polled : List Nat) (under : List Frame) : State :=
  let s := schedule s (polled.map .callback)
  { s with stack := .once s.ready.length :: under }

/-- `_sync_await` up to its loop (sync_await.py:40-71), called by the code `who`: leave the current task and remember how
many handles are ready. -/
def syncEnter (s : State) (f : Nat) (stack : List Frame) : Except Err State :=
  match leaveTask s s.current with
  | .error e => .error e
  | .ok s' => .ok { s' with stack := .sync f s.ready.length s.current false :: stack }

/-- `_sync_await` after its loop (sync_await.py:76-87): push cancelled handles until the queue is as long as before, and
enter the task again. -/
def syncLeave (s : State) (ntodo : Nat) (who : Option Nat) (rest : List Frame) : Except Err State :=
  enterTask { s with ready := s.ready ++ List.replicate (ntodo - s.ready.length) .cancelled, stack := rest } who

/-- The condition under which the loop of `_sync_await` ends (sync_await.py:72-75). A cancelled future is done. -/
def syncEnds (s : State) (f : Nat) (ran : Bool) : Bool := s.done.contains f || (ran && s.stopping)

/-- The end of a task's code in this step: it either finishes (`none`) or awaits a future, whose completion, if it is
already done, is noticed in the next round (`Task.__step`, `Future.add_done_callback`). -/
def suspend (s : State) (t : Nat) : Option Nat → State
  | none => { s with finished := t :: s.finished }
  | some f => if s.done.contains f then schedule s [.step t] else { s with waiters := s.waiters ++ [(t, f)] }

/-- One step of the machine; the result may be an exception out of the event loop's own code. -/
inductive Step : State → Except Err State → Prop
  | forever {s : State} {rest : List Frame} (polled : List Nat) (h : s.stack = .forever :: rest) :
    Step s (.ok (runOnce s polled s.stack))
  | pop {s : State} {rest : List Frame} {n : Nat} (h : s.stack = .once (n + 1) :: rest) : Step s (popHandle s n rest)
  | popped {s : State} {rest : List Frame} (h : s.stack = .once 0 :: rest) : Step s (.ok { s with stack := rest })
  | call {s : State} {rest : List Frame} {who : Option Nat} (c : Nat) (h : s.stack = .code who :: rest) :
    Step s (.ok (schedule s [.callback c]))
  | create {s : State} {rest : List Frame} {who : Option Nat} (t : Nat) (h : s.stack = .code who :: rest)
    (hnew : t ∉ s.created) : Step s (.ok (schedule { s with created := t :: s.created } [.step t]))
  | complete {s : State} {rest : List Frame} {who : Option Nat} (f : Nat) (h : s.stack = .code who :: rest) :
    Step s (.ok (complete s f))
  | stop {s : State} {rest : List Frame} {who : Option Nat} (h : s.stack = .code who :: rest) :
    Step s (.ok { s with stopping := true })
  | endCallback {s : State} {rest : List Frame} (h : s.stack = .code none :: rest) : Step s (.ok { s with stack := rest })
  | endTask {s : State} {rest : List Frame} {t : Nat} (on : Option Nat) (h : s.stack = .code (some t) :: rest) :
    Step s (leaveTask (suspend { s with stack := rest } t on) (some t))
  | syncEnter {s : State} {rest : List Frame} {who : Option Nat} (f : Nat) (h : s.stack = .code who :: rest) :
    Step s (syncEnter s f s.stack)
  | syncRun {s : State} {rest : List Frame} {f n : Nat} {who : Option Nat} {r : Bool} (polled : List Nat)
    (h : s.stack = .sync f n who r :: rest) (hgo : syncEnds s f r = false) :
    Step s (.ok (runOnce s polled (.sync f n who true :: rest)))
  | syncLeave {s : State} {rest : List Frame} {f n : Nat} {who : Option Nat} {r : Bool}
    (h : s.stack = .sync f n who r :: rest) (hend : syncEnds s f r = true) : Step s (syncLeave s n who rest)

/-- Finitely many steps. -/
inductive Steps (s : State) : State → Prop
  | refl : Steps s s
  | step {t u : State} : Steps s t → Step t (.ok u) → Steps s u

/-- The states an event loop can get into. -/
def Reachable (s : State) : Prop := Steps .init s

end Pulumi.Pump
