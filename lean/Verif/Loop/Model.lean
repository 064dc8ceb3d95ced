/-!
# Waiting for RPCs

`runtime/rpc_manager.py` and `runtime/stack.py:35-117`; paths are relative to `/repo/sdk/python/lib/pulumi/`.

What programs do is left open: at every step any task that runs user code or talks to the engine may create further tasks,
finish or fail. All interleavings of tasks are executions of the model, so also those that asyncio's queue excludes; a
theorem about all executions covers all programs and all schedules. Cancellation is not modelled: the loop only requests
it just before it raises. Once the loop has returned or raised, the model stops.

Exceptions are numbers. The state of the singleton `RPC_MANAGER` and the tasks of the event loop make up the state.
-/
namespace Pulumi.Loop

/-- How a task finished. -/
inductive Result where
  | ok
  | exn (e : Nat)
deriving DecidableEq, Repr

inductive Kind where
  /-- applies, and coroutines that the program starts -/
  | plain
  /-- `rpc_function(*args)`, started by a wrapper (rpc_manager.py:65) -/
  | rpc
  /-- `rpc_wrapper` (62-81): not started, or awaiting the RPC -/
  | wrapper (inner : Option Nat)
deriving DecidableEq, Repr

structure Task where
  kind : Kind
  result : Option Result
deriving DecidableEq, Repr

/-- Where the main task is. `f` is the exception with which the program ended, if any: `run_pulumi_func` waits in a
`finally` (stack.py:47-54). -/
inductive Main where
  /-- in `func()` -/
  | user
  /-- at `while len(RPC_MANAGER.rpcs) > 0` (68) -/
  | top (f : Option Nat)
  /-- in `asyncio.sleep(0)` (69) -/
  | sleeping (f : Option Nat)
  /-- in `await RPC_MANAGER.rpcs.pop()` (73) -/
  | awaiting (f : Option Nat) (i : Nat)
  /-- in `asyncio.wait` (94-96) for these tasks -/
  | waiting (f : Option Nat) (ids : List Nat)
  /-- `run_pulumi_func` returned -/
  | returned
  /-- `run_pulumi_func` raised -/
  | raised (e : Nat)
deriving DecidableEq, Repr

structure State where
  /-- all tasks but the main one, by number -/
  tasks : List Task
  /-- `RPC_MANAGER.rpcs` -/
  rpcs : List Nat
  /-- `RPC_MANAGER.unhandled_exception` -/
  unhandled : Option Nat
  main : Main
deriving DecidableEq, Repr

/-- `asyncio.ensure_future` -/
def spawn (s : State) (k : Kind) : State := { s with tasks := s.tasks ++ [⟨k, none⟩] }

/-- The task ends. -/
def finish (ts : List Task) (i : Nat) (r : Result) : List Task :=
  ts.modify i fun t => { t with result := some r }

/-- `rpc_wrapper` up to its await (62-66): the RPC becomes a task and is appended to the list. -/
def wrapperStart (s : State) (i : Nat) : State :=
  { s with
    tasks := (s.tasks.modify i fun t => { t with kind := .wrapper (some s.tasks.length) }) ++ [⟨.rpc, none⟩]
    rpcs := s.rpcs ++ [s.tasks.length] }

/-- `if self.unhandled_exception is None: self.unhandled_exception = exn` (73-75). -/
def record (unhandled : Option Nat) : Result → Option Nat
  | .ok => unhandled
  | .exn e => if unhandled.isNone then some e else unhandled

/-- `rpc_wrapper` after its await (67-81); the wrapper itself never fails. -/
def wrapperEnd (s : State) (i : Nat) (r : Result) : State :=
  { s with tasks := finish s.tasks i .ok, unhandled := record s.unhandled r }

/-- `_get_running_tasks` (38-44): `asyncio.all_tasks()` are those not done. -/
def outstanding (s : State) : List Nat :=
  (List.range s.tasks.length).filter fun i => s.tasks[i]?.any fun t => t.result.isNone

/-- The end of the loop (116-117) and of `run_pulumi_func`: the program's own exception, if any, goes on. -/
def leave : Option Nat → Main
  | none => .returned
  | some e => .raised e

/-- `if len(RPC_MANAGER.rpcs) == 0: break` (115-117). -/
def again (s : State) (f : Option Nat) : Main := if s.rpcs.length = 0 then leave f else .top f

/-- From the head of the inner loop to the next await (68-96). `awaitAll` is `await_all_outstanding_tasks`. -/
def mainTop (awaitAll : Bool) (s : State) (f : Option Nat) : Main :=
  if s.rpcs.length > 0 then .sleeping f
  else
    match s.unhandled with
    | some e => .raised e
    | none =>
      if awaitAll then
        if (outstanding s).length = 0 then again s f else .waiting f (outstanding s)
      else again s f

/-- After the RPC that was awaited is done (73). -/
def afterAwait (f : Option Nat) : Result → Main
  | .ok => .top f
  | .exn e => .raised e

/-- What runs program code. -/
def Kind.free : Kind → Bool
  | .plain => true
  | .rpc => true
  | .wrapper _ => false

/-- What program code may create: a coroutine, or an RPC through `do_rpc`. -/
def Kind.fresh : Kind → Bool
  | .plain => true
  | .rpc => false
  | .wrapper i => i.isNone

/-- The result of task `i`, if it is done. -/
def State.resultOf (s : State) (i : Nat) : Option Result := (s.tasks[i]?).bind (·.result)

def Main.ended : Main → Bool
  | .returned => true
  | .raised _ => true
  | _ => false

/-- One step of some task. -/
inductive Step (awaitAll : Bool) (s : State) : State → Prop
  | userSpawn {k : Kind} : s.main = .user → k.fresh → Step awaitAll s (spawn s k)
  /-- `func()` returns or raises -/
  | userEnd {f} : s.main = .user → Step awaitAll s { s with main := .top f }
  | taskSpawn {i : Nat} {t : Task} {k : Kind} : ¬ s.main.ended → s.tasks[i]? = some t → t.kind.free → t.result = none → k.fresh →
      Step awaitAll s (spawn s k)
  | taskEnd {i : Nat} {t : Task} {r : Result} : ¬ s.main.ended → s.tasks[i]? = some t → t.kind.free → t.result = none →
      Step awaitAll s { s with tasks := finish s.tasks i r }
  | wrapStart {i : Nat} : ¬ s.main.ended → s.tasks[i]? = some ⟨.wrapper none, none⟩ → Step awaitAll s (wrapperStart s i)
  | wrapEnd {i j : Nat} {r : Result} : ¬ s.main.ended → s.tasks[i]? = some ⟨.wrapper (some j), none⟩ → s.resultOf j = some r →
      Step awaitAll s (wrapperEnd s i r)
  | top {f} : s.main = .top f → Step awaitAll s { s with main := mainTop awaitAll s f }
  /-- `pop()` takes the last one; on an empty list it raises IndexError, which is exception 0 here -/
  | popped {f} : s.main = .sleeping f →
      Step awaitAll s { s with main := match s.rpcs.getLast? with | some i => .awaiting f i | none => .raised 0
                               rpcs := s.rpcs.dropLast }
  | awaited {f i r} : s.main = .awaiting f i → s.resultOf i = some r → Step awaitAll s { s with main := afterAwait f r }
  /-- `asyncio.wait` returned because of an exception; the loop raises the exception of one of the done tasks (105-111) -/
  | waitRaised {f ids i e} : s.main = .waiting f ids → i ∈ ids → s.resultOf i = some (.exn e) →
      Step awaitAll s { s with main := .raised e }
  /-- all done, none failed -/
  | waitDone {f ids} : s.main = .waiting f ids → (∀ i ∈ ids, s.resultOf i = some .ok) →
      Step awaitAll s { s with main := again s f }

/-- Any number of steps. -/
inductive Steps (awaitAll : Bool) : State → State → Prop
  | refl {s : State} : Steps awaitAll s s
  | tail {s t u : State} : Steps awaitAll s t → Step awaitAll t u → Steps awaitAll s u

/-- A fresh process: nothing has been started. -/
def State.init : State := { tasks := [], rpcs := [], unhandled := none, main := .user }

end Pulumi.Loop
