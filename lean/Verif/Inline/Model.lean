import Verif.Loop.Model
import Verif.Conf.Model

/-!
# Inline programs of the automation API

`automation/_server.py`; paths are relative to `/repo/sdk/python/lib/pulumi/`. Also the end of
`/repo/sdk/python/cmd/pulumi-language-python-exec`, which runs programs that are not inline.

`LanguageServer.Run` runs a program in the process of its caller, on a thread of its own and in an event loop of its own; a process may
have any number of them at the same time. What a program and its event loop do is the model of `Pulumi.Loop`; the singleton
`RPC_MANAGER` is shared by all programs of the process.
-/
namespace Pulumi.Inline
open Pulumi.Loop

/-! ## The result of a run -/

/-- An exception, as far as `Run` looks at it (`automation/_server.py:71-95`). -/
inductive Exn where
  /-- `RunError` with `str(exn)` -/
  | run (msg : String)
  /-- `grpc.RpcError` with the status UNAVAILABLE -/
  | unavailable
  /-- another `grpc.RpcError` with `exn.details()` -/
  | rpc (details : String)
  /-- another `Exception`, with its message and traceback -/
  | other (text : String)
  /-- a `BaseException` that is not an `Exception`, such as `SystemExit` -/
  | base
deriving DecidableEq, Repr

/-- What the engine gets: `RunResponse` with its `error`, or a failed gRPC call. -/
inductive Response where
  | response (error : String)
  | failed
deriving DecidableEq, Repr

/-- How the event loop's `run_until_complete(run_in_stack(program))` ended. -/
inductive Ended where
  | returned
  | raised (e : Exn)
deriving DecidableEq, Repr

/-- `automation/_server.py:68-116`: the result of `Run`. The field `error` of a new response is the empty string. -/
def response : Ended → Response
  | .returned => .response ""
  | .raised (.run msg) => .response msg
  | .raised .unavailable => .response ""
  | .raised (.rpc details) => .response ("RPC error: " ++ details)
  | .raised (.other text) => .response ("python inline source runtime error: " ++ text)
  | .raised .base => .failed

/-- `pulumi-language-python-exec:143-166`: the exit code; `none` if it is left to the exception (`SystemExit`). -/
def exitCode : Ended → Option Nat
  | .returned => some 0
  | .raised (.run _) => some 1
  | .raised .unavailable => some 32
  | .raised (.rpc _) => some 32
  | .raised (.other _) => some 32
  | .raised .base => none

/-! ## Programs that share the RPC manager -/

/-- `RPC_MANAGER` (`runtime/rpc_manager.py:90`): RPCs are tasks of the event loop of some run. -/
structure Manager where
  rpcs : List (Nat × Nat)
  unhandled : Option Nat
deriving DecidableEq, Repr

/-- `RPCManager.clear` (`runtime/rpc_manager.py:83-87`). -/
def Manager.clear : Manager := ⟨[], none⟩

/-- Where `Run` is. -/
inductive Phase where
  /-- in `loop.run_until_complete(run_in_stack(...))` (`automation/_server.py:72`) -/
  | running
  /-- in the `finally` (96-114), with these pending tasks still to be cancelled and awaited -/
  | closing (todo : List Nat)
  /-- it ended after `RPC_MANAGER.clear()` -/
  | closed
  /-- it ended because the `finally` raised -/
  | crashed (e : Nat)
deriving DecidableEq, Repr

/-- A run of a program: the tasks of its event loop, its main task, and where `Run` is. -/
structure Run where
  tasks : List Task
  main : Main
  phase : Phase
deriving DecidableEq, Repr

structure Proc where
  runs : List Run
  mgr : Manager
deriving DecidableEq, Repr

/-- What the event loop of a run sees. -/
def view (r : Run) (m : Manager) : State :=
  { tasks := r.tasks, rpcs := m.rpcs.map (·.2), unhandled := m.unhandled, main := r.main }

/-- The list of RPCs after run `i` has added to its end or removed from its end. -/
def relabel (i : Nat) (old : List (Nat × Nat)) (new : List Nat) : List (Nat × Nat) :=
  old.take new.length ++ (new.drop old.length).map (i, ·)

/-- The manager after a step of run `i`. -/
def managerAfter (i : Nat) (m : Manager) (s : State) : Manager := ⟨relabel i m.rpcs s.rpcs, s.unhandled⟩

/-- The run after a step. -/
def runAfter (r : Run) (s : State) : Run := { r with tasks := s.tasks, main := s.main }

/-- `asyncio.CancelledError`. -/
def cancelled : Nat := 2

/-- `asyncio`'s RuntimeError "attached to a different loop". -/
def foreignError : Nat := 1

/-- `await RPC_MANAGER.rpcs.pop()` (`runtime/stack.py:73`) when the task belongs to the event loop of another run: a done task has a result, any
other raises. -/
def afterForeign (f : Option Nat) : Option Result → Main
  | some r => afterAwait f r
  | none => .raised foreignError

/-- The next RPC to be popped is not one of run `i`. -/
def ForeignNext (i : Nat) (m : Manager) : Prop := ∃ j k, m.rpcs.getLast? = some (j, k) ∧ j ≠ i

/-- The main task of a run is about to pop an RPC of another run. -/
def PopsForeign (i : Nat) (r : Run) (m : Manager) : Prop := (∃ f, r.main = .sleeping f) ∧ ForeignNext i m

/-- The result of a task of a run. -/
def Proc.resultOf (p : Proc) (j k : Nat) : Option Result := (p.runs[j]?).bind fun r => (r.tasks[k]?).bind (·.result)

/-- The result of a task of a run. -/
def Run.resultOf (r : Run) (k : Nat) : Option Result := (r.tasks[k]?).bind (·.result)

/-- One step of one thread. -/
inductive Step (p : Proc) : Proc → Prop
  /-- `Run` begins (`automation/_server.py:46-70`); nothing is done to the manager -/
  | start : Step p { p with runs := p.runs ++ [⟨[], .user, .running⟩] }
  /-- a step of the event loop of run `i` -/
  | loop {i : Nat} {r : Run} {s' : State} : p.runs[i]? = some r → r.phase = .running → ¬ PopsForeign i r p.mgr →
      Loop.Step true (view r p.mgr) s' → Step p ⟨p.runs.set i (runAfter r s'), managerAfter i p.mgr s'⟩
  /-- run `i` pops an RPC of run `j` -/
  | foreign {i : Nat} {r : Run} {f : Option Nat} {j k : Nat} : p.runs[i]? = some r → r.phase = .running → r.main = .sleeping f →
      p.mgr.rpcs.getLast? = some (j, k) → j ≠ i →
      Step p ⟨p.runs.set i { r with main := afterForeign f (p.resultOf j k) }, { p.mgr with rpcs := p.mgr.rpcs.dropLast }⟩
  /-- the `finally` begins: `asyncio.all_tasks(loop)` (101-107) are the tasks that are not done, in any order -/
  | finally_ {i : Nat} {r : Run} {todo : List Nat} : p.runs[i]? = some r → r.phase = .running → r.main.ended →
      (∀ k, k ∈ todo ↔ k < r.tasks.length ∧ r.resultOf k = none) → todo.Nodup →
      Step p { p with runs := p.runs.set i { r with phase := .closing todo } }
  /-- during `loop.run_until_complete(task)` (112) pending tasks end, cancelled or not; they may begin RPCs and record exceptions -/
  | dying {i : Nat} {r : Run} {todo : List Nat} (k : Nat) (res : Result) (added : List Nat) (e : Option Nat) :
      p.runs[i]? = some r → r.phase = .closing todo → r.resultOf k = none →
      Step p ⟨p.runs.set i { r with tasks := finish r.tasks k res }, ⟨p.mgr.rpcs ++ added.map (i, ·), p.mgr.unhandled.or e⟩⟩
  /-- the task is done: it was cancelled (`suppress`, 111), or returned; see `cancelled` -/
  | next {i : Nat} {r : Run} {k : Nat} {todo : List Nat} : p.runs[i]? = some r → r.phase = .closing (k :: todo) →
      (r.resultOf k = some .ok ∨ r.resultOf k = some (.exn cancelled)) →
      Step p { p with runs := p.runs.set i { r with phase := .closing todo } }
  /-- the task has ended with an exception, which `run_until_complete` raises -/
  | crash {i : Nat} {r : Run} {k e : Nat} {todo : List Nat} : p.runs[i]? = some r → r.phase = .closing (k :: todo) →
      r.resultOf k = some (.exn e) → e ≠ cancelled →
      Step p { p with runs := p.runs.set i { r with phase := .crashed e } }
  /-- `RPC_MANAGER.clear()` (114) and the end of `Run` -/
  | close {i : Nat} {r : Run} : p.runs[i]? = some r → r.phase = .closing [] →
      Step p ⟨p.runs.set i { r with phase := .closed }, .clear⟩

/-- Any number of steps. -/
inductive Steps : Proc → Proc → Prop
  | refl {p : Proc} : Steps p p
  | tail {p q t : Proc} : Steps p q → Step q t → Steps p t

/-- A process that has not run a program yet. -/
def Proc.init : Proc := ⟨[], .clear⟩

/-- The result of `Run`; `exn` says what the exceptions are. -/
def Run.response (exn : Nat → Exn) (r : Run) : Option Response :=
  match r.phase, r.main with
  | .closed, .returned => some (Inline.response .returned)
  | .closed, .raised e => some (Inline.response (.raised (exn e)))
  | .crashed _, _ => some .failed
  | _, _ => none

/-! ## Configuration of a run -/

/-- A `RunRequest` as far as configuration goes; a protobuf list or map is never `None`. -/
structure ConfigRequest where
  config : List (String × String)
  secretKeys : List String
deriving Repr

/-- `request.config` as Python values. -/
def ConfigRequest.dict (r : ConfigRequest) : Conf.Dict := r.config.map fun kv => (kv.1, .str kv.2)

/-- `request.configSecretKeys if request.configSecretKeys else None` (`automation/_server.py:63`). -/
def ConfigRequest.keys (r : ConfigRequest) : Option (List String) := if r.secretKeys = [] then none else some r.secretKeys

/-- `automation/_server.py:62-64`, in the context of the thread. -/
def configure (s : Conf.State) (c : Nat) (r : ConfigRequest) : Conf.State :=
  if r.config = [] then s else Conf.setAllConfig s c r.dict r.keys

/-- `pulumi-language-python-exec:71-75`: the environment is always put into the context. -/
def configureExec (s : Conf.State) (c : Nat) (config : Conf.Dict) (keys : List String) : Conf.State :=
  Conf.setAllConfig s c config (some keys)

end Pulumi.Inline
