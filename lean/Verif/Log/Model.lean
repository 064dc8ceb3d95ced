import Verif.Loop.Model

/-!
# Log messages

`log.py`, on top of the event loop of `Loop` (`runtime/stack.py`, `runtime/rpc_manager.py`); paths are relative to
`/repo/sdk/python/lib/pulumi/`.

Simplified: the debug messages that the wait loop itself sends are left out. The URN of a resource is resolved at some point
with a text, or with nothing if it is unknown, or fails. The RPC `engine.Log` may be refused at any time.
-/

namespace Pulumi.Log

/-- `engine_pb2.LogSeverity` -/
inductive Severity
  | debug | info | warning | error
  deriving DecidableEq, Repr

/-- `engine_pb2.LogRequest` -/
structure Msg where
  severity : Severity
  message : String
  urn : String
  streamId : Int
  ephemeral : Bool
  deriving DecidableEq, Repr

/-- The arguments of `debug`, `info`, `warn` and `error`; resources are numbers. -/
structure Call where
  severity : Severity
  message : String
  resource : Option Nat
  streamId : Option Int
  ephemeral : Option Bool
  deriving DecidableEq, Repr

/-- `engine_pb2.LogRequest(...)` (log.py:125-131, 137-143): `stream_id` is 0 by default (115-116), `ephemeral` is false if it
is `None`, and an integer that does not fit in 32 bits raises. -/
def request (c : Call) (urn : String) : Option Msg :=
  if -2147483648 ≤ c.streamId.getD 0 ∧ c.streamId.getD 0 ≤ 2147483647 then
    some ⟨c.severity, c.message, urn, c.streamId.getD 0, c.ephemeral.getD false⟩
  else none

/-- What a call does. -/
inductive Effect where
  /-- `engine.Log(req)` before the call returns -/
  | now (m : Option Msg)
  /-- `asyncio.ensure_future(do_log())` -/
  | later (r : Nat)
  /-- `print(..., file=sys.stderr)` -/
  | print (s : String)
  | nothing
  deriving DecidableEq, Repr

/-- `debug` (log.py:29-45), `info` (48-66), `warn` (69-87), `error` (90-111) and `_log` (114-144). -/
def effect (engine : Bool) (c : Call) : Effect :=
  if engine then
    match c.resource with
    | some r => .later r
    | none => .now (request c "")
  else
    match c.severity with
    | .debug => .nothing
    | .info => .print ("info: " ++ c.message)
    | .warning => .print ("warning: " ++ c.message)
    | .error => .print ("error: " ++ c.message)

/-- A call that was made: its arguments, the task that sends it later, if any, and whether the program itself made it, that
is, not a callback or a coroutine. -/
structure Made where
  call : Call
  task : Option Nat
  byProgram : Bool
  deriving DecidableEq, Repr

structure State where
  loop : Loop.State
  /-- the URNs that have been resolved: failed, unknown or known -/
  urns : List (Nat × Except Nat (Option String))
  /-- all calls, in order -/
  calls : List Made
  /-- what the engine received, in order, with the number of the call -/
  sent : List (Nat × Msg)
  /-- the calls for which `LogRequest` or `engine.Log` raised -/
  refused : List Nat
  /-- the number of calls that had been made when the loop last looked for outstanding tasks -/
  looked : Nat

/-- Someone is there to make a call: the program, or a coroutine that is not done. -/
def Runs (s : Loop.State) : Prop :=
  s.main = .user ∨ (¬ s.main.ended ∧ ∃ (i : Nat) (t : Loop.Task), s.tasks[i]? = some t ∧ t.kind.free ∧ t.result = none)

/-- The loop is about to look for outstanding tasks (stack.py:86-88). -/
def looks (s : Loop.State) : Bool :=
  match s.main with
  | .top _ => s.rpcs.isEmpty && s.unhandled.isNone
  | _ => false

def isUser (s : Loop.State) : Bool :=
  match s.main with
  | .user => true
  | _ => false

/-- The call is made. -/
def State.add (s : State) (c : Call) (i : Option Nat) : State := { s with calls := s.calls ++ [⟨c, i, isUser s.loop⟩] }

/-- The URN that goes into the request: `future()` gives `None` for an unknown, which is the same as an empty text. -/
def urnText (u : Option String) : String := u.getD ""

/-- One step, in a process with an engine. -/
inductive Step (s : State) : State → Prop
  /-- a call without a resource -/
  | now {c : Call} {m : Msg} : Runs s.loop → effect true c = .now (some m) →
      Step s { s.add c none with sent := s.sent ++ [(s.calls.length, m)] }
  /-- the same, but the request is refused: the exception goes to the caller -/
  | nowRefused {c : Call} {m : Option Msg} : Runs s.loop → effect true c = .now m →
      Step s { s.add c none with refused := s.refused ++ [s.calls.length] }
  /-- a call with a resource -/
  | later {c : Call} {r : Nat} : Runs s.loop → effect true c = .later r →
      Step s { s.add c (some s.loop.tasks.length) with loop := Loop.spawn s.loop .plain }
  /-- the URN of a resource is resolved -/
  | urn {r : Nat} {u : Except Nat (Option String)} : s.urns.lookup r = none → Step s { s with urns := s.urns ++ [(r, u)] }
  /-- `do_log` goes on once the URN is resolved (log.py:123-132) -/
  | send {k i r : Nat} {p : Made} {u : Option String} {m : Msg} : ¬ s.loop.main.ended → s.calls[k]? = some p → p.task = some i →
      s.loop.resultOf i = none → p.call.resource = some r → s.urns.lookup r = some (.ok u) → request p.call (urnText u) = some m →
      Step s { s with sent := s.sent ++ [(k, m)], loop := { s.loop with tasks := Loop.finish s.loop.tasks i .ok } }
  /-- the same, but the request is refused -/
  | sendRefused {k i r e : Nat} {p : Made} {u : Option String} : ¬ s.loop.main.ended → s.calls[k]? = some p → p.task = some i →
      s.loop.resultOf i = none → p.call.resource = some r → s.urns.lookup r = some (.ok u) →
      Step s { s with refused := s.refused ++ [k], loop := { s.loop with tasks := Loop.finish s.loop.tasks i (.exn e) } }
  /-- the URN failed, and so does `do_log` -/
  | urnFailed {k i r e : Nat} {p : Made} : ¬ s.loop.main.ended → s.calls[k]? = some p → p.task = some i →
      s.loop.resultOf i = none → p.call.resource = some r → s.urns.lookup r = some (.error e) →
      Step s { s with loop := { s.loop with tasks := Loop.finish s.loop.tasks i (.exn e) } }
  /-- any other step of the program or the loop, which does not end a task of `_log` -/
  | other {l : Loop.State} : Loop.Step true s.loop l →
      (∀ (k : Nat) (p : Made) (i : Nat), s.calls[k]? = some p → p.task = some i → l.resultOf i = s.loop.resultOf i) →
      Step s { s with loop := l, looked := if looks s.loop then s.calls.length else s.looked }

/-- Any number of steps. -/
inductive Steps : State → State → Prop
  | refl {s : State} : Steps s s
  | tail {s t u : State} : Steps s t → Step t u → Steps s u

def State.init : State := { loop := .init, urns := [], calls := [], sent := [], refused := [], looked := 0 }

end Pulumi.Log
