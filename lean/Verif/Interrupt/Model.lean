/-!
# Interrupting an update

`pkg/cmd/pulumi/util.go`: `cancellationScope` (733-793), `pkg/util/cancel/context.go`, `pkg/engine/deployment.go`: `run` (227-304) and the
beginning of `OnResourceStepPost` (`pkg/engine/update.go:524-536`). Paths are relative to `/repo/`.

The goroutines (the one that receives signals, the one that passes the cancellation on, the one that runs the deployment, and the one that
waits) and the user are the steps of one transition system: a run is any sequence of their steps, in any order.
-/
namespace Pulumi.Interrupt

/-- What the run ends with: the result of the deployment, of any type `R`, or the error of the terminated context -/
inductive Ending (R : Type) where
  | walked (r : R)
  | terminated
  deriving DecidableEq, Repr

/-- The state of the run -/
structure St (R : Type) where
  /-- how often the user pressed `^C`, and how many of these signals were received (`util.go:763`) -/
  pressed : Nat
  received : Nat
  /-- whether a signal was received and not acted upon yet: the goroutine is not receiving then -/
  busy : Bool
  /-- whether the scope is closed (`util.go:743-747`): no signals are taken anymore -/
  closed : Bool
  /-- the two contexts' being done (`cancel/context.go:27-36`); what observers see is `canceledSeen` -/
  cancel : Bool
  terminate : Bool
  /-- the events of the scope sent to the display (`util.go:753`, `events`) -/
  shown : List String
  /-- the context of the deployment's execution is canceled (`deployment.go:280`); the goroutine that does so has ended -/
  execCanceled : Bool
  passed : Bool
  /-- the result of the deployment once it ended (`deployment.go:271-272`) -/
  walk : Option R
  /-- the steps that completed, and those of them written to the checkpoint -/
  finished : List String
  written : List String
  /-- what `run` returned (`deployment.go:287-303`) -/
  ending : Option (Ending R)
  deriving DecidableEq, Repr

/-- A run begins -/
def St.init (R : Type) : St R :=
  { pressed := 0, received := 0, busy := false, closed := false, cancel := false, terminate := false, shown := [], execCanceled := false, passed := false, walk := none, finished := [], written := [], ending := none }

/-- `Canceled`, `CancelErr` (`cancel/context.go:64-71`): the cancellation context is a child of the termination context (46-47) -/
def St.canceledSeen {R : Type} (s : St R) : Bool := s.cancel || s.terminate

/-- What happens next -/
inductive Act (R : Type) where
  /-- the user presses `^C` -/
  | press
  /-- the goroutine acts upon the signal it received -/
  | handle
  /-- the goroutine that listens for cancellation passes it on -/
  | pass
  /-- that goroutine sees that the deployment ended (`deployment.go:282-283`) -/
  | listenerEnds
  /-- a step completes -/
  | stepDone (urn : String)
  /-- the deployment ends -/
  | walkEnds (r : R)
  /-- `run` returns, having seen the termination, or the end of the deployment -/
  | seeTerminated
  | seeDone
  /-- the scope is closed -/
  | close
  deriving DecidableEq, Repr

/-- The body of the loop over signals (`util.go:763-787`). The events with the messages (772-775, 780-783) are made and dropped:
`engine.NewEvent` only builds one (`pkg/engine/events.go`), and nothing is sent to `events`. -/
def onSignal {R : Type} (s : St R) : St R :=
  if s.canceledSeen = false then { s with cancel := true } else { s with terminate := true }

/-- A step of the run; `none` where it cannot be made. A signal is sent to a channel without room (758) and `os/signal` does not wait, so one
that comes while the goroutine is not receiving is lost. `select` (277-284, 288-294) may take either case that is ready, so that both steps are
there. Simplifications: the goroutine receives at all times but while it acts upon a signal; completing a step and writing it are one step
(what is written and when is `Snapshot` and `Exec`); without a scope, after it is closed, a signal would end the process, and is not modelled. -/
def step {R : Type} (s : St R) : Act R → Option (St R)
  | .press =>
    if s.closed then none
    else if s.busy then some { s with pressed := s.pressed + 1 }
    else some { s with pressed := s.pressed + 1, received := s.received + 1, busy := true }
  | .handle => if s.busy then some { onSignal s with busy := false } else none
  | .pass => if s.canceledSeen && !s.passed then some { s with execCanceled := true, passed := true } else none
  | .listenerEnds => if s.walk.isSome && !s.passed then some { s with passed := true } else none
  | .stepDone u =>
    if s.walk.isSome then none
    else if s.terminate then some { s with finished := s.finished ++ [u] }
    else some { s with finished := s.finished ++ [u], written := s.written ++ [u] }
  | .walkEnds r => if s.walk.isSome then none else some { s with walk := some r }
  | .seeTerminated => if s.terminate && s.ending.isNone then some { s with ending := some .terminated } else none
  | .seeDone =>
    match s.walk with
    | none => none
    | some r => if s.ending.isNone then some { s with ending := some (.walked r) } else none
  | .close => if s.ending.isSome && !s.closed && !s.busy then some { s with closed := true } else none

/-- A run -/
def run {R : Type} (s : St R) : List (Act R) → Option (St R)
  | [] => some s
  | a :: rest => (step s a).bind (fun s' => run s' rest)

end Pulumi.Interrupt
