import Verif.Events.Model
import Batteries.Data.List.Basic

/-!
# What the events delivered to a program should be

The engine's side of the event log, written from
`sdk/go/common/apitype/events.go` (the types and their JSON tags) and
`sdk/go/common/apitype/history.go:64-96` (the operations), and what a reader of
the documentation expects to find in the Python objects.
-/

namespace Pulumi.Events

/-! ## The engine's events and their JSON -/

/-- A field with `omitempty`: left out at its zero value. -/
def omitIf (zero : Bool) (k : String) (v : J) : List (Text × J) :=
  if zero then [] else [(k.toList, v)]

/-- A field without `omitempty`. -/
def always (k : String) (v : J) : Text × J := (k.toList, v)

/-- events.go:30-33. -/
structure ApiStdout where
  message : Text
  color : Text

def ApiStdout.json (e : ApiStdout) : J :=
  .obj [always "message" (.str e.message), always "color" (.str e.color)]

/-- events.go:37-46. -/
structure ApiDiagnostic where
  urn : Text
  «prefix» : Text
  message : Text
  color : Text
  severity : Text
  streamID : Int
  ephemeral : Bool

def ApiDiagnostic.json (e : ApiDiagnostic) : J :=
  .obj (omitIf e.urn.isEmpty "urn" (.str e.urn)
    ++ omitIf e.prefix.isEmpty "prefix" (.str e.prefix)
    ++ [always "message" (.str e.message), always "color" (.str e.color),
        always "severity" (.str e.severity)]
    ++ omitIf (e.streamID == 0) "streamID" (.num e.streamID)
    ++ omitIf (!e.ephemeral) "ephemeral" (.bool e.ephemeral))

/-- events.go:49-60. -/
structure ApiPolicy where
  resourceURN : Text
  message : Text
  color : Text
  policyName : Text
  policyPackName : Text
  policyPackVersion : Text
  policyPackVersionTag : Text
  enforcementLevel : Text

def ApiPolicy.json (e : ApiPolicy) : J :=
  .obj (omitIf e.resourceURN.isEmpty "resourceUrn" (.str e.resourceURN)
    ++ [always "message" (.str e.message), always "color" (.str e.color),
        always "policyName" (.str e.policyName),
        always "policyPackName" (.str e.policyPackName),
        always "policyPackVersion" (.str e.policyPackVersion),
        always "policyPackVersionTag" (.str e.policyPackVersionTag),
        always "enforcementLevel" (.str e.enforcementLevel)])

/-- A Go map of strings to values, `nil` being `none`: written as `null`. -/
def mapJ : Option (List (Text × J)) → J
  | none => .null
  | some fs => .obj fs

/-- events.go:70-83. -/
structure ApiSummary where
  maybeCorrupt : Bool
  durationSeconds : Int
  resourceChanges : Option (List (Text × J))
  policyPacks : Option (List (Text × J))

def ApiSummary.json (e : ApiSummary) : J :=
  .obj [always "maybeCorrupt" (.bool e.maybeCorrupt),
        always "durationSeconds" (.num e.durationSeconds),
        always "resourceChanges" (mapJ e.resourceChanges),
        always "PolicyPacks" (mapJ e.policyPacks)]

/-- events.go:138-162. -/
structure ApiState where
  type : Text
  urn : Text
  custom : Bool
  delete : Bool
  id : Text
  parent : Text
  protect : Bool
  inputs : Option (List (Text × J))
  outputs : Option (List (Text × J))
  provider : Text
  initErrors : List Text

def ApiState.json (e : ApiState) : J :=
  .obj ([always "type" (.str e.type), always "urn" (.str e.urn)]
    ++ omitIf (!e.custom) "custom" (.bool e.custom)
    ++ omitIf (!e.delete) "delete" (.bool e.delete)
    ++ [always "id" (.str e.id), always "parent" (.str e.parent)]
    ++ omitIf (!e.protect) "protect" (.bool e.protect)
    ++ [always "inputs" (mapJ e.inputs), always "outputs" (mapJ e.outputs),
        always "provider" (.str e.provider)]
    ++ omitIf e.initErrors.isEmpty "initErrors" (.arr (e.initErrors.map .str)))

/-- events.go:104-109: one entry of a detailed diff. -/
structure ApiPropertyDiff where
  kind : Text
  inputDiff : Bool

def ApiPropertyDiff.json (d : ApiPropertyDiff) : J :=
  .obj [always "diffKind" (.str d.kind), always "inputDiff" (.bool d.inputDiff)]

/-- events.go:112-135. -/
structure ApiStep where
  op : Text
  urn : Text
  type : Text
  old : Option ApiState
  new : Option ApiState
  keys : List Text
  diffs : List Text
  detailedDiff : List (Text × ApiPropertyDiff)
  logical : Bool
  provider : Text

def stateJson : Option ApiState → J
  | none => .null
  | some s => s.json

def ApiStep.json (e : ApiStep) : J :=
  .obj ([always "op" (.str e.op), always "urn" (.str e.urn), always "type" (.str e.type),
         always "old" (stateJson e.old), always "new" (stateJson e.new)]
    ++ omitIf e.keys.isEmpty "keys" (.arr (e.keys.map .str))
    ++ omitIf e.diffs.isEmpty "diffs" (.arr (e.diffs.map .str))
    ++ omitIf e.detailedDiff.isEmpty "detailedDiff"
        (.obj (e.detailedDiff.map fun kd => (kd.1, kd.2.json)))
    ++ omitIf (!e.logical) "logical" (.bool e.logical)
    ++ [always "provider" (.str e.provider)])

/-- What an event carries: exactly one of the kinds (events.go:186-209). -/
inductive Payload
  | cancel
  | stdout (e : ApiStdout)
  | diagnostic (e : ApiDiagnostic)
  | prelude (config : Option (List (Text × J)))
  | summary (e : ApiSummary)
  | resourcePre (m : ApiStep) (planning : Bool)
  | resOutputs (m : ApiStep) (planning : Bool)
  | resOpFailed (m : ApiStep) (status steps : Int)
  | policy (e : ApiPolicy)

def Payload.json : Payload → Text × J
  | .cancel => always "cancelEvent" (.obj [])
  | .stdout e => always "stdoutEvent" e.json
  | .diagnostic e => always "diagnosticEvent" e.json
  | .prelude c => always "preludeEvent" (.obj [always "config" (mapJ c)])
  | .summary e => always "summaryEvent" e.json
  | .resourcePre m p =>
    always "resourcePreEvent"
      (.obj (always "metadata" m.json :: omitIf (!p) "planning" (.bool p)))
  | .resOutputs m p =>
    always "resOutputsEvent"
      (.obj (always "metadata" m.json :: omitIf (!p) "planning" (.bool p)))
  | .resOpFailed m status steps =>
    always "resOpFailedEvent"
      (.obj [always "metadata" m.json, always "status" (.num status),
             always "steps" (.num steps)])
  | .policy e => always "policyEvent" e.json

/-- events.go:186-209. -/
structure ApiEvent where
  sequence : Int
  timestamp : Int
  payload : Payload

def ApiEvent.json (e : ApiEvent) : J :=
  .obj [always "sequence" (.num e.sequence), always "timestamp" (.num e.timestamp),
        e.payload.json]

/-- history.go:64-96: the operations of the engine. -/
def engineOps : List String :=
  ["same", "create", "update", "delete", "replace", "create-replacement", "delete-replaced",
   "read", "read-replacement", "refresh", "discard", "discard-replaced",
   "remove-pending-replace", "import", "import-replacement"]

/-- The operation of the event's step, if it has one, is one of the engine's. -/
def KnownOp : Payload → Prop
  | .resourcePre m _ => ∃ o ∈ engineOps, m.op = o.toList
  | .resOutputs m _ => ∃ o ∈ engineOps, m.op = o.toList
  | .resOpFailed m _ _ => ∃ o ∈ engineOps, m.op = o.toList
  | _ => True

/-! ## What the program should see -/

/-- An optional string: `None` for the empty one. -/
def optStr (s : Text) : J := if s = [] then .null else .str s

/-- An optional flag: `None` for false. -/
def optBool (b : Bool) : J := if b then .bool true else .null

/-- An optional number: `None` for zero. -/
def optNum (n : Int) : J := if n = 0 then .null else .num n

/-- An optional list of strings: `None` for the empty one. -/
def optStrs (l : List Text) : J := if l = [] then .null else .arr (l.map .str)

/-- An optional detailed diff. -/
def optDiff (l : List (Text × ApiPropertyDiff)) : J :=
  if l = [] then .null else .obj (l.map fun kd => (kd.1, kd.2.json))

/-- The Python object shows the diagnostic. -/
def DiagnosticShown (e : ApiDiagnostic) (p : Diagnostic) : Prop :=
  p.message = .str e.message ∧ p.color = .str e.color ∧ p.severity = .str e.severity
  ∧ p.streamId = optNum e.streamID ∧ p.ephemeral = optBool e.ephemeral
  ∧ p.urn = optStr e.urn ∧ p.prefix = optStr e.prefix

/-- The Python object shows the policy violation. -/
def PolicyShown (e : ApiPolicy) (p : Policy) : Prop :=
  p.message = .str e.message ∧ p.color = .str e.color ∧ p.policyName = .str e.policyName
  ∧ p.policyPackName = .str e.policyPackName ∧ p.policyPackVersion = .str e.policyPackVersion
  ∧ p.policyPackVersionTag = .str e.policyPackVersionTag
  ∧ p.enforcementLevel = .str e.enforcementLevel ∧ p.resourceUrn = optStr e.resourceURN

/-- The Python object shows the summary. -/
def SummaryShown (e : ApiSummary) (p : Summary) : Prop :=
  p.maybeCorrupt = .bool e.maybeCorrupt ∧ p.durationSeconds = .num e.durationSeconds
  ∧ p.resourceChanges = mapJ e.resourceChanges ∧ p.policyPacks = mapJ e.policyPacks

/-- The Python object shows the state of a resource. -/
def StateShown (e : ApiState) (p : StepState) : Prop :=
  p.type = .str e.type ∧ p.urn = .str e.urn ∧ p.id = .str e.id ∧ p.parent = .str e.parent
  ∧ p.provider = .str e.provider ∧ p.custom = optBool e.custom ∧ p.delete = optBool e.delete
  ∧ p.protect = optBool e.protect ∧ p.inputs = mapJ e.inputs ∧ p.outputs = mapJ e.outputs
  ∧ p.initErrors = optStrs e.initErrors

/-- Both absent, or both present and one shows the other. -/
def OptShown : Option ApiState → Option StepState → Prop
  | none, none => True
  | some e, some p => StateShown e p
  | _, _ => False

/-- The Python object shows the step. -/
def StepShown (e : ApiStep) (p : Step) : Prop :=
  p.op.value.toList = e.op ∧ p.urn = .str e.urn ∧ p.type = .str e.type
  ∧ p.provider = .str e.provider ∧ OptShown e.old p.old ∧ OptShown e.new p.new
  ∧ p.keys = optStrs e.keys ∧ p.diffs = optStrs e.diffs
  ∧ p.detailedDiff = optDiff e.detailedDiff ∧ p.logical = optBool e.logical

/-- The event object with only its numbers filled in. -/
def blank (e : ApiEvent) : Event where
  sequence := .num e.sequence
  timestamp := .num e.timestamp
  cancel := false
  stdout := none
  diagnostic := none
  prelude := none
  summary := none
  resourcePre := none
  resOutputs := none
  resOpFailed := none
  policy := none

/-- The Python event shows the engine's event: the same numbers, and exactly one
of the nine fields set, to an object that shows the payload. -/
def Shown (e : ApiEvent) (p : Event) : Prop :=
  match e.payload with
  | .cancel => p = { blank e with cancel := true }
  | .stdout s => p = { blank e with stdout := some ⟨.str s.message, .str s.color⟩ }
  | .diagnostic d => ∃ q, p = { blank e with diagnostic := some q } ∧ DiagnosticShown d q
  | .prelude c => p = { blank e with prelude := some ⟨mapJ c⟩ }
  | .summary s => ∃ q, p = { blank e with summary := some q } ∧ SummaryShown s q
  | .resourcePre m b =>
    ∃ q, p = { blank e with resourcePre := some ⟨q, optBool b⟩ } ∧ StepShown m q
  | .resOutputs m b =>
    ∃ q, p = { blank e with resOutputs := some ⟨q, optBool b⟩ } ∧ StepShown m q
  | .resOpFailed m a b =>
    ∃ q, p = { blank e with resOpFailed := some ⟨q, .num a, .num b⟩ } ∧ StepShown m q
  | .policy s => ∃ q, p = { blank e with policy := some q } ∧ PolicyShown s q

/-- The three fields whose JSON name the code gets wrong. -/
def stripStep (m : ApiStep) : ApiStep := { m with detailedDiff := [] }

/-- The event without the three fields: a diagnostic's stream, the resource of a
policy violation and a step's detailed diff. -/
def strip (e : ApiEvent) : ApiEvent :=
  { e with payload := match e.payload with
    | .diagnostic d => .diagnostic { d with streamID := 0 }
    | .policy s => .policy { s with resourceURN := [] }
    | .resourcePre m b => .resourcePre (stripStep m) b
    | .resOutputs m b => .resOutputs (stripStep m) b
    | .resOpFailed m a b => .resOpFailed (stripStep m) a b
    | p => p }

/-! ## The log -/

/-- The file's text: one line per event. -/
def logText (ls : List Text) : Text := (ls.map (· ++ ['\n'])).flatten

/-- What the engine's process has written in a schedule. -/
def written : List Act → Text
  | [] => []
  | .write t :: r => t ++ written r
  | .turn :: r => written r

/-- The line is a text that parses to the event, with or without its line feed,
and no shorter text parses. -/
def LineOf (w : World) (l : Text) (e : Event) : Prop :=
  '\n' ∉ l ∧ l ≠ []
  ∧ parseLine w (l ++ ['\n']) = .ok e
  ∧ parseLine w l = .ok e
  ∧ ∀ p, p <+: l → p ≠ l → p ≠ [] → ∃ x, parseLine w p = .error x

/-- The lines of the log, in order, are those of the events. -/
def LogOf (w : World) : List Text → List Event → Prop
  | [], [] => True
  | l :: ls, e :: es => LineOf w l e ∧ LogOf w ls es
  | _, _ => False

/-- The line is the JSON text of the engine's event: facts about JSON texts that
start with a brace.  They have no line feed inside (Go's encoder writes none),
`json.loads` reads them with or without a line feed at the end, and it rejects
every shorter text. -/
def JsonLine (w : World) (l : Text) (e : ApiEvent) : Prop :=
  '\n' ∉ l ∧ l ≠ []
  ∧ w.loads (l ++ ['\n']) = .ok e.json
  ∧ w.loads l = .ok e.json
  ∧ ∀ p, p <+: l → p ≠ l → p ≠ [] → w.loads p = .error .value

/-- The lines of the log, in order, are the JSON texts of the engine's events, the
operations in them are the engine's, and `json.loads` rejects a blank line. -/
def EngineLog (w : World) (ls : List Text) (es : List ApiEvent) : Prop :=
  List.Forall₂ (JsonLine w) ls es ∧ (∀ e ∈ es, KnownOp e.payload)
  ∧ w.loads ['\n'] = .error .value

/-- The Python events show the engine's, one for one and in order, but for the
three fields. -/
def AllShown (es : List ApiEvent) (ps : List Event) : Prop :=
  List.Forall₂ (fun e p => eventOf e.json = .ok p ∧ Shown (strip e) p) es ps

/-- The events up to and including the first that ends the watch. -/
def upto (p : Event → Bool) : List Event → List Event
  | [] => []
  | e :: r => if p e then [e] else e :: upto p r

/-- The watch ends with a cancel event, or when the program's callback raises. -/
def ends (w : World) (e : Event) : Bool := e.cancel || w.raises e

/-- A schedule in which every write is of whole lines. -/
inductive LineAct
  | lines (ls : List Text)
  | turn

def LineAct.act : LineAct → Act
  | .lines ls => .write (logText ls)
  | .turn => .turn

/-- All lines written in such a schedule. -/
def linesOf : List LineAct → List Text
  | [] => []
  | .lines ls :: r => ls ++ linesOf r
  | .turn :: r => linesOf r

/-- The changes in the first summary event. -/
def firstSummary : List Event → Option J
  | [] => none
  | e :: r =>
    match e.summary with
    | some s => some s.resourceChanges
    | none => firstSummary r

end Pulumi.Events
