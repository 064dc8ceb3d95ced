/-!
# Engine events of the automation API: parsing and watching the event log

Models `automation/events.py` (the classes an `on_event` callback receives) and
the event log watcher of `automation/_stack.py`.

A Python object with attributes is a structure whose fields are JSON values
(`J`), `None` being `J.null`: the classes do no checking of their own.
-/

namespace Pulumi.Events

/-- Text, as a list of characters. -/
abbrev Text := List Char

/-- A value that `json.loads` returns.  Simplified: numbers are the integers
(no engine event carries a fraction outside a resource's own properties). -/
inductive J
  | null
  | bool (b : Bool)
  | num (n : Int)
  | str (s : Text)
  | arr (xs : List J)
  | obj (fs : List (Text × J))

/-- The exceptions that parsing an event raises: `AttributeError` (`.get` on
something that is not a dict), `TypeError` (`cls(**data)` with a wrong set of
keywords), `ValueError` (an unknown member of an enumeration, and also
`JSONDecodeError`, which is a `ValueError`). -/
inductive Exn
  | attribute
  | type
  | value
  deriving DecidableEq, Repr

/-- `dict.get(key)` on the fields of an object, `none` for a missing key.
Python dicts have one value per key; lists with a repeated key give the first. -/
def field : List (Text × J) → Text → Option J
  | [], _ => none
  | (k, v) :: r, key => if k = key then some v else field r key

/-- `data.get(key, default)`. -/
def getD (fs : List (Text × J)) (key : Text) (dflt : J) : J := (field fs key).getD dflt

/-- `data.get(key)`: `None` for a missing key. -/
def get (fs : List (Text × J)) (key : Text) : J := getD fs key .null

/-- Python's truth value of a JSON value. -/
def truthy : J → Bool
  | .null => false
  | .bool b => b
  | .num n => n != 0
  | .str s => !s.isEmpty
  | .arr xs => !xs.isEmpty
  | .obj fs => !fs.isEmpty

/-- `data` must be a dict for `.get` (and for `**data`) to work. -/
def asDict : J → Except Exn (List (Text × J))
  | .obj fs => .ok fs
  | _ => .error .attribute

/-- events.py:66-85 `StdoutEngineEvent`. -/
structure Stdout where
  message : J
  color : J

/-- Keyword arguments `**data` for the parameters `message` and `color`
(events.py:79, 85): exactly these two keys, in any order. -/
def stdoutOf : List (Text × J) → Except Exn Stdout
  | [(a, v), (b, w)] =>
    if a = "message".toList ∧ b = "color".toList then .ok ⟨v, w⟩
    else if a = "color".toList ∧ b = "message".toList then .ok ⟨w, v⟩
    else .error .type
  | _ => .error .type

/-- events.py:88-139 `DiagnosticEvent`. -/
structure Diagnostic where
  message : J
  color : J
  severity : J
  streamId : J
  ephemeral : J
  urn : J
  «prefix» : J

/-- events.py:129-139 `DiagnosticEvent.from_json`. -/
def diagnosticOf (fs : List (Text × J)) : Diagnostic where
  message := getD fs "message".toList (.str [])
  color := getD fs "color".toList (.str [])
  severity := getD fs "severity".toList (.str [])
  streamId := get fs "streamId".toList
  ephemeral := get fs "ephemeral".toList
  urn := get fs "urn".toList
  «prefix» := get fs "prefix".toList

/-- events.py:142-197 `PolicyEvent`. -/
structure Policy where
  message : J
  color : J
  policyName : J
  policyPackName : J
  policyPackVersion : J
  policyPackVersionTag : J
  enforcementLevel : J
  resourceUrn : J

/-- events.py:186-197 `PolicyEvent.from_json`. -/
def policyOf (fs : List (Text × J)) : Policy where
  message := getD fs "message".toList (.str [])
  color := getD fs "color".toList (.str [])
  policyName := getD fs "policyName".toList (.str [])
  policyPackName := getD fs "policyPackName".toList (.str [])
  policyPackVersion := getD fs "policyPackVersion".toList (.str [])
  policyPackVersionTag := getD fs "policyPackVersionTag".toList (.str [])
  enforcementLevel := getD fs "enforcementLevel".toList (.str [])
  resourceUrn := get fs "resource_urn".toList

/-- events.py:200-216 `PreludeEvent`. -/
structure Prelude where
  config : J

/-- `cls(**data)` for the parameter `config` (events.py:211, 216). -/
def preludeOf : List (Text × J) → Except Exn Prelude
  | [(a, v)] => if a = "config".toList then .ok ⟨v⟩ else .error .type
  | _ => .error .type

/-- events.py:219-259 `SummaryEvent`. -/
structure Summary where
  maybeCorrupt : J
  durationSeconds : J
  resourceChanges : J
  policyPacks : J

/-- events.py:252-259 `SummaryEvent.from_json`. -/
def summaryOf (fs : List (Text × J)) : Summary where
  maybeCorrupt := getD fs "maybeCorrupt".toList (.bool false)
  durationSeconds := getD fs "durationSeconds".toList (.num 0)
  resourceChanges := getD fs "resourceChanges".toList (.obj [])
  policyPacks := getD fs "PolicyPacks".toList (.obj [])

/-- events.py:308-380 `StepEventStateMetadata`. -/
structure StepState where
  type : J
  urn : J
  id : J
  parent : J
  provider : J
  custom : J
  delete : J
  protect : J
  inputs : J
  outputs : J
  initErrors : J

/-- events.py:366-380 `StepEventStateMetadata.from_json`. -/
def stepStateOf (fs : List (Text × J)) : StepState where
  type := getD fs "type".toList (.str [])
  urn := getD fs "urn".toList (.str [])
  id := getD fs "id".toList (.str [])
  parent := getD fs "parent".toList (.str [])
  provider := getD fs "provider".toList (.str [])
  custom := get fs "custom".toList
  delete := get fs "delete".toList
  protect := get fs "protect".toList
  inputs := get fs "inputs".toList
  outputs := get fs "outputs".toList
  initErrors := get fs "initErrors".toList

/-- events.py:23-43 `OpType`. -/
inductive Op
  | same | create | update | delete | replace | createReplacement | deleteReplaced
  | read | readReplacement | refresh | discard | discardReplaced
  | removePendingReplace | «import» | importReplacement
  deriving DecidableEq, Repr

/-- The values of the members (events.py:28-42). -/
def Op.value : Op → String
  | .same => "same"
  | .create => "create"
  | .update => "update"
  | .delete => "delete"
  | .replace => "replace"
  | .createReplacement => "create-replacement"
  | .deleteReplaced => "delete-replaced"
  | .read => "read"
  | .readReplacement => "read-replacement"
  | .refresh => "refresh"
  | .discard => "discard"
  | .discardReplaced => "discard-replaced"
  | .removePendingReplace => "remove-pending-replace"
  | .import => "import"
  | .importReplacement => "import-replacement"

/-- The members, in the order of the class body. -/
def Op.members : List Op :=
  [.same, .create, .update, .delete, .replace, .createReplacement, .deleteReplaced, .read,
   .readReplacement, .refresh, .discard, .discardReplaced, .removePendingReplace, .import,
   .importReplacement]

/-- `OpType(value)`: the member with this value, `ValueError` otherwise. -/
def opOf : J → Except Exn Op
  | .str s =>
    match Op.members.find? (fun o => o.value.toList = s) with
    | some o => .ok o
    | none => .error .value
  | _ => .error .value

/-- events.py:383-452 `StepEventMetadata`. -/
structure Step where
  op : Op
  urn : J
  type : J
  provider : J
  old : Option StepState
  new : Option StepState
  keys : J
  diffs : J
  detailedDiff : J
  logical : J

/-- `StepEventStateMetadata.from_json(old) if old else None` (events.py:446-447). -/
def stateIf (v : J) : Except Exn (Option StepState) :=
  if truthy v then
    match asDict v with
    | .ok fs => .ok (some (stepStateOf fs))
    | .error e => .error e
  else .ok none

/-- events.py:436-452 `StepEventMetadata.from_json`. -/
def stepOf (fs : List (Text × J)) : Except Exn Step :=
  match opOf (getD fs "op".toList (.str [])) with
  | .error e => .error e
  | .ok op =>
    match stateIf (get fs "old".toList) with
    | .error e => .error e
    | .ok old =>
      match stateIf (get fs "new".toList) with
      | .error e => .error e
      | .ok new => .ok {
          op := op
          urn := getD fs "urn".toList (.str [])
          type := getD fs "type".toList (.str [])
          provider := getD fs "provider".toList (.str [])
          old := old
          new := new
          keys := get fs "keys".toList
          diffs := get fs "diffs".toList
          detailedDiff := get fs "detailed_diff".toList
          logical := get fs "logical".toList }

/-- `data.get("metadata", {})`, then `StepEventMetadata.from_json`
(events.py:466-468, 484-486, 504-506). -/
def metadataOf (fs : List (Text × J)) : Except Exn Step :=
  match asDict (getD fs "metadata".toList (.obj [])) with
  | .ok m => stepOf m
  | .error e => .error e

/-- events.py:455-488 `ResourcePreEvent` and `ResOutputsEvent`, which have the
same two attributes. -/
structure ResStep where
  metadata : Step
  planning : J

/-- events.py:464-470 and 482-488 `from_json`. -/
def resStepOf (fs : List (Text × J)) : Except Exn ResStep :=
  match metadataOf fs with
  | .ok m => .ok ⟨m, get fs "planning".toList⟩
  | .error e => .error e

/-- events.py:491-509 `ResOpFailedEvent`. -/
structure ResFailed where
  metadata : Step
  status : J
  steps : J

/-- events.py:502-509 `ResOpFailedEvent.from_json`. -/
def resFailedOf (fs : List (Text × J)) : Except Exn ResFailed :=
  match metadataOf fs with
  | .ok m => .ok ⟨m, getD fs "status".toList (.num 0), getD fs "steps".toList (.num 0)⟩
  | .error e => .error e

/-- events.py:512-555 `EngineEvent`.  `cancel` is whether `cancel_event` is
set. -/
structure Event where
  sequence : J
  timestamp : J
  cancel : Bool
  stdout : Option Stdout
  diagnostic : Option Diagnostic
  prelude : Option Prelude
  summary : Option Summary
  resourcePre : Option ResStep
  resOutputs : Option ResStep
  resOpFailed : Option ResFailed
  policy : Option Policy

/-- `X.from_json(v) if v else None` (events.py:572-593). -/
def ifPresent {α : Type} (v : J) (f : List (Text × J) → Except Exn α) :
    Except Exn (Option α) :=
  if truthy v then
    match asDict v with
    | .ok fs =>
      match f fs with
      | .ok a => .ok (some a)
      | .error e => .error e
    | .error e => .error e
  else .ok none

/-- events.py:557-594 `EngineEvent.from_json`. -/
def eventOf (data : J) : Except Exn Event := do
  let fs ← asDict data
  let stdout ← ifPresent (get fs "stdoutEvent".toList) stdoutOf
  let diagnostic ← ifPresent (get fs "diagnosticEvent".toList) (fun d => .ok (diagnosticOf d))
  let prelude ← ifPresent (get fs "preludeEvent".toList) preludeOf
  let summary ← ifPresent (get fs "summaryEvent".toList) (fun d => .ok (summaryOf d))
  let resourcePre ← ifPresent (get fs "resourcePreEvent".toList) resStepOf
  let resOutputs ← ifPresent (get fs "resOutputsEvent".toList) resStepOf
  let resOpFailed ← ifPresent (get fs "resOpFailedEvent".toList) resFailedOf
  let policy ← ifPresent (get fs "policyEvent".toList) (fun d => .ok (policyOf d))
  .ok {
    sequence := getD fs "sequence".toList (.num 0)
    timestamp := getD fs "timestamp".toList (.num 0)
    cancel := (field fs "cancelEvent".toList).isSome
    stdout, diagnostic, prelude, summary, resourcePre, resOutputs, resOpFailed, policy }

/-! ## Watching the log -/

/-- The condition of the watcher thread. -/
inductive Thread
  | running
  | stopped
  | dead
  deriving DecidableEq, Repr

/-- The log file and the thread that reads it: the characters of the file that
the thread has not read yet, the events passed to the callback so far and the
thread's condition. -/
structure Watch where
  unread : Text
  delivered : List Event
  thread : Thread

/-- `_create_log_file` and `thread.start()` (_stack.py:292-297, 803-812): the
file exists and is empty. -/
def Watch.start : Watch := ⟨[], [], .running⟩

/-- `f.readline()` on a file with these unread characters: up to and including
the next line feed or, without one, all there is now. -/
def readline : Text → Text × Text
  | [] => ([], [])
  | c :: r =>
    if c = '\n' then ([c], r)
    else (c :: (readline r).1, (readline r).2)

/-- What the watcher needs from its surroundings: `json.loads`, and whether the
callback raises for an event. -/
structure World where
  loads : Text → Except Exn J
  raises : Event → Bool

/-- `EngineEvent.from_json(json.loads(line))` (_stack.py:825). -/
def parseLine (w : World) (line : Text) : Except Exn Event :=
  match w.loads line with
  | .ok j => eventOf j
  | .error e => .error e

/-- `callback(event)` and the test that follows it (_stack.py:826-830). -/
def handle (w : World) (st : Watch) (e : Event) : Watch :=
  if w.raises e then ⟨st.unread, st.delivered ++ [e], .dead⟩
  else if e.cancel then ⟨st.unread, st.delivered ++ [e], .stopped⟩
  else ⟨st.unread, st.delivered ++ [e], .running⟩

/-- One turn of the loop of `_watch_logs` (_stack.py:817-830).  An exception in
the body ends the thread: nothing catches it. -/
def poll (w : World) (st : Watch) : Watch :=
  if st.thread = .running then
    if (readline st.unread).1.isEmpty then st
    else
      match parseLine w (readline st.unread).1 with
      | .error _ => ⟨(readline st.unread).2, st.delivered, .dead⟩
      | .ok e => handle w { st with unread := (readline st.unread).2 } e
  else st

/-- What happens, one after the other: the engine's process appends characters
to the file, or the thread takes one turn of its loop. -/
inductive Act
  | write (t : Text)
  | turn

/-- One of the two. -/
def act (w : World) (st : Watch) : Act → Watch
  | .write t => { st with unread := st.unread ++ t }
  | .turn => poll w st

/-- A schedule. -/
def run (w : World) (st : Watch) (as : List Act) : Watch := as.foldl (act w) st

/-- `summary_events` of `preview` (_stack.py:403-409): the summary events among
those delivered. -/
def summaries (es : List Event) : List Summary := es.filterMap (·.summary)

/-- The end of `preview` (_stack.py:422-429), once `_cleanup` has returned:
`none` stands for `RuntimeError("summary event never found")`. -/
def previewResult (st : Watch) : Option J :=
  match summaries st.delivered with
  | [] => none
  | s :: _ => some s.resourceChanges

end Pulumi.Events
