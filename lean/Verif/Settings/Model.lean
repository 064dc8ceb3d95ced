/-!
# `runtime/settings.py` and `ContextProperty` of `_utils.py`

The settings of a program - project, stack, monitor, ... - are kept in context variables. Paths are relative to
`/repo/sdk/python/lib/pulumi/`.

A *context* is what Python's `contextvars` calls one: each thread starts with an empty one, each asyncio task with a copy of
its creator's. Contexts are numbered. The `ContextProperty` descriptors are attributes of the class `Settings`, so all
`Settings` objects show the same values.
-/
namespace Pulumi.Settings

/-- Values of the settings. `obj` is a monitor or an engine, `addr` is a mutable dict. -/
inductive Val where
  | none
  | bool (b : Bool)
  | int (i : Int)
  | str (s : String)
  | obj (id : Nat)
  | addr (a : Nat)
  deriving DecidableEq, Repr

/-- `runtime/settings.py:90-124`: the context properties of `Settings`. -/
inductive Field where
  | monitor | engine | organization | project | stack | parallel | dryRun | legacyApply | features
  deriving DecidableEq, Repr

/-- The process: context variables, the fallbacks of the descriptors, the dicts, the root resource variable, and the feature
requests that are being waited for, with their context, feature and the monitor that was asked. -/
structure State where
  /-- `ContextProperty._data`, per context; `none` is unset -/
  vars : Nat → Field → Option Val
  /-- `ContextProperty.__default` -/
  dflt : Field → Val
  /-- contents of the dicts -/
  heap : Nat → List (String × Bool)
  next : Nat
  /-- `ROOT` (`runtime/settings.py:211`), `none` is `None` -/
  root : Nat → Option Nat
  pending : List (Nat × String × Nat)

/-- Change a function at one point. -/
def upd {α β : Type} [DecidableEq α] (f : α → β) (a : α) (b : β) : α → β := fun x => if x = a then b else f x

/-- `_utils.py:209-210` `ContextProperty.fget`: `self._data.get(self.__default)`. -/
def State.get (s : State) (c : Nat) (f : Field) : Val := (s.vars c f).getD (s.dflt f)

/-- `_utils.py:212-215` `ContextProperty.fset`. `self._data.get()` is `None` if the variable is unset or holds `None`. -/
def State.set (s : State) (c : Nat) (f : Field) (v : Val) : State :=
  let s := if (s.vars c f).getD .none = .none then { s with dflt := upd s.dflt f v } else s
  { s with vars := upd s.vars c (upd (s.vars c) f (some v)) }

/-- The arguments of `Settings(...)`, with `monitor` and `engine` already turned into stubs (`runtime/settings.py:73-88`). `legacyEnv` is what
the environment variable of line 69 says. -/
structure Args where
  project : Val
  stack : Val
  parallel : Val
  dryRun : Val
  legacyApply : Val
  organization : Val
  monitor : Val
  engine : Val

/-- `runtime/settings.py:64`: `self.feature_support = {}`, a new dict. -/
def State.newFeatures (s : State) (c : Nat) : State :=
  { s with next := s.next + 1, heap := upd s.heap s.next [] }.set c .features (.addr s.next)

/-- `runtime/settings.py:67-70`. -/
def State.legacyFromEnv (s : State) (c : Nat) (legacyEnv : Bool) : State :=
  if s.get c .legacyApply = .none then s.set c .legacyApply (.bool legacyEnv) else s

/-- `runtime/settings.py:45-88` `Settings.__init__`, in context `c`; assignments in the order of the code. -/
def mkSettings (s : State) (c : Nat) (a : Args) (legacyEnv : Bool) : State :=
  let s := s.set c .project a.project
  let s := s.set c .stack a.stack
  let s := s.set c .parallel a.parallel
  let s := s.set c .dryRun a.dryRun
  let s := s.set c .legacyApply a.legacyApply
  let s := s.newFeatures c
  let s := s.set c .organization a.organization
  let s := s.legacyFromEnv c legacyEnv
  let s := s.set c .monitor a.monitor
  s.set c .engine a.engine

/-- `runtime/settings.py:287-310` `reset_options`. -/
def resetOptions (s : State) (c : Nat) (a : Args) (legacyEnv : Bool) : State :=
  mkSettings { s with root := upd s.root c none } c a legacyEnv

/-- `runtime/mocks.py:270-275` `MockSettings.__init__` with the arguments of `set_mocks` (`:294-300`). The other fields are not
assigned. -/
def mockSettings (s : State) (c : Nat) (monitor engine : Nat) (project stack : Option String) (preview : Val) : State :=
  let s := s.set c .monitor (.obj monitor)
  let s := s.set c .engine (.obj engine)
  let s := s.set c .project (.str (project.getD "project"))
  let s := s.set c .stack (.str (stack.getD "stack"))
  s.set c .dryRun preview

/-- A new asyncio task: `c'` is a copy of `c`. -/
def fork (s : State) (c c' : Nat) : State :=
  { s with vars := upd s.vars c' (s.vars c), root := upd s.root c' (s.root c) }

/-- A new thread: an empty context. -/
def thread (s : State) (c : Nat) : State :=
  { s with vars := upd s.vars c (fun _ => none), root := upd s.root c none }

/-- When `runtime/settings.py` is first imported, in context 0: line 130, `SETTINGS = Settings(stack="stack", project="project")`. -/
def imported (legacyEnv : Bool) : State :=
  mkSettings { vars := fun _ _ => none, dflt := fun _ => .none, heap := fun _ => [], next := 0, root := fun _ => none, pending := [] } 0
    { project := .str "project", stack := .str "stack", parallel := .none, dryRun := .none, legacyApply := .none,
      organization := .none, monitor := .none, engine := .none } legacyEnv

/-! ## Reading -/

/-- `runtime/settings.py:146-153` `is_dry_run`. -/
def isDryRun (s : State) (c : Nat) : Bool :=
  match s.get c .dryRun with
  | .none => false
  | .bool b => b
  | .int i => i != 0
  | .str t => t != ""
  | .obj _ => true
  | .addr a => !(s.heap a).isEmpty

/-- `runtime/settings.py:160-166` `get_organization`. -/
def getOrganization (s : State) (c : Nat) : Except String Val :=
  if s.get c .organization = .none then .error "organization is not available" else .ok (s.get c .organization)

/-! ## Features of the monitor -/

/-- What the monitor answers to `SupportsFeature`. -/
inductive Answer where
  | has (b : Bool)
  | unimplemented
  | unavailable
  | error (details : String)
  deriving DecidableEq, Repr

/-- `runtime/settings.py:254-268` `grpc_error_to_exception`, and `:236-246` `do_rpc_call`: the result or the exception. -/
def Answer.result : Answer → Except String Bool
  | .has b => .ok b
  | .unimplemented => .ok false
  | .unavailable => .error "Resource monitor has terminated, shutting down"
  | .error d => .error d

/-- How `monitor_supports_feature` goes on from its first line. -/
inductive Asked where
  /-- it returns at once -/
  | done (b : Bool)
  /-- it asks the monitor and waits -/
  | waiting
  /-- `in` on something that is not a dict, or another kind of monitor -/
  | fails
  deriving DecidableEq, Repr

/-- The entry of a dict. -/
def look (f : String) : List (String × Bool) → Option Bool
  | [] => none
  | (k, b) :: l => if k = f then some b else look f l

/-- Assignment to an entry of a dict. -/
def store (f : String) (b : Bool) : List (String × Bool) → List (String × Bool)
  | [] => [(f, b)]
  | (k, x) :: l => if k = f then (k, b) :: l else (k, x) :: store f b l

/-- `runtime/settings.py:228-249`, up to the `await`, in context `c`. -/
def ask (s : State) (c : Nat) (f : String) : State × Asked :=
  match s.get c .features with
  | .addr a =>
    match look f (s.heap a) with
    | some b => (s, .done b)
    | none =>
      match s.get c .monitor with
      | .none => (s, .done false)
      | .obj m => ({ s with pending := (c, f, m) :: s.pending }, .waiting)
      | _ => (s, .fails)
  | _ => (s, .fails)

/-- `runtime/settings.py:248-251`: the monitor answers, the result is recorded (`ContextProperty.__setitem__`, `_utils.py:231-236`)
and returned. -/
def answer (s : State) (c : Nat) (f : String) (m : Nat) (ans : Answer) : State × Except String Bool :=
  let s := { s with pending := s.pending.erase (c, f, m) }
  match ans.result with
  | .error e => (s, .error e)
  | .ok b =>
    match s.get c .features with
    | .addr a => (({ s with heap := upd s.heap a (store f b (s.heap a)) }).set c .features (.addr a), .ok b)
    | _ => (s, .error "TypeError")

/-! ## Histories -/

/-- What may happen in a process, in some context. -/
inductive Op where
  | settings (c : Nat) (a : Args) (legacyEnv : Bool)
  | reset (c : Nat) (a : Args) (legacyEnv : Bool)
  | mock (c : Nat) (monitor engine : Nat) (project stack : Option String) (preview : Val)
  | assign (c : Nat) (f : Field) (v : Val)
  | setRoot (c : Nat) (r : Nat)
  | fork (c c' : Nat)
  | thread (c : Nat)
  | ask (c : Nat) (f : String)
  | answer (c : Nat) (f : String) (m : Nat) (ans : Answer)

/-- One step. `assign` is `_set_project` and `_set_stack` (`runtime/settings.py:176-180`, `:190-194`); `setRoot` is
`set_root_resource` (`:221-225`). -/
def step (s : State) : Op → State
  | .settings c a e => mkSettings s c a e
  | .reset c a e => resetOptions s c a e
  | .mock c m e p t d => mockSettings s c m e p t d
  | .assign c f v => s.set c f v
  | .setRoot c r => { s with root := upd s.root c (some r) }
  | .fork c c' => Settings.fork s c c'
  | .thread c => Settings.thread s c
  | .ask c f => (Settings.ask s c f).1
  | .answer c f m ans => (Settings.answer s c f m ans).1

/-- A history. -/
def run (s : State) (ops : List Op) : State := ops.foldl step s

end Pulumi.Settings
