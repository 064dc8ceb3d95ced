/-!
# Commands of the automation API: arguments and environment

Models the argument lists that `automation/_stack.py` and
`automation/_local_workspace.py` build for the Pulumi CLI, and the start of the
process in `automation/_cmd.py`.
-/

namespace Pulumi.Cli

/-- Text, as a list of characters. -/
abbrev Text := List Char

/-- An element of an argument list.  `_parse_extra_args` puts a number in it
(_stack.py:774). -/
inductive Arg
  | s (t : Text)
  | i (n : Int)
  deriving DecidableEq, Repr

/-- A string literal as an argument. -/
def lit (t : String) : Arg := .s t.toList

/-- Python's `str` of an integer. -/
def decimal (n : Int) : Text := (toString n).toList

/-- The keyword arguments of `up`, `preview`, `refresh` and `destroy` that
`_parse_extra_args` looks at, and `plan` (_stack.py:199-221, 314-335, 431-446,
497-512); `none` is `None`, also for a parameter that the method does not have. -/
structure Opts where
  parallel : Option Int := none
  message : Option Text := none
  target : Option (List Text) := none
  policyPacks : Option (List Text) := none
  policyPackConfigs : Option (List Text) := none
  expectNoChanges : Option Bool := none
  diff : Option Bool := none
  targetDependents : Option Bool := none
  replace : Option (List Text) := none
  color : Option Text := none
  plan : Option Text := none
  logFlow : Option Bool := none
  logVerbosity : Option Int := none
  logToStdErr : Option Bool := none
  tracing : Option Text := none
  debug : Option Bool := none

/-- `if flag: args.append(name)` for an optional bool. -/
def boolFlag (b : Option Bool) (name : String) : List Arg :=
  if b = some true then [lit name] else []

/-- `if value: args.extend([name, value])` for an optional string: the empty
string is false. -/
def textFlag (t : Option Text) (name : String) : List Arg :=
  match t with
  | some (c :: r) => [lit name, .s (c :: r)]
  | _ => []

/-- `if value: for v in value: args.extend([name, v])`. -/
def listFlag (l : Option (List Text)) (name : String) : List Arg :=
  (l.getD []).flatMap fun v => [lit name, .s v]

/-- `if parallel: extra_args.extend(["--parallel", str(parallel)])`
(_stack.py:767-768). -/
def parallelFlag (n : Option Int) : List Arg :=
  match n with
  | some n => if n = 0 then [] else [lit "--parallel", .s (decimal n)]
  | none => []

/-- `if log_verbosity: extra_args.extend(["--verbose", log_verbosity])`
(_stack.py:773-774): the number itself. -/
def verboseFlag (n : Option Int) : List Arg :=
  match n with
  | some n => if n = 0 then [] else [lit "--verbose", .i n]
  | none => []

/-- _stack.py:728-781 `_parse_extra_args`. -/
def extraArgs (o : Opts) : List Arg :=
  textFlag o.message "--message"
  ++ boolFlag o.expectNoChanges "--expect-no-changes"
  ++ boolFlag o.diff "--diff"
  ++ listFlag o.replace "--replace"
  ++ listFlag o.target "--target"
  ++ listFlag o.policyPacks "--policy-pack"
  ++ listFlag o.policyPackConfigs "--policy-pack-config"
  ++ boolFlag o.targetDependents "--target-dependents"
  ++ parallelFlag o.parallel
  ++ textFlag o.color "--color"
  ++ boolFlag o.logFlow "--logflow"
  ++ verboseFlag o.logVerbosity
  ++ boolFlag o.logToStdErr "--logtostderr"
  ++ textFlag o.tracing "--tracing"
  ++ boolFlag o.debug "--debug"

/-- What a call fixes besides its options: the stack's name, the port of the
language server when there is an inline program (the method's own or the
workspace's), whether the workspace has a program, and the path of the event log
when there is one. -/
structure Call where
  stack : Text
  port : Option Text := none
  workspaceProgram : Bool := false
  eventLog : Option Text := none

/-- `ExecKind` (_stack.py:42-44). -/
def execKind (inline : Bool) : List Arg :=
  [lit "--exec-kind", if inline then lit "auto.inline" else lit "auto.local"]

/-- `args.append(f"--client=127.0.0.1:{port}")` (_stack.py:285, 398). -/
def clientArg (c : Call) : List Arg :=
  match c.port with
  | some p => [.s ("--client=127.0.0.1:".toList ++ p)]
  | none => []

/-- `args.extend(["--event-log", log_file])` (_stack.py:293, 402, 480, 545). -/
def eventLogArg (c : Call) : List Arg :=
  match c.eventLog with
  | some f => [lit "--event-log", .s f]
  | none => []

/-- `if plan is not None: args.append(name); args.append(plan)`
(_stack.py:256-258, 369-371): also the empty string. -/
def planArg (p : Option Text) (name : String) : List Arg :=
  match p with
  | some p => [lit name, .s p]
  | none => []

/-- The four operations. -/
inductive Op
  | up
  | preview
  | refresh
  | destroy
  deriving DecidableEq, Repr

/-- The arguments of the operation up to its flags: _stack.py:253, 366, 470, 535. -/
def opWords : Op → List Arg
  | .up => [lit "up", lit "--yes", lit "--skip-preview"]
  | .preview => [lit "preview"]
  | .refresh => [lit "refresh", lit "--yes", lit "--skip-preview"]
  | .destroy => [lit "destroy", lit "--yes", lit "--skip-preview"]

/-- What follows the flags: _stack.py:256-293, 369-402, 473-480, 538-545. -/
def opTail (op : Op) (o : Opts) (c : Call) : List Arg :=
  match op with
  | .up => planArg o.plan "--plan" ++ clientArg c ++ execKind c.port.isSome ++ eventLogArg c
  | .preview =>
    planArg o.plan "--save-plan" ++ clientArg c ++ execKind c.port.isSome ++ eventLogArg c
  | .refresh => execKind c.workspaceProgram ++ eventLogArg c
  | .destroy => execKind c.workspaceProgram ++ eventLogArg c

/-- The list handed to `_run_pulumi_cmd`, with what `Stack._run_pulumi_cmd_sync`
adds (_stack.py:720-722; `LocalWorkspace.serialize_args_for_op` returns no
arguments, _local_workspace.py:190-192). -/
def opArgs (op : Op) (o : Opts) (c : Call) : List Arg :=
  opWords op ++ extraArgs o ++ opTail op o c ++ [lit "--stack", .s c.stack]

/-- `if "--non-interactive" not in args: args.append("--non-interactive")`
(_cmd.py:46-47). -/
def nonInteractive (args : List Arg) : List Arg :=
  if lit "--non-interactive" ∈ args then args else args ++ [lit "--non-interactive"]

/-- `subprocess.Popen` takes strings only, and raises `TypeError` (`none`) for
anything else.  Not modelled: a string with a null character, for which it raises
`ValueError`. -/
def texts : List Arg → Option (List Text)
  | [] => some []
  | .s t :: r => (texts r).map (t :: ·)
  | .i _ :: _ => none

/-- The argument vector of the process, after the program's name (_cmd.py:46-57). -/
def launch (args : List Arg) : Option (List Text) := texts (nonInteractive args)

/-! ## Commands on config and stacks -/

/-- A `ConfigValue` (_config.py). -/
structure ConfigValue where
  value : Text
  secret : Bool

/-- _local_workspace.py:198-201 `get_config`. -/
def getConfigArgs (stack key : Text) : List Arg :=
  [lit "config", lit "get", .s key, lit "--json", lit "--stack", .s stack]

/-- `"--secret" if value.secret else "--plaintext"`. -/
def secretArg (v : ConfigValue) : Arg := if v.secret then lit "--secret" else lit "--plaintext"

/-- _local_workspace.py:218-232 `set_config`. -/
def setConfigArgs (stack key : Text) (v : ConfigValue) : List Arg :=
  [lit "config", lit "set", .s key, secretArg v, lit "--stack", .s stack,
   lit "--non-interactive", lit "--", .s v.value]

/-- _local_workspace.py:234-241 `set_all_config`. -/
def setAllConfigArgs (stack : Text) (cfg : List (Text × ConfigValue)) : List Arg :=
  [lit "config", lit "set-all", lit "--stack", .s stack]
  ++ cfg.flatMap fun kv => [secretArg kv.2, .s (kv.1 ++ '=' :: kv.2.value)]

/-- _local_workspace.py:243-244 `remove_config`. -/
def removeConfigArgs (stack key : Text) : List Arg :=
  [lit "config", lit "rm", .s key, lit "--stack", .s stack]

/-- _local_workspace.py:246-249 `remove_all_config`. -/
def removeAllConfigArgs (stack : Text) (keys : List Text) : List Arg :=
  [lit "config", lit "rm-all", lit "--stack", .s stack] ++ keys.map .s

/-- _local_workspace.py:268-272 `create_stack`. -/
def createStackArgs (stack : Text) (secretsProvider : Option Text) : List Arg :=
  [lit "stack", lit "init", .s stack] ++ textFlag secretsProvider "--secrets-provider"

/-- _local_workspace.py:274-275 `select_stack`. -/
def selectStackArgs (stack : Text) : List Arg := [lit "stack", lit "select", .s stack]

/-- _local_workspace.py:277-278 `remove_stack`. -/
def removeStackArgs (stack : Text) : List Arg := [lit "stack", lit "rm", lit "--yes", .s stack]

/-! ## The environment -/

/-- A mapping of names to texts, as a function. -/
abbrev Env := Text → Option Text

/-- `{**a, **b}`. -/
def Env.update (a b : Env) : Env := fun k => (b k).or (a k)

/-- `{k: v}`. -/
def Env.one (k v : Text) : Env := fun k' => if k' = k then some v else none

/-- `{}`. -/
def Env.none : Env := fun _ => Option.none

/-- A workspace's `pulumi_home` and `env_vars`. -/
structure Workspace where
  home : Option Text
  envVars : Env

/-- _local_workspace.py:381-382. -/
def workspaceEnv (w : Workspace) : Env :=
  (match w.home with
   | some (c :: r) => Env.one "PULUMI_HOME".toList (c :: r)
   | _ => Env.none).update w.envVars

/-- _stack.py:715-718. -/
def stackEnv (w : Workspace) : Env :=
  (match w.home with
   | some h => (Env.one "PULUMI_DEBUG_COMMANDS".toList "true".toList).update
       (Env.one "PULUMI_HOME".toList h)
   | none => Env.one "PULUMI_DEBUG_COMMANDS".toList "true".toList).update w.envVars

/-- `env = {**os.environ, **additional_env}` (_cmd.py:48). -/
def processEnv (os additional : Env) : Env := os.update additional

end Pulumi.Cli
