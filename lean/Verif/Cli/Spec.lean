import Verif.Cli.Model

/-!
# How the Pulumi CLI reads its arguments

A small model of the flag parser of the CLI (spf13/pflag, with flags and
arguments in any order), with the flags that `pkg/cmd/pulumi/up.go`, `preview.go`,
`refresh.go`, `destroy.go`, `config.go` and `stack_*.go` declare.
-/

namespace Pulumi.Cli

/-- A flag without a value, or one that takes the next argument. -/
inductive Kind
  | switch
  | value
  deriving DecidableEq, Repr

/-- What the CLI reads: the flags with their values, in order, and the
arguments. -/
structure Parsed where
  flags : List (Text × Text)
  args : List Text
  deriving Repr, DecidableEq

/-- One word of the command line. -/
inductive Word
  | argument
  | endOfFlags
  | flag (name : Text)
  | flagIs (name value : Text)
  | other
  deriving DecidableEq, Repr

/-- Text up to the first `=`, and after it. -/
def splitEq : Text → Text × Option Text
  | [] => ([], none)
  | c :: r => if c = '=' then ([], some r) else (c :: (splitEq r).1, (splitEq r).2)

/-- pflag's `parseArgs` and `parseLongArg`, on one word.  `other` are short flags
and malformed words. -/
def word : Text → Word
  | [] => .argument
  | ['-'] => .argument
  | ['-', '-'] => .endOfFlags
  | '-' :: '-' :: c :: r =>
    if c = '-' ∨ c = '=' then .other
    else
      match splitEq (c :: r) with
      | (n, none) => .flag n
      | (n, some v) => .flagIs n v
  | '-' :: _ => .other
  | _ => .argument

def Parsed.addFlag (n v : Text) (p : Parsed) : Parsed := { p with flags := (n, v) :: p.flags }
def Parsed.addArg (a : Text) (p : Parsed) : Parsed := { p with args := a :: p.args }

/-- The parser: `none` when the CLI rejects the command line. -/
def cliParse (kind : Text → Option Kind) : List Text → Option Parsed
  | [] => some ⟨[], []⟩
  | a :: rest =>
    match word a with
    | .argument => (cliParse kind rest).map (·.addArg a)
    | .endOfFlags => some ⟨[], rest⟩
    | .other => none
    | .flagIs n v =>
      match kind n with
      | none => none
      | some _ => (cliParse kind rest).map (·.addFlag n v)
    | .flag n =>
      match kind n with
      | none => none
      | some .switch => (cliParse kind rest).map (·.addFlag n "true".toList)
      | some .value =>
        match rest with
        | [] => none
        | v :: rest' => (cliParse kind rest').map (·.addFlag n v)

/-- The values of a flag, in order. -/
def Parsed.values (p : Parsed) (name : Text) : List Text :=
  (p.flags.filter (·.1 = name)).map (·.2)

/-- The flags of a table of names. -/
def kindIn (switches values : List String) (n : Text) : Option Kind :=
  if n ∈ switches.map String.toList then some .switch
  else if n ∈ values.map String.toList then some .value
  else none

/-- pulumi.go:251-270: flags of every command (`help` is cobra's). -/
def globalSwitches : List String :=
  ["help", "emoji", "disable-integrity-checking", "logflow", "logtostderr", "non-interactive"]
def globalValues : List String := ["cwd", "tracing", "profiling", "verbose", "color"]

/-- The flags of the four operations that the automation API uses. -/
def opKind : Text → Option Kind :=
  kindIn (globalSwitches ++ ["yes", "skip-preview", "expect-no-changes", "diff",
      "target-dependents", "debug"])
    (globalValues ++ ["message", "replace", "target", "policy-pack", "policy-pack-config",
      "parallel", "plan", "save-plan", "client", "exec-kind", "event-log", "stack"])

/-- `--policy-pack` and `--policy-pack-config` are string slices (up.go:511-516):
each value is a list separated by commas.  Simplified: quotes, which the CLI reads
as those of a CSV file, are ordinary characters here. -/
def commas : Text → List Text
  | [] => [[]]
  | c :: r =>
    if c = ',' then [] :: commas r
    else
      match commas r with
      | [] => [[c]]
      | t :: ts => (c :: t) :: ts

/-- The elements that the CLI reads for a string slice. -/
def Parsed.slice (p : Parsed) (name : Text) : List Text :=
  (p.values name).flatMap fun v => if v = [] then [] else commas v

/-! ## What a call asks for -/

/-- A switch that was asked for. -/
def switchOf (b : Option Bool) : List Text := if b = some true then ["true".toList] else []

/-- An optional text for which the CLI's default is the empty text. -/
def textOf (t : Option Text) : List Text :=
  match t with
  | some [] => []
  | some t => [t]
  | none => []

/-- An optional number for which the CLI's default is 0. -/
def numberOf (n : Option Int) : List Text :=
  match n with
  | some n => if n = 0 then [] else [decimal n]
  | none => []

/-- The flags that an operation with these options asks for, by name.  `--yes`,
`--skip-preview` and `--non-interactive`: the operation must not ask questions. -/
def asked (op : Op) (o : Opts) (c : Call) : List (String × List Text) :=
  (if op = .preview then [] else [("yes", ["true".toList]), ("skip-preview", ["true".toList])])
  ++ [("message", textOf o.message),
      ("expect-no-changes", switchOf o.expectNoChanges),
      ("diff", switchOf o.diff),
      ("replace", o.replace.getD []),
      ("target", o.target.getD []),
      ("policy-pack", o.policyPacks.getD []),
      ("policy-pack-config", o.policyPackConfigs.getD []),
      ("target-dependents", switchOf o.targetDependents),
      ("parallel", (o.parallel.map decimal).toList),
      ("color", o.color.toList),
      ("logflow", switchOf o.logFlow),
      ("verbose", numberOf o.logVerbosity),
      ("logtostderr", switchOf o.logToStdErr),
      ("tracing", textOf o.tracing),
      ("debug", switchOf o.debug)]
  ++ (match op with
      | .up => [("plan", o.plan.toList)]
      | .preview => [("save-plan", o.plan.toList)]
      | _ => [])
  ++ (if op = .up ∨ op = .preview then
        [("client", (c.port.map fun p => "127.0.0.1:".toList ++ p).toList),
         ("exec-kind", [if c.port.isSome then "auto.inline".toList else "auto.local".toList])]
      else
        [("exec-kind", [if c.workspaceProgram then "auto.inline".toList
                        else "auto.local".toList])])
  ++ [("event-log", c.eventLog.toList), ("stack", [c.stack]),
      ("non-interactive", ["true".toList])]

/-- The values asked for under a name: none for a name that is not in the table. -/
def askedFor (t : List (String × List Text)) (name : Text) : List Text :=
  match t with
  | [] => []
  | (n, vs) :: r => if n.toList = name then vs else askedFor r name

/-- The CLI reads from the argument vector the operation's name and exactly the
flags asked for: for every name, its values and no others, and no argument. -/
def ReadsAsAsked (op : Op) (o : Opts) (c : Call) (argv : List Text) : Prop :=
  ∃ rest p,
    argv = (match op with
      | .up => "up".toList
      | .preview => "preview".toList
      | .refresh => "refresh".toList
      | .destroy => "destroy".toList) :: rest
    ∧ cliParse opKind rest = some p ∧ p.args = []
    ∧ ∀ name, p.values name = askedFor (asked op o c) name

/-- The option values, other than `--yes` and the like, that a call puts on the
command line. -/
def optionTexts (o : Opts) (c : Call) : List Text :=
  o.message.toList ++ o.replace.getD [] ++ o.target.getD [] ++ o.policyPacks.getD []
  ++ o.policyPackConfigs.getD [] ++ o.color.toList ++ o.tracing.toList ++ o.plan.toList
  ++ c.eventLog.toList ++ [c.stack]

/-! ## Commands on config -/

/-- A word that the CLI takes for an argument, not for a flag. -/
def Plain (t : Text) : Prop := word t = .argument

/-- config.go:276-282, 328-330, 379-381, 75-80: `get`, `rm` and `rm-all`. -/
def configKind : Text → Option Kind :=
  kindIn (globalSwitches ++ ["json", "path"]) (globalValues ++ ["stack", "config-file"])

/-- config.go:555-563: `set`, where `--secret` and `--plaintext` are switches. -/
def setKind : Text → Option Kind :=
  kindIn (globalSwitches ++ ["path", "secret", "plaintext"])
    (globalValues ++ ["stack", "config-file"])

/-- config.go:643-651: `set-all`, where they take a pair. -/
def setAllKind : Text → Option Kind :=
  kindIn (globalSwitches ++ ["path"])
    (globalValues ++ ["stack", "config-file", "secret", "plaintext"])

/-- stack_init.go:150-156, stack_select.go:100-108, stack_rm.go:104-115. -/
def stackKind : Text → Option Kind :=
  kindIn (globalSwitches ++ ["create", "yes", "force", "preserve-config"])
    (globalValues ++ ["stack", "secrets-provider", "copy-config-from"])

/-- `strings.SplitN(pair, q + "=", 2)`, `none` when there is no such place. -/
def splitQuoted (q : Char) : Text → Option (Text × Text)
  | [] => none
  | [_] => none
  | c :: d :: r =>
    if c = q ∧ d = '=' then some ([], r)
    else (splitQuoted q (d :: r)).map fun kv => (c :: kv.1, kv.2)

/-- config.go:656-677 `parseKeyValuePair`: key and value. -/
def parsePair (t : Text) : Option (Text × Text) :=
  match t with
  | [] => none
  | c :: r =>
    if c = '"' ∨ c = '\'' then splitQuoted c r
    else
      match splitEq (c :: r) with
      | (k, some v) => some (k, v)
      | (_, none) => none

/-- What the CLI does with the argument vector of a command on config. -/
inductive Effect
  | get (stack key : Text)
  | set (stack key value : Text) (secret : Bool)
  | setAll (stack : Text) (plain secret : List (Text × Text))
  | remove (stack : Text) (keys : List Text)
  | help
  deriving DecidableEq

/-- The only value of a flag. -/
def Parsed.the (p : Parsed) (name : String) : Option Text :=
  match p.values name.toList with
  | [v] => some v
  | _ => none

/-- Whether a flag is present. -/
def Parsed.has (p : Parsed) (name : String) : Bool := !(p.values name.toList).isEmpty

/-- `get`: one argument.  Only the plain case: no `--path` or `--config-file`. -/
def readGet (p : Parsed) : Option Effect :=
  if p.has "help" then some .help
  else if p.has "path" ∨ p.has "config-file" then none
  else match p.args, p.the "stack" with
    | [k], some s => some (.get s k)
    | _, _ => none

/-- `rm`: one argument; `rm-all`: one or more. -/
def readRemove (many : Bool) (p : Parsed) : Option Effect :=
  if p.has "help" then some .help
  else if p.has "path" ∨ p.has "config-file" then none
  else match p.args, p.the "stack" with
    | k :: ks, some s => if many ∨ ks = [] then some (.remove s (k :: ks)) else none
    | _, _ => none

/-- `set`: a key and a value, and `--secret` or `--plaintext` but not both. -/
def readSet (p : Parsed) : Option Effect :=
  if p.has "help" then some .help
  else if p.has "path" ∨ p.has "config-file" then none
  else if p.has "secret" = p.has "plaintext" then none
  else match p.args, p.the "stack" with
    | [k, v], some s => some (.set s k v (p.has "secret"))
    | _, _ => none

/-- Every element, or nothing. -/
def allSome (f : Text → Option (Text × Text)) : List Text → Option (List (Text × Text))
  | [] => some []
  | t :: r =>
    match f t, allSome f r with
    | some x, some xs => some (x :: xs)
    | _, _ => none

/-- `set-all`: no arguments, pairs as flags. -/
def readSetAll (p : Parsed) : Option Effect :=
  if p.has "help" then some .help
  else if p.has "path" ∨ p.has "config-file" then none
  else match p.args, p.the "stack", allSome parsePair (p.values "plaintext".toList),
      allSome parsePair (p.values "secret".toList) with
    | [], some s, some pl, some se => some (.setAll s pl se)
    | _, _, _, _ => none

/-- The effect of an argument vector `config <sub> …`; `none` when the CLI rejects
it (or it is not one of the plain cases). -/
def configEffect (argv : List Text) : Option Effect :=
  match argv with
  | c :: sub :: rest =>
    if c ≠ "config".toList then none
    else if sub = "get".toList then (cliParse configKind rest).bind readGet
    else if sub = "set".toList then (cliParse setKind rest).bind readSet
    else if sub = "set-all".toList then (cliParse setAllKind rest).bind readSetAll
    else if sub = "rm".toList then (cliParse configKind rest).bind (readRemove false)
    else if sub = "rm-all".toList then (cliParse configKind rest).bind (readRemove true)
    else none
  | _ => none

/-- A key that can stand before `=` in a pair. -/
def PairKey (k : Text) : Prop :=
  k ≠ [] ∧ '=' ∉ k ∧ k.head? ≠ some '"' ∧ k.head? ≠ some '\''

end Pulumi.Cli
