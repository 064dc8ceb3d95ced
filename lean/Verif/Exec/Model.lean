import Verif.Json.Model

/-!
# Starting a program

`/repo/sdk/python/cmd/pulumi-language-python-exec` (the executor), the arguments with which the language host starts it
(`/repo/sdk/python/cmd/pulumi-language-python/main.go:740-767`), and Python's `argparse` as the executor uses it (as of Python 3.11,
cited by function name).

Simplified: `\d` are ASCII digits, and `$` is the end of the text. Texts are lists of characters.
-/

namespace Pulumi.Exec

open Json (Text intText)

/-! ## The language host -/

/-- `RunRequest`, with the host's engine address and tracing endpoint. -/
structure Request where
  monitor : Text
  engine : Text
  project : Text
  stack : Text
  pwd : Text
  dryRun : Bool
  parallel : Int
  tracing : Text
  organization : Text
  program : Text
  args : List Text

/-- `maybeAppendArg` (main.go:742-746) -/
def maybe (k : String) (v : Text) : List Text := if v ≠ [] then [("--" ++ k).toList, v] else []

/-- `constructArguments` (main.go:740-767) -/
def constructArguments (r : Request) : List Text :=
  maybe "monitor" r.monitor ++ maybe "engine" r.engine ++ maybe "project" r.project ++ maybe "stack" r.stack ++
  maybe "pwd" r.pwd ++ maybe "dry_run" (if r.dryRun then "true".toList else "false".toList) ++
  maybe "parallel" (intText r.parallel) ++ maybe "tracing" r.tracing ++ maybe "organization" r.organization ++
  [if r.program = [] then ".".toList else r.program] ++ r.args

/-! ## `argparse` -/

inductive Opt
  | help | project | stack | parallel | dryRun | pwd | monitor | engine | tracing | organization
  deriving DecidableEq, Repr

/-- `_option_string_actions`, in the order of `add_argument` (executor:55-64). -/
def table : List (Text × Opt) :=
  [("-h".toList, .help), ("--help".toList, .help), ("--project".toList, .project), ("--stack".toList, .stack),
   ("--parallel".toList, .parallel), ("--dry_run".toList, .dryRun), ("--pwd".toList, .pwd), ("--monitor".toList, .monitor),
   ("--engine".toList, .engine), ("--tracing".toList, .tracing), ("--organization".toList, .organization)]

/-- What an argument is: a plain argument, or an option that the parser knows, with the value that is part of the argument, or
one that it does not know. -/
inductive Tag
  | plain
  | known (o : Opt) (explicit : Option Text)
  | unknown
  deriving DecidableEq, Repr

/-- `arg_string.partition('=')`: what is before the first `=`, and what is after it, if there is one. -/
def partition (a : Text) : Text × Option Text :=
  match a.dropWhile (· ≠ '=') with
  | [] => (a, none)
  | _ :: v => (a.takeWhile (· ≠ '='), some v)

/-- `_get_option_tuples`: abbreviations of long options, or `-h` with something after it. -/
def optionTuples (a : Text) : List (Opt × Option Text) :=
  if a[1]? = some '-' then
    (table.filter fun x => (partition a).1.isPrefixOf x.1).map fun x => (x.2, (partition a).2)
  else
    table.filterMap fun x =>
      if x.1 = a.take 2 then some (x.2, some (a.drop 2)) else if a.isPrefixOf x.1 then some (x.2, none) else none

def isDigit (c : Char) : Bool := decide ('0' ≤ c) && decide (c ≤ '9')

/-- `_negative_number_matcher`: `^-\d+$|^-\d*\.\d+$` -/
def negativeNumber : Text → Bool
  | '-' :: d =>
    (d ≠ [] && d.all isDigit) ||
      match d.dropWhile isDigit with
      | '.' :: f => f ≠ [] && f.all isDigit
      | _ => false
  | _ => false

/-- What is before the first `=`, if the parser knows it. -/
def explicitOption (a : Text) : Option (Opt × Text) :=
  match partition a with
  | (k, some v) => (table.lookup k).map fun o => (o, v)
  | _ => none

/-- `_parse_optional`; `none` is the error of an ambiguous abbreviation. -/
def parseOptional (a : Text) : Option Tag :=
  if a.head? ≠ some '-' then some .plain
  else
    match table.lookup a with
    | some o => some (.known o none)
    | none =>
      if a.length = 1 then some .plain
      else
        match explicitOption a with
        | some (o, v) => some (.known o (some v))
        | none =>
          match optionTuples a with
          | _ :: _ :: _ => none
          | [(o, v)] => some (.known o v)
          | [] => if negativeNumber a then some .plain else if a.contains ' ' then some .plain else some .unknown

/-- The pattern of the arguments (`_parse_known_args`): `none` marks `--`, everything after it is plain. -/
def tags : List Text → Option (List (Text × Option Tag))
  | [] => some []
  | a :: as =>
    if a = "--".toList then some ((a, none) :: as.map fun x => (x, some .plain))
    else
      match parseOptional a, tags as with
      | some t, some ts => some ((a, some t) :: ts)
      | _, _ => none

/-- What the options and positional arguments gave so far. -/
structure Namespace where
  opts : Opt → Option Text := fun _ => none
  program : Option Text := none
  args : List Text := []
  extras : Bool := false

def Namespace.set (n : Namespace) (o : Opt) (v : Text) : Namespace :=
  { n with opts := fun p => if p = o then some v else n.opts p }

inductive Outcome
  | parsed (n : Namespace)
  /-- the help is printed, exit code 0 -/
  | help
  /-- the usage is printed, exit code 2 -/
  | error

/-- Not the place of an option. -/
def isPositional (t : Option Tag) : Bool :=
  match t with
  | none => true
  | some .plain => true
  | _ => false

/-- What follows `-h` in the same argument (`consume_optional`): more options of one letter; unknown ones are extras, but the
help comes first. -/
def helpTail : Text → Outcome
  | [] => .help
  | '=' :: _ => .error
  | '-' :: _ => .error
  | 'h' :: t => helpTail t
  | _ => .help

/-- `consume_positionals`: `PROGRAM` and `ARGS` are matched together, by `(-*A-*)(-*[A-]*)`, as soon as there is a plain
argument; of either, the first `--` is removed (`_get_values`). Further positional arguments are extras. -/
def positionals (n : Namespace) (chunk : List (Text × Option Tag)) : Namespace :=
  if n.program.isSome then { n with extras := true }
  else
    match chunk with
    | (_, none) :: (p, some _) :: rest => { n with program := some p, args := (rest.map (·.1)).erase "--".toList }
    | (p, some _) :: (_, none) :: rest => { n with program := some p, args := (rest.map (·.1)).erase "--".toList }
    | (p, some _) :: rest => { n with program := some p, args := (rest.map (·.1)).erase "--".toList }
    | _ => { n with extras := true }

/-- The end of `_parse_known_args` and of `parse_args`: `PROGRAM` is required and there must be no extras. -/
def finish (n : Namespace) : Outcome := if n.program.isNone || n.extras then .error else .parsed n

/-- The main loop of `_parse_known_args`. -/
def consume (n : Namespace) (ts : List (Text × Option Tag)) : Outcome :=
  match ts with
  | [] => finish n
  | (_, some (.known .help none)) :: _ => .help
  | (a, some (.known .help (some _))) :: _ => if a[1]? = some '-' then .error else helpTail (a.drop 2)
  | (_, some (.known o (some v))) :: rest => consume (n.set o v) rest
  | (_, some (.known o none)) :: (v, some .plain) :: rest => consume (n.set o v) rest
  | (_, some (.known _ none)) :: _ => .error
  | (_, some .unknown) :: rest => consume { n with extras := true } rest
  | x :: rest =>
    consume (positionals n (x :: rest.takeWhile fun y => isPositional y.2)) (rest.dropWhile fun y => isPositional y.2)
termination_by ts.length
decreasing_by
  all_goals simp_wf
  all_goals first | omega | (have := (List.dropWhile_sublist (fun y => isPositional y.2) (l := rest)).length_le; omega)

/-- `parse_args()` (executor:67) -/
def parseArgs (argv : List Text) : Outcome :=
  match tags argv with
  | none => .error
  | some ts => consume {} ts

/-! ## The executor -/

/-- What the program is run with. -/
structure Started where
  monitor : Option Text
  engine : Option Text
  project : Option Text
  stack : Option Text
  parallel : Int
  dryRun : Bool
  organization : Option Text
  /-- the directory that the process changes to -/
  pwd : Option Text
  /-- `sys.argv` -/
  argv : List Text
  deriving DecidableEq, Repr

/-- How the executor begins. -/
inductive Begin
  | runs (s : Started)
  /-- the process ends with this code before the program runs -/
  | exits (code : Nat)
  deriving DecidableEq, Repr

/-- The executor from its arguments to the program (executor:67-108). `int` is Python's `int` of a text, `none` if it raises;
without `--parallel`, `int(None)` raises, also the second time (executor:83-101). -/
def start (int : Text → Option Int) (argv : List Text) : Begin :=
  match parseArgs argv with
  | .error => .exits 2
  | .help => .exits 0
  | .parsed n =>
    match n.program, (n.opts .parallel).bind int with
    | some p, some k =>
      .runs
        { monitor := n.opts .monitor
          engine := n.opts .engine
          project := n.opts .project
          stack := n.opts .stack
          parallel := k
          dryRun := n.opts .dryRun = some "true".toList
          organization := n.opts .organization
          pwd := n.opts .pwd
          argv := p :: n.args }
    | _, _ => .exits 1

/-! ## The answer of the language host -/

/-- `RunResponse` -/
inductive Response
  /-- no error: to the engine, the program has run to its end -/
  | success
  /-- the user has seen a message, `Bail` is set -/
  | bail
  /-- "Program exited with non-zero exit code" -/
  | failed (code : Nat)
  deriving DecidableEq, Repr

/-- The host's answer when the executor has exited with a code (main.go:698-731); `cmd.Run` has no error for code 0. -/
def respond (code : Nat) : Response :=
  if code = 0 then .success else if code = 32 then .bail else .failed code

/-- `Run` (main.go:648-735): the executor is started with the arguments; `exit` is the code with which it ends if it runs the
program. -/
def hostRun (int : Text → Option Int) (exit : Started → Nat) (r : Request) : Response :=
  match start int (constructArguments r) with
  | .exits c => respond c
  | .runs s => respond (exit s)

end Pulumi.Exec
