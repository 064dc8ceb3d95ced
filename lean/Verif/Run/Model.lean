import Verif.Cli.Model
import Verif.Registry.Model

/-!
# Commands of the automation API: running them and reading their results

Models `automation/_cmd.py`, `automation/errors.py` and the parts of
`automation/_stack.py` and `automation/_local_workspace.py` that read a command's
result.
-/

namespace Pulumi.Run

open Pulumi.Cli (Text Arg lit decimal)

/-! ## The output of a process (_cmd.py:54-80) -/

/-- The lines that `readline` returns, each with its newline.  Simplified: the
output is text that decodes. -/
def pieces : Text → List Text
  | [] => []
  | c :: r =>
    if c = '\n' then ['\n'] :: pieces r
    else
      match pieces r with
      | [] => [[c]]
      | p :: ps => (c :: p) :: ps

/-- `str.rstrip`, for a notion of white space. -/
def rstrip (space : Char → Bool) (t : Text) : Text := (t.reverse.dropWhile space).reverse

/-- The turns of the loop of _cmd.py:59-67 at which `readline` returns nothing; it
ends when the process has. -/
def waitExit : List Bool → Option (List Text)
  | [] => none
  | true :: _ => some []
  | false :: polls => waitExit polls

/-- The loop of _cmd.py:59-67.  `polls` are the answers of `process.poll() is not
None`, asked for only when `readline` returned nothing; the result is what was
given to `on_output` and to `stdout_chunks`, or `none` if the loop has not ended. -/
def readLoop (space : Char → Bool) : List Text → List Bool → Option (List Text)
  | [], polls => waitExit polls
  | l :: ls, polls => (readLoop space ls polls).map (rstrip space l :: ·)

/-- `"\n".join(chunks)`. -/
def joinLines : List Text → Text
  | [] => []
  | [t] => t
  | t :: u :: r => t ++ '\n' :: joinLines (u :: r)

/-- `CommandResult` (_cmd.py:22-29). -/
structure Result where
  stdout : Text
  stderr : Text
  code : Int

/-- The classes of errors.py. -/
inductive ErrorClass
  | stackNotFound
  | stackAlreadyExists
  | concurrentUpdate
  | compilation
  | inlineSourceRuntime
  | runtime
  | command
  deriving DecidableEq, Repr

/-! ## Classification (errors.py:68-95) -/

/-- `text in s`. -/
def contains (text : Text) : Text → Bool
  | [] => text.isPrefixOf []
  | c :: r => text.isPrefixOf (c :: r) || contains text r

/-- `.*b` matches at the start of the text; the dot does not match a newline. -/
def gapThen (b : Text) : Text → Bool
  | [] => b.isPrefixOf []
  | c :: r => b.isPrefixOf (c :: r) || (c != '\n' && gapThen b r)

/-- `a.*b` matches at the start of the text. -/
def gapAt (a b s : Text) : Bool := a.isPrefixOf s && gapThen b (s.drop a.length)

/-- `re.compile("a.*b").search(s)`. -/
def searchGap (a b : Text) : Text → Bool
  | [] => gapAt a b []
  | c :: r => gapAt a b (c :: r) || searchGap a b r

/-- `a.` matches at the start of the text. -/
def dotAt (a s : Text) : Bool :=
  a.isPrefixOf s &&
    match s.drop a.length with
    | [] => false
    | c :: _ => c != '\n'

/-- `re.compile("a.").search(s)`. -/
def searchDot (a : Text) : Text → Bool
  | [] => dotAt a []
  | c :: r => dotAt a (c :: r) || searchDot a r

/-- errors.py:80-95 `create_command_error`, with the patterns of 68-77. -/
def classify (r : Result) : ErrorClass :=
  if searchGap "no stack named".toList "found".toList r.stderr then .stackNotFound
  else if searchGap "stack".toList "already exists".toList r.stderr then .stackAlreadyExists
  else if contains "[409] Conflict: Another update is currently in progress.".toList r.stderr then
    .concurrentUpdate
  else if searchDot "Build FAILED".toList r.stdout
      || contains "Unable to compile TypeScript".toList r.stdout
      || contains ": syntax error:".toList r.stdout
      || contains ": undefined:".toList r.stdout then .compilation
  else if contains "python inline source runtime error".toList r.stdout then .inlineSourceRuntime
  else if contains "failed with an unhandled exception".toList r.stdout
      || contains "panic: runtime error".toList r.stdout
      || contains "an unhandled error occurred:".toList r.stdout then .runtime
  else .command

/-- What a process does: its output, its standard error and exit code. -/
structure Process where
  output : Text
  errors : Text
  code : Int

/-- What `_run_pulumi_cmd` gives: a result, or an exception with its class and the
result in it. -/
inductive Outcome
  | ok (r : Result)
  | raised (e : ErrorClass) (r : Result)

/-- _cmd.py:54-80, for a process and the answers of `poll`: the calls of
`on_output` and the outcome. -/
def run (space : Char → Bool) (p : Process) (polls : List Bool) :
    Option (List Text × Outcome) :=
  match readLoop space (pieces p.output) polls with
  | none => none
  | some chunks =>
    let r : Result := ⟨joinLines chunks, p.errors, p.code⟩
    some (chunks, if p.code = 0 then .ok r else .raised (classify r) r)

/-! ## Creating or selecting a stack (_stack.py:181-190) -/

/-- The commands. -/
inductive StackCmd
  | create (name : Text)
  | select (name : Text)
  deriving DecidableEq

/-- A CLI: how a command changes the backend's state, and its process. -/
abbrev Backend (σ : Type) := σ → StackCmd → σ × Process

/-- The class of the exception, if a command with this process raises: `run` at a
process that has ended when its output has. -/
def raises (space : Char → Bool) (p : Process) : Option ErrorClass :=
  match run space p [true] with
  | some (_, .raised e _) => some e
  | _ => none

/-- `StackInitMode.CREATE_OR_SELECT`.  `between` is what others do to the backend
between the two commands.  The result is the state, the commands run and the class
of the exception. -/
def createOrSelect {σ : Type} (space : Char → Bool) (cli : Backend σ) (between : σ → σ)
    (name : Text) (s : σ) : σ × List StackCmd × Option ErrorClass :=
  match raises space (cli s (.create name)).2 with
  | none => ((cli s (.create name)).1, [.create name], none)
  | some .stackAlreadyExists =>
    let s' := between (cli s (.create name)).1
    ((cli s' (.select name)).1, [.create name, .select name],
      raises space (cli s' (.select name)).2)
  | some e => ((cli s (.create name)).1, [.create name], some e)

/-! ## The version of the CLI (_local_workspace.py:104-113, 371-376, 608-638) -/

/-- `_get_pulumi_version`: strips, and drops a leading `v`; `none` is the
`IndexError` of `version_string[0]`. -/
def versionText (space : Char → Bool) (stdout : Text) : Option Text :=
  match rstrip space (stdout.dropWhile space) with
  | [] => none
  | c :: r => if c = 'v' then some r else some (c :: r)

/-- What the constructor of a workspace does about the version. -/
inductive VersionCheck
  | accepted (v : Option Registry.Version)
  | invalid
  | indexError
  deriving DecidableEq

/-- _minimum_version.py:17. -/
def minimum : Registry.Version := ⟨3, 1, 0, []⟩

/-- `_parse_and_validate_pulumi_version`; `parsed` is `none` for the `ValueError` of
`VersionInfo.parse`. -/
def validate (parsed : Option Registry.Version) (optOut : Bool) : VersionCheck :=
  if optOut then .accepted parsed
  else
    match parsed with
    | none => .invalid
    | some v =>
      if minimum.major < v.major then .invalid
      else if minimum.cmp v = .gt then .invalid
      else .accepted (some v)

/-- _local_workspace.py:104-112: `os.getenv(VAR) is not None` or `env_vars.get(VAR)
is not None`. -/
def checkVersion (parse : Text → Option Registry.Version) (space : Char → Bool) (stdout : Text)
    (osVar envVar : Option Text) : VersionCheck :=
  match versionText space stdout with
  | none => .indexError
  | some t => validate (parse t) (osVar.isSome || envVar.isSome)

/-! ## History (_stack.py:640-647, 681) -/

/-- The arguments of `history`, before `--stack`. -/
def historyArgs (pageSize page : Option Int) (showSecrets : Bool) : List Arg :=
  [lit "stack", lit "history", lit "--json"]
  ++ (if showSecrets then [lit "--show-secrets"] else [])
  ++ (match pageSize with
      | some n => [lit "--page-size", .s (decimal n), lit "--page", .s (decimal (page.getD 1))]
      | none => [])

/-- `info` (_stack.py:675-683): `history(page_size=1)` and its first element. -/
def infoArgs (showSecrets : Bool) : List Arg := historyArgs (some 1) none showSecrets
def infoOf {α : Type} (history : List α) : Option α := history.head?

/-! ## Outputs (_local_workspace.py:353-369) -/

/-- A JSON value.  `atom` stands for numbers, booleans and null. -/
inductive V
  | str (t : Text)
  | atom (n : Nat)
  | arr (l : List V)
  | obj (l : List (Text × V))

/-- `masked_outputs[key] == "[secret]"`. -/
def isSentinel : V → Bool
  | .str t => t = "[secret]".toList
  | _ => false

/-- `d[key]`. -/
def getKey (l : List (Text × V)) (k : Text) : Option V :=
  match l with
  | [] => none
  | (k', v) :: r => if k' = k then some v else getKey r k

/-- The loop of 365-369 over the keys of the plain outputs; `none` is the
`KeyError`. -/
def stackOutputs (masked : List (Text × V)) : List (Text × V) → Option (List (Text × V × Bool))
  | [] => some []
  | (k, v) :: r =>
    match getKey masked k, stackOutputs masked r with
    | some m, some rest => some ((k, v, isSentinel m) :: rest)
    | _, _ => none

/-! ## Importing a deployment (_local_workspace.py:344-351) -/

/-- The files there are after `import_stack` with a temporary file: it is removed
after the command, unless the command raises. -/
def importStack (files : List Text) (tmp : Text) (commandFails : Bool) : List Text :=
  if commandFails then tmp :: files else (tmp :: files).erase tmp

end Pulumi.Run
