import Verif.Run.Model
import Verif.Cli.Spec

/-! # What running a command promises -/

namespace Pulumi.Run

open Pulumi.Cli (Text Arg lit decimal Parsed)

/-! ## Text -/

/-- A piece of a text. -/
def Has (t s : Text) : Prop := ∃ pre post, s = pre ++ t ++ post

/-- On one line of the text, `a` and then `b`. -/
def Says (a b s : Text) : Prop :=
  ∃ pre mid post, s = pre ++ a ++ mid ++ b ++ post ∧ '\n' ∉ mid

/-- `a`, and then at least one more character on the line. -/
def Goes (a s : Text) : Prop := ∃ pre c post, s = pre ++ a ++ c :: post ∧ c ≠ '\n'

/-- A text of these lines, each with its newline. -/
def textOfLines (ls : List Text) : Text := ls.flatMap fun l => l ++ ['\n']

/-- `u` is `t` without the white space at its end. -/
def Stripped (space : Char → Bool) (t u : Text) : Prop :=
  (∃ e, t = u ++ e ∧ ∀ c ∈ e, space c = true) ∧ ∀ c, u.getLast? = some c → space c = false

/-! ## Errors -/

/-- What the CLI says on its standard error. -/
def SaysNotFound (r : Result) : Prop := Says "no stack named".toList "found".toList r.stderr
def SaysExists (r : Result) : Prop := Says "stack".toList "already exists".toList r.stderr
def SaysConflict (r : Result) : Prop :=
  Has "[409] Conflict: Another update is currently in progress.".toList r.stderr

/-- What it says in its output. -/
def SaysCompilation (r : Result) : Prop :=
  Goes "Build FAILED".toList r.stdout ∨ Has "Unable to compile TypeScript".toList r.stdout
  ∨ Has ": syntax error:".toList r.stdout ∨ Has ": undefined:".toList r.stdout
def SaysInline (r : Result) : Prop := Has "python inline source runtime error".toList r.stdout
def SaysRuntime (r : Result) : Prop :=
  Has "failed with an unhandled exception".toList r.stdout
  ∨ Has "panic: runtime error".toList r.stdout ∨ Has "an unhandled error occurred:".toList r.stdout

/-- The class of a failure: the first of these that applies. -/
inductive Names : Result → ErrorClass → Prop
  | notFound (r : Result) : SaysNotFound r → Names r .stackNotFound
  | exists_ (r : Result) : ¬ SaysNotFound r → SaysExists r → Names r .stackAlreadyExists
  | conflict (r : Result) : ¬ SaysNotFound r → ¬ SaysExists r → SaysConflict r →
      Names r .concurrentUpdate
  | compilation (r : Result) : ¬ SaysNotFound r → ¬ SaysExists r → ¬ SaysConflict r →
      SaysCompilation r → Names r .compilation
  | inline (r : Result) : ¬ SaysNotFound r → ¬ SaysExists r → ¬ SaysConflict r →
      ¬ SaysCompilation r → SaysInline r → Names r .inlineSourceRuntime
  | runtime (r : Result) : ¬ SaysNotFound r → ¬ SaysExists r → ¬ SaysConflict r →
      ¬ SaysCompilation r → ¬ SaysInline r → SaysRuntime r → Names r .runtime
  | other (r : Result) : ¬ SaysNotFound r → ¬ SaysExists r → ¬ SaysConflict r →
      ¬ SaysCompilation r → ¬ SaysInline r → ¬ SaysRuntime r → Names r .command

/-! ## A backend with stacks -/

/-- The stacks there are, and the selected one. -/
structure Stacks where
  names : List Text
  current : Option Text

/-- `pulumi stack init` and `pulumi stack select`, with their messages
(pkg/backend/backend.go and pkg/cmd/pulumi/stack_select.go). -/
def stacksCli : Backend Stacks
  | s, .create n =>
    if n ∈ s.names then
      (s, ⟨[], "error: stack '".toList ++ n ++ "' already exists\n".toList, 255⟩)
    else (⟨n :: s.names, some n⟩, ⟨"Created stack '".toList ++ n ++ "'\n".toList, [], 0⟩)
  | s, .select n =>
    if n ∈ s.names then (⟨s.names, some n⟩, ⟨[], [], 0⟩)
    else (s, ⟨[], "error: no stack named '".toList ++ n ++ "' found\n".toList, 255⟩)

/-- A name that a stack can have: no spaces and no newlines. -/
def ValidName (n : Text) : Prop := ∀ c ∈ n, c ≠ ' ' ∧ c ≠ '\n'

/-! ## Versions -/

/-- A version of the CLI that this SDK works with: 3.1.0 or later, before 4.0.0; the
pre-releases of 3.1.0 come before it. -/
def Supported (v : Registry.Version) : Prop :=
  v.major = 3 ∧ (1 < v.minor ∨ v.minor = 1 ∧ (0 < v.patch ∨ v.pre = []))

/-! ## History -/

/-- The flags of `pulumi stack history` (stack_history.go:76-88). -/
def historyKind : Text → Option Cli.Kind :=
  Cli.kindIn (Cli.globalSwitches ++ ["json", "show-secrets", "full-dates"])
    (Cli.globalValues ++ ["stack", "page-size", "page"])

/-- A number that the CLI reads from a flag, with its default. -/
def Number (p : Parsed) (name : String) (default n : Int) : Prop :=
  (p.values name.toList = [] ∧ n = default) ∨ p.values name.toList = [decimal n]

/-- The entries that `pulumi stack history` shows of a history, newest first: page
`k` of pages of `n` entries, by default the first page of ten
(stack_history.go:85-87, pkg/backend/filestate/state.go:442-453). -/
def Shows {α : Type} (p : Parsed) (full shown : List α) : Prop :=
  ∃ n k : Int, Number p "page-size" 10 n ∧ Number p "page" 1 k
    ∧ shown = if 0 < n then (full.drop ((max k 1 - 1) * n).toNat).take n.toNat else full

/-! ## Outputs -/

/-- An output of a stack, as the backend has it. -/
inductive S
  | str (t : Text)
  | atom (n : Nat)
  | arr (l : List S)
  | obj (l : List (Text × S))
  | secret (s : S)

mutual
/-- `massagePropertyValue` (pkg/backend/display/json.go:34-54). -/
def S.json (show_ : Bool) : S → V
  | .str t => .str t
  | .atom n => .atom n
  | .arr l => .arr (jsonList show_ l)
  | .obj l => .obj (jsonFields show_ l)
  | .secret s => if show_ then s.json show_ else .str "[secret]".toList
def jsonList (show_ : Bool) : List S → List V
  | [] => []
  | s :: r => s.json show_ :: jsonList show_ r
def jsonFields (show_ : Bool) : List (Text × S) → List (Text × V)
  | [] => []
  | (k, s) :: r => (k, s.json show_) :: jsonFields show_ r
end

/-- `pulumi stack output --json`, with or without `--show-secrets`. -/
def outputJson (show_ : Bool) (outs : List (Text × S)) : List (Text × V) :=
  outs.map fun ks => (ks.1, ks.2.json show_)

/-- There is a secret in the output. -/
inductive HasSecret : S → Prop
  | here (s : S) : HasSecret (.secret s)
  | arr (l : List S) (s : S) : s ∈ l → HasSecret s → HasSecret (.arr l)
  | obj (l : List (Text × S)) (k : Text) (s : S) : (k, s) ∈ l → HasSecret s → HasSecret (.obj l)

end Pulumi.Run
