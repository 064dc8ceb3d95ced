import Verif.Json.Model

/-!
# The stack trace of a failed program

`_get_user_stacktrace` of `/repo/sdk/python/cmd/pulumi-language-python-exec:29-51`, and the functions of `os.path` that it
uses (`posixpath`, `genericpath`). A trace is the list of the files of its frames, the outermost first. Left out: the text of
the trace, and the traces of the causes of an exception, which Python cuts in the same way.
-/

namespace Pulumi.Exec

open Json (Text)

/-! ## `os.path` -/

/-- What is up to the last `/`, with it. -/
def dirPart (p : Text) : Text := (p.reverse.dropWhile (· ≠ '/')).reverse

/-- What is after the last `/`. -/
def basePart (p : Text) : Text := (p.reverse.takeWhile (· ≠ '/')).reverse

/-- `genericpath._splitext` for what is after the last `/`: the extension begins at the last dot, dots at the beginning do not
count. -/
def splitBase (b : Text) : Text × Text :=
  let lead := b.takeWhile (· = '.')
  let rest := b.dropWhile (· = '.')
  match rest.reverse.dropWhile (· ≠ '.') with
  | [] => (b, [])
  | _ :: u => (lead ++ u.reverse, '.' :: (rest.reverse.takeWhile (· ≠ '.')).reverse)

/-- `os.path.splitext` -/
def splitext (p : Text) : Text × Text := (dirPart p ++ (splitBase (basePart p)).1, (splitBase (basePart p)).2)

/-- `os.path.join` of two -/
def join (a b : Text) : Text :=
  if b.head? = some '/' then b else if a = [] ∨ a.getLast? = some '/' then a ++ b else a ++ '/' :: b

/-- `path.split('/')` -/
def split : Text → List Text
  | [] => [[]]
  | c :: s =>
    match split s with
    | [] => [[]]
    | w :: ws => if c = '/' then [] :: w :: ws else (c :: w) :: ws

/-- The slashes that `normpath` keeps at the beginning: one, or exactly two. -/
def slashes : Text → Nat
  | '/' :: '/' :: '/' :: _ => 1
  | '/' :: '/' :: _ => 2
  | '/' :: _ => 1
  | _ => 0

/-- One turn of the loop of `normpath`; the components are in reverse. -/
def normStep (n : Nat) (acc : List Text) (c : Text) : List Text :=
  if c = [] ∨ c = ['.'] then acc
  else if c ≠ ['.', '.'] ∨ (n = 0 ∧ acc = []) ∨ acc.head? = some ['.', '.'] then c :: acc
  else acc.tail

def normComps (n : Nat) (cs : List Text) : List Text := (cs.foldl (normStep n) []).reverse

/-- `'/'.join(comps)` -/
def joinSlash : List Text → Text
  | [] => []
  | [c] => c
  | c :: cs => c ++ '/' :: joinSlash cs

/-- `os.path.normpath` -/
def normpath (p : Text) : Text :=
  let t := List.replicate (slashes p) '/' ++ joinSlash (normComps (slashes p) (split p))
  if t = [] then ['.'] else t

/-- `os.path.abspath` in a directory -/
def abspath (cwd p : Text) : Text := normpath (if p.head? = some '/' then p else join cwd p)

/-! ## The executor -/

/-- `get_abs_module_path` (31-35) -/
def absModulePath (cwd p : Text) : Text :=
  abspath cwd (if (splitext p).2 = [] then join (splitext p).1 "__main__".toList else (splitext p).1)

/-- `traceback.format_exc(limit=-n)`: the last `n` frames -/
def lastFrames (n : Nat) (tb : List Text) : List Text := tb.drop (tb.length - n)

/-- `_get_user_stacktrace` (29-51) -/
def userTrace (cwd userProgram : Text) (tb : List Text) : List Text :=
  match tb.findIdx? fun f => absModulePath cwd userProgram = absModulePath cwd f with
  | some i => lastFrames (tb.length - i) tb
  | none => tb

/-- The trace in the message for a program that failed (executor:144-153): the program's path is made absolute first. -/
def shownTrace (cwd program : Text) (tb : List Text) : List Text := userTrace cwd (abspath cwd program) tb

/-- The file that `runpy.run_path` runs for a directory: the import system makes its path absolute and appends
`__main__.py`. -/
def mainFile (cwd program : Text) : Text := join (if program.head? = some '/' then program else join cwd program) "__main__.py".toList

end Pulumi.Exec
