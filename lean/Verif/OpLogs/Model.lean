/-!
# Logs of the resources of a stack, put together

`pkg/operations/resources.go`: `GetLogs` (133-222), where the resource does not provide its own logs: those of its children are gathered as they
come (165-195), sorted (197) and freed of duplicates (198-221). Paths are relative to `/repo/`.
-/
namespace Pulumi.OpLogs

/-- `LogEntry` (`pkg/operations/operations.go:22-27`): the resource it is of, a time in milliseconds and a message -/
structure Entry where
  id : String
  ts : Int
  msg : String
  deriving DecidableEq, Repr

/-- What asking a child gives: logs, unless nil, and an error, unless nil -/
structure Answer where
  logs : Option (List Entry)
  err : Option String
  deriving DecidableEq, Repr

/-- Insertion into a sorted list, before what is not earlier -/
def insert (e : Entry) : List Entry → List Entry
  | [] => [e]
  | x :: xs => if e.ts ≤ x.ts then e :: x :: xs else x :: insert e xs

/-- `sort.SliceStable` by time (197). Any stable sort gives this list. -/
def sort : List Entry → List Entry
  | [] => []
  | e :: es => insert e (sort es)

/-- The loop that removes duplicates (198-220): `last` are the messages kept with the time `lastTs` -/
def dedup (lastTs : Int) (last : List String) : List Entry → List Entry
  | [] => []
  | e :: es =>
    if e.ts = lastTs ∧ e.msg ∈ last then dedup lastTs last es
    else e :: dedup e.ts ((if e.ts = lastTs then last else []) ++ [e.msg]) es

/-- `GetLogs` from the answers of the children on (181-221), in the order in which they come: the logs and the errors. Each child sends its logs and
then its error, and the logs of the next are taken after that, so that the two belong together. -/
def gather (answers : List Answer) : List Entry × List String :=
  let logs := answers.flatMap (fun a => a.logs.getD [])
  let errs := answers.filterMap (·.err)
  if errs = [] then (dedup 0 [] (sort logs), []) else (logs, errs)

end Pulumi.OpLogs
