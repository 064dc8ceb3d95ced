import Verif.Inline.Model
import Verif.Conf.Spec

/-!
# What users expect of inline programs
-/
namespace Pulumi.Inline
open Pulumi.Loop

/-- `Run` is over. -/
def Run.over (r : Run) : Prop := r.phase = .closed ∨ ∃ e, r.phase = .crashed e

/-- Histories of a process in which a program is only started when no other is running. -/
inductive Sequential : Proc → Prop
  | init : Sequential .init
  | start {p : Proc} : Sequential p → (∀ r ∈ p.runs, r.over) → Sequential { p with runs := p.runs ++ [⟨[], .user, .running⟩] }
  | step {p q : Proc} : Sequential p → Step p q → q.runs.length = p.runs.length → Sequential q

/-- What the run has done, a program can do in a process of its own (`Pulumi.Loop`): the same tasks, the same results of tasks as far as they were
there when the program ended, and the same end. -/
def Alone (r : Run) : Prop :=
  ∃ s : State, Loop.Steps true State.init s ∧ s.main = r.main ∧ s.tasks.length = r.tasks.length ∧
    (∀ (k : Nat) (t : Task), s.tasks[k]? = some t → ∃ t' : Task, r.tasks[k]? = some t' ∧ t'.kind = t.kind ∧ (∀ x, t.result = some x → t'.result = some x))

/-- Task `k` of the run is an RPC. -/
def Run.IsRpc (r : Run) (k : Nat) : Prop := ∃ t : Task, r.tasks[k]? = some t ∧ t.kind = .rpc

/-- The engine is told that the program failed. -/
def Response.Failure : Response → Prop
  | .response error => error ≠ ""
  | .failed => True

/-- What happens elsewhere after history `h`: other contexts set whole configurations, or single values of a configuration that `c` does not use, and tasks
start. -/
inductive Meanwhile (c : Nat) (h : Conf.History) : Conf.History → Prop
  | nothing : Meanwhile c h h
  | set {h' : Conf.History} {c' : Nat} {k : String} {v : Async.Val} : Meanwhile c h h' → Conf.uses h' c' ≠ Conf.uses h' c → Meanwhile c h (.set c' k v :: h')
  | setAll {h' : Conf.History} {c' : Nat} {m : Conf.Dict} {ss : Option (List String)} : Meanwhile c h h' → c' ≠ c → Meanwhile c h (.setAll c' m ss :: h')
  | fork {h' : Conf.History} {c1 c2 : Nat} : Meanwhile c h h' → c2 ≠ c → Meanwhile c h (.fork c1 c2 :: h')

end Pulumi.Inline
