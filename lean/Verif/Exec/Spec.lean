import Verif.Exec.Model

/-!
# Starting a program: what is expected

None of this looks at how arguments are written or read.
-/

namespace Pulumi.Exec

open Json (Text intText)

/-- A text that does not begin with a dash. -/
def Plain (a : Text) : Prop := a.head? ≠ some '-'

instance (a : Text) : Decidable (Plain a) := inferInstanceAs (Decidable (_ ≠ _))

/-- All that a request names. -/
def Request.names (r : Request) : List Text :=
  [r.monitor, r.engine, r.project, r.stack, r.pwd, r.tracing, r.organization, r.program]

/-- A name that a request leaves empty is one that it does not give. -/
def given (v : Text) : Option Text := if v = [] then none else some v

/-- What a request asks for, with these arguments of the program. -/
def Request.asked (r : Request) (args : List Text) : Started where
  monitor := given r.monitor
  engine := given r.engine
  project := given r.project
  stack := given r.stack
  parallel := r.parallel
  dryRun := r.dryRun
  organization := given r.organization
  pwd := given r.pwd
  argv := (given r.program).getD ".".toList :: args

/-- `int` reads what the host writes for a number. -/
def ReadsInts (int : Text → Option Int) : Prop := ∀ n : Int, int (intText n) = some n

end Pulumi.Exec
