import Verif.Log.Model

/-!
# Specification: what a log message says
-/

namespace Pulumi.Log

/-- The message says what the call says: severity, text, stream (0 by default), ephemeral only if asked for, and the URN of
the resource, if one was given and its URN is known. -/
def Says (urns : List (Nat × Except Nat (Option String))) (c : Call) (m : Msg) : Prop :=
  m.severity = c.severity ∧ m.message = c.message ∧
  (m.streamId = match c.streamId with | some i => i | none => 0) ∧
  (m.ephemeral = true ↔ c.ephemeral = some true) ∧
  match c.resource with
  | none => m.urn = ""
  | some r => urns.lookup r = some (.ok (some m.urn)) ∨ urns.lookup r = some (.ok none) ∧ m.urn = ""

/-- The engine has got the call's message. -/
def State.Got (s : State) (k : Nat) : Prop := ∃ m, (k, m) ∈ s.sent

/-- The resource of the call has no URN because its registration failed. -/
def State.UrnFailed (s : State) (c : Call) : Prop := ∃ r e, c.resource = some r ∧ s.urns.lookup r = some (.error e)

end Pulumi.Log
