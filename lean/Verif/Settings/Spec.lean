import Verif.Settings.Model
/-!
# Which context an operation concerns, and histories in which feature detection is meaningful
-/
namespace Pulumi.Settings

/-- The context whose variables an operation may change: the one it is executed in, or the one it creates. -/
def Op.context : Op → Nat
  | .settings c _ _ | .reset c _ _ | .mock c .. | .assign c _ _ | .setRoot c _ | .thread c | .ask c _ | .answer c .. => c
  | .fork _ c' => c'

/-- What a `Settings` made with arguments `a` should show. -/
def Args.shows (a : Args) (legacyEnv : Bool) : Field → Option Val
  | .project => some a.project
  | .stack => some a.stack
  | .parallel => some a.parallel
  | .dryRun => some a.dryRun
  | .legacyApply => some (if a.legacyApply = .none then .bool legacyEnv else a.legacyApply)
  | .organization => some a.organization
  | .monitor => some a.monitor
  | .engine => some a.engine
  | .features => none

/-- The contexts that have their own settings: a `Settings` was made in them or in a context they were copied from. -/
def stepOwn (own : Nat → Bool) : Op → Nat → Bool
  | .settings c .. | .reset c .. => upd own c true
  | .fork c c' => upd own c' (own c)
  | .thread c => upd own c false
  | _ => own

/-- See `stepOwn`. -/
def ownAfter (own : Nat → Bool) (ops : List Op) : Nat → Bool := ops.foldl stepOwn own

/-- Operations as a program run by the engine performs them: the monitor is an object or absent, features are asked for in contexts that
have settings, only requests made are answered, a context that waits for an answer does nothing else, settings are not assigned
piecemeal (mocks do that: `mock_keeps_answers`). -/
def Allowed (s : State) (own : Nat → Bool) : Op → Prop
  | .settings c a _ | .reset c a _ => (a.monitor = .none ∨ ∃ m, a.monitor = .obj m) ∧ ∀ f m, (c, f, m) ∉ s.pending
  | .mock .. => False
  | .assign _ f _ => f ≠ .monitor ∧ f ≠ .features
  | .setRoot .. => True
  | .fork _ c' => ∀ f m, (c', f, m) ∉ s.pending
  | .thread c => ∀ f m, (c, f, m) ∉ s.pending
  | .ask c _ => own c = true
  | .answer c f m _ => (c, f, m) ∈ s.pending

/-- Every operation of the history is allowed when it happens. -/
def Valid (s : State) (own : Nat → Bool) : List Op → Prop
  | [] => True
  | op :: ops => Allowed s own op ∧ Valid (step s op) (stepOwn own op) ops

/-- After the import only the importing context has settings. -/
def ownImported : Nat → Bool := fun c => c = 0

/-- The monitor `m` has said, in the history, whether it supports `f`. -/
def Said (ops : List Op) (m : Nat) (f : String) (b : Bool) : Prop :=
  ∃ c, .answer c f m (.has b) ∈ ops ∨ (.answer c f m .unimplemented ∈ ops ∧ b = false)

end Pulumi.Settings
