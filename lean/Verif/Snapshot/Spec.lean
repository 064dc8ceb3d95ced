import Verif.Snapshot.Model
/-!
# What the checkpoint is for

The specification: when a checkpoint accounts for a physical resource, and what the engine is assumed to do and not to do.
-/
namespace Pulumi.Snapshot

/-- The checkpoint accounts for the physical resource: it lists a resource the stack owns with its ID, or a create for its
URN that may or may not have happened. -/
def Accounts (d : Snap) (p : Phys) : Prop :=
  (∃ r ∈ d.resources, r.external = false ∧ r.id = p.id) ∨ (∃ o ∈ d.ops, o.2 = .creating ∧ o.1.urn = p.urn)

/-- The state a step makes, if it makes one. -/
def newOf : Step → Option Ptr
  | .same _ new _ => some new
  | .create _ new _ => some new
  | .update _ new => some new
  | .read _ new _ => some new
  | .import _ new => some new
  | _ => none

/-- A state nothing refers to yet. -/
structure Fresh (s : Sys) (p : Ptr) : Prop where
  base : p ∉ s.mgr.base
  resources : p ∉ s.mgr.resources
  operations : p ∉ s.mgr.operations.map (·.1)
  complete : p ∉ s.mgr.completeOps
  active : p ∉ s.active.filterMap (fun a => newOf a.1)

/-- The steps the engine makes: the new state has just been allocated, the old one is in the base, and the assertions of
the steps' constructors (step.go:72-111, 163-203, 416-431, 572-611, backend/snapshot.go:177-179) hold. -/
def GoodStep (s : Sys) : Step → Prop
  | .same old new true => Fresh s new ∧ old ∉ s.mgr.base
  | .same old new false => Fresh s new ∧ old ∈ s.mgr.base ∧ (s.heap old).external = (s.heap new).external
  | .create _ new _ => Fresh s new ∧ (s.heap new).external = false
  | .update old new =>
    Fresh s new ∧ old ∈ s.mgr.base ∧ (s.heap old).external = false ∧ (s.heap new).external = false
  | .delete old _ => old ∈ s.mgr.base
  | .read _ new _ => Fresh s new
  | .import _ new => Fresh s new
  | _ => True

/-- The events of the engine as it is: its steps are good ones, and the states a rebuilt base refers to are not those of
pending operations. -/
def Engine (s : Sys) : Event → Prop
  | .begin st _ => GoodStep s st
  | .rebuild f => ∀ q ∈ s.mgr.base, ∀ q', stepFor f q = some q' → q' ∉ s.mgr.operations.map (·.1)
  | _ => True

/-- No resource is read in the place of one the stack owns (`ResourceOptions.id` given to what was a managed resource). -/
def NoReadReplacement (_ : Sys) : Event → Prop
  | .begin (.read _ _ replacing) _ => replacing = false
  | _ => True

/-- No create fails with an unknown status after it happened. -/
def NoUnknownCreate (_ : Sys) : Event → Prop
  | .act _ (.createdUnknown _) => False
  | _ => True

/-- A state that is dropped for being flagged as pending replacement is one whose physical resource has been deleted. -/
def DropsDeleted (s : Sys) (st : Step) (ok : Bool) : Prop :=
  match st with
  | .create (some old) _ _ => ok = true → (s.heap old).pendingReplacement = true → old ∈ s.gone
  | .removePendingReplace old => old ∈ s.gone
  | _ => True

def DropsOnlyDeleted (s : Sys) : Event → Prop
  | .finish i _ => ∀ st ok, s.active[i]? = some (st, .applied ok) → DropsDeleted s st ok
  | _ => True

/-- The base is rebuilt when no step is in progress, and keeps, under its own or a newly allocated pointer, every state
whose physical resource exists. -/
structure Keeps (s : Sys) (f : List (Ptr × Option Ptr)) : Prop where
  quiet : s.active = []
  kept : ∀ q ∈ s.mgr.base, q ∉ s.mgr.dones → q ∉ s.gone → (s.heap q).external = false →
    (∃ p ∈ s.world, p.id = (s.heap q).id) →
    ∃ q', stepFor f q = some q' ∧ (s.heap q').id = (s.heap q).id ∧ (s.heap q').external = false ∧ q' ∉ s.mgr.dones ∧
      q' ∉ s.gone

def KeepsExisting (s : Sys) : Event → Prop
  | .rebuild f => Keeps s f
  | _ => True

/-- The next update begins: it loads the checkpoint, whatever became of the one before. A state of the base counts as gone
only if there is no physical resource with its ID. -/
structure Reloads (s t : Sys) : Prop where
  disk : t.disk = s.disk
  world : t.world = s.world
  quiet : t.active = []
  mgr : t.mgr = newManager t.mgr.base t.mgr.baseOps
  loaded : t.disk = ⟨t.mgr.base.map t.heap, t.mgr.baseOps.map (fun o => (t.heap o.1, o.2))⟩
  gone : ∀ q ∈ t.gone, ∀ p ∈ t.world, p.id ≠ (t.heap q).id

/-- The states a stack can get into, from when it is new, by any number of updates of any number of events that `A` allows.
Each update may end, or crash, after any event. The cells of the heap that are not in use hold what the engine will put
into them when it allocates them. -/
inductive Reach (E : Env) (A : Sys → Event → Prop) : Sys → Prop
  | new (h : Heap) : Reach E A ⟨h, newManager [] [], ⟨[], []⟩, [], [], []⟩
  | event {s s' : Sys} {e : Event} : Reach E A s → A s e → next E s e = some s' → Reach E A s'
  | again {s t : Sys} : Reach E A s → Reloads s t → Reach E A t

/-- Anything at all that happens to a stack, in any number of updates. -/
inductive Later (E : Env) (s : Sys) : Sys → Prop
  | refl : Later E s s
  | event {t t' : Sys} (e : Event) : Later E s t → next E t e = some t' → Later E s t'
  | again {t t' : Sys} : Later E s t → Reloads t t' → Later E s t'

/-- All that is assumed. -/
def Careful (s : Sys) (e : Event) : Prop :=
  Engine s e ∧ NoReadReplacement s e ∧ NoUnknownCreate s e ∧ DropsOnlyDeleted s e ∧ KeepsExisting s e

end Pulumi.Snapshot
