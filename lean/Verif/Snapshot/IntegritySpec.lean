import Verif.Snapshot.Spec
/-!
# What it means for a checkpoint to be intact
-/
namespace Pulumi.Snapshot

/-- The resource is the provider the reference names. -/
def Provides (E : Env) (x : State) (r : Ref) : Prop := E.isProviderType x.type = true ∧ x.urn = r.urn ∧ x.id = r.id

/-- Everything the resource refers to is listed before it. A provider may refer to itself. -/
structure Backed (E : Env) (before : List State) (s : State) : Prop where
  referenceable : E.isProviderType s.type = true → E.validProviderUrn s.urn = true
  provider : s.provider = .none ∨ ∃ r, s.provider = .ref r ∧ ∃ x ∈ before ++ [s], Provides E x r
  parent : s.parent = "" ∨ ∃ x ∈ before, x.urn = s.parent
  deps : ∀ d ∈ s.deps, ∃ x ∈ before, x.urn = d
  unique : s.delete = true ∨ ∀ x ∈ before, x.urn ≠ s.urn

/-- A list of resources is intact if each of them is backed by those before it. -/
def Intact (E : Env) (rs : List State) : Prop := ∀ pre s post, rs = pre ++ s :: post → Backed E pre s

/-- Why a resource is not backed, given those before it and those after it. -/
def Why (E : Env) (before : List State) (s : State) (after : List State) : IntegrityErr → Prop
  | .notReferenceable => E.isProviderType s.type = true ∧ E.validProviderUrn s.urn = false
  | .badProviderReference => ∃ m, s.provider = .malformed m
  | .unknownProvider => ∃ r, s.provider = .ref r ∧ ∀ x ∈ before ++ [s], ¬ Provides E x r
  | .parentAfter => s.parent ≠ "" ∧ (∀ x ∈ before, x.urn ≠ s.parent) ∧ ∃ x ∈ after, x.urn = s.parent
  | .missingParent => s.parent ≠ "" ∧ (∀ x ∈ before, x.urn ≠ s.parent) ∧ ∀ x ∈ after, x.urn ≠ s.parent
  | .dependencyAfter => ∃ d ∈ s.deps, (∀ x ∈ before, x.urn ≠ d) ∧ ∃ x ∈ after, x.urn = d
  | .missingDependency => ∃ d ∈ s.deps, (∀ x ∈ before, x.urn ≠ d) ∧ ∀ x ∈ after, x.urn ≠ d
  | .duplicate => s.delete = false ∧ ∃ x ∈ before, x.urn = s.urn

/-! ## An orderly update -/

/-- A state of the base that has been neither superseded nor deleted. -/
def Remaining (s : Sys) (q : Ptr) : Prop := q ∈ s.mgr.base ∧ q ∉ s.mgr.dones

/-- What the new state refers to has been recorded before, and no state with its URN has. -/
def Placed (E : Env) (s : Sys) (new : Ptr) : Prop := Backed E (s.mgr.resources.map s.heap) (s.heap new)

/-- The new state takes the place of the old one: both are live, and of one URN and type. -/
structure Succeeds (s : Sys) (old new : Ptr) : Prop where
  urn : (s.heap new).urn = (s.heap old).urn
  type : (s.heap new).type = (s.heap old).type
  liveNew : (s.heap new).delete = false
  liveOld : (s.heap old).delete = false
  remaining : old ∉ s.mgr.dones

/-- Every state that remains with the new one's URN is to be deleted, but for `old`. -/
def OthersDeleted (s : Sys) (new : Ptr) (old : Option Ptr) : Prop :=
  ∀ q, Remaining s q → some q ≠ old → (s.heap q).urn = (s.heap new).urn → (s.heap q).delete = true

/-- No state that remains uses the old one as its provider. -/
def ProviderUnused (E : Env) (s : Sys) (old : Ptr) : Prop :=
  ∀ q, Remaining s q → q ≠ old → ∀ r, (s.heap q).provider = .ref r → ¬ Provides E (s.heap old) r

/-- A state that goes without a successor: no state that remains uses it as its provider, or refers to its URN unless
another live state has that URN. -/
structure MayGo (E : Env) (s : Sys) (old : Ptr) : Prop where
  unused : ProviderUnused E s old
  unreferenced : ∀ q, Remaining s q → q ≠ old →
    (s.heap q).parent = (s.heap old).urn ∨ (s.heap old).urn ∈ (s.heap q).deps →
    (∃ z ∈ s.mgr.resources, (s.heap z).urn = (s.heap old).urn) ∨
    (∃ z, Remaining s z ∧ z ≠ old ∧ (s.heap z).delete = false ∧ (s.heap z).urn = (s.heap old).urn)

/-- The end of a step keeps order: what it records is in its place, and what it drops may go. -/
def EndsOrderly (E : Env) (s : Sys) : Step → Bool → Prop
  | .same old new false, _ => Placed E s new ∧ Succeeds s old new
  | .update old new, true => Placed E s new ∧ Succeeds s old new
  | .create (some old) new _, true =>
    Placed E s new ∧
    if (s.heap old).pendingReplacement then
      OthersDeleted s new (some old) ∧ (s.heap new).urn = (s.heap old).urn ∧ ProviderUnused E s old
    else OthersDeleted s new none
  | .create none new _, true => Placed E s new ∧ OthersDeleted s new none
  | .delete old _, true => (s.heap old).pendingReplacement = true ∨ MayGo E s old
  | .read (some old) new _, true =>
    Placed E s new ∧ OthersDeleted s new (some old) ∧ (s.heap new).urn = (s.heap old).urn ∧ ProviderUnused E s old
  | .read none new _, true => Placed E s new ∧ OthersDeleted s new none
  | .import _ new, true => Placed E s new ∧ OthersDeleted s new none
  | .removePendingReplace old, _ => MayGo E s old
  | _, _ => True

/-- The base is rebuilt before anything has been recorded, as by a refresh: every state that stays is replaced by one that
differs from it only in what is not checked, and providers in use stay. -/
structure RebuildsOrderly (E : Env) (s : Sys) (f : List (Ptr × Option Ptr)) : Prop where
  first : s.mgr.resources = [] ∧ s.mgr.dones = []
  nodup : (s.mgr.base.filterMap (stepFor f)).Nodup
  same : ∀ q ∈ s.mgr.base, ∀ q', stepFor f q = some q' →
    (s.heap q').type = (s.heap q).type ∧ (s.heap q').urn = (s.heap q).urn ∧ (s.heap q').id = (s.heap q).id ∧
    (s.heap q').parent = (s.heap q).parent ∧ (s.heap q').deps = (s.heap q).deps ∧
    (s.heap q').provider = (s.heap q).provider ∧ (s.heap q').delete = (s.heap q).delete
  providers : ∀ q ∈ s.mgr.base, stepFor f q ≠ none → ∀ r, (s.heap q).provider = .ref r →
    ∀ y ∈ s.mgr.base, Provides E (s.heap y) r → stepFor f y ≠ none

/-- No resource has aliases: none of the base, none recorded, and none in the making. -/
def NoAliases (s : Sys) : Prop :=
  ∀ q ∈ s.mgr.base ++ s.mgr.resources ++ s.active.filterMap (fun a => newOf a.1), (s.heap q).aliases = []

/-- No resource has aliases, and every event keeps order. -/
def Orderly (E : Env) (s : Sys) (e : Event) : Prop :=
  NoAliases s ∧
  match e with
  | .finish i _ => ∀ st ok, s.active[i]? = some (st, .applied ok) → EndsOrderly E s st ok
  | .rebuild f => RebuildsOrderly E s f
  | _ => True

end Pulumi.Snapshot
