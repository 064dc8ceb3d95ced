import Verif.DepGraph.Model
import Verif.Snapshot.IntegritySpec
/-!
# Who depends on whom
-/
namespace Pulumi.DepGraph
open Pulumi.Snapshot (State Provider Ref Env Intact)

/-- The resource names the URN among its dependencies or as its provider. -/
def Names (s : State) (urn : String) : Prop := urn ∈ s.deps ∨ ∃ r, s.provider = .ref r ∧ r.urn = urn

/-- The resource at `a` names the one at `b`. -/
def Refers (rs : List State) (a b : Nat) : Prop := ∃ s t, rs[a]? = some s ∧ rs[b]? = some t ∧ Names s t.urn

/-- The resource at `a` is a child of the one at `b`. -/
def ChildOf (rs : List State) (a b : Nat) : Prop := ∃ s t, rs[a]? = some s ∧ rs[b]? = some t ∧ s.parent = t.urn ∧ t.urn ≠ ""

/-- The resource at `a` depends on the one at `b`, directly or through others. -/
inductive DependsOn (rs : List State) : Nat → Nat → Prop where
  | direct {a b} : Refers rs a b → DependsOn rs a b
  | through {a b c} : Refers rs a b → DependsOn rs b c → DependsOn rs a c

/-- Every provider that is named is named by a well-formed reference. -/
def Parsed (rs : List State) : Prop := ∀ s ∈ rs, ∀ m, s.provider ≠ .malformed m

/-- No URN is listed twice. -/
def Once (rs : List State) : Prop := (rs.map (·.urn)).Nodup

/-- What a scan of the list after position `i` finds to depend on the resource there, when some URNs are ignored and the
children of that resource may count: a later resource that names it, or one found before. -/
inductive Later (rs : List State) (ignore : String → Bool) (children : Bool) (i : Nat) : Nat → Prop where
  | child {j s t} : i < j → rs[j]? = some s → rs[i]? = some t → ignore s.urn = false → children = true → s.parent = t.urn →
      Later rs ignore children i j
  | direct {j s} : i < j → rs[j]? = some s → ignore s.urn = false → Refers rs j i → Later rs ignore children i j
  | through {j k s} : Later rs ignore children i k → k < j → rs[j]? = some s → ignore s.urn = false → Refers rs j k →
      Later rs ignore children i j

/-- The resource at `b` is a descendant of the URN: its parent is, or has that URN. -/
inductive Descends (rs : List State) (urn : String) : Nat → Prop where
  | child {b s} : rs[b]? = some s → s.parent = urn → Descends rs urn b
  | through {b c} : ChildOf rs b c → Descends rs urn c → Descends rs urn b

/-- The resource at `a` cannot do without the one at `b`, which is listed before it: it names it, it is its child, or it
names a component the other belongs to. -/
def Needs (rs : List State) (a b : Nat) : Prop :=
  b < a ∧ (Refers rs a b ∨ (∃ s t, rs[a]? = some s ∧ rs[b]? = some t ∧ t.urn = s.parent) ∨
    ∃ c t, c < a ∧ Refers rs a c ∧ rs[c]? = some t ∧ t.custom = false ∧ t.urn ≠ "" ∧ Descends rs t.urn b)

/-- The resource is implicated in the deletion of the targets: it is one of them, or it is a child of one that is
implicated, or names one. -/
inductive Implicated (rs : List State) (targets : List String) : Nat → Prop where
  | target {j s} : rs[j]? = some s → s.urn ∈ targets → Implicated rs targets j
  | child {j k s t} : rs[j]? = some s → rs[k]? = some t → s.parent = t.urn → Implicated rs targets k → Implicated rs targets j
  | dependent {j k} : Refers rs j k → Implicated rs targets k → Implicated rs targets j

/-- No resource is waiting to be deleted, and every one has a URN. -/
structure Settled (rs : List State) : Prop where
  live : ∀ s ∈ rs, s.delete = false
  named : ∀ s ∈ rs, s.urn ≠ ""

/-- The program has neither registered nor read a resource under the URN, and none with the URN as an alias. -/
def Unclaimed (seen : Seen) (urn : String) : Prop :=
  urn ∉ seen.sames ++ seen.updates ++ seen.replaces ++ seen.reads ++ seen.aliased

/-- The deletion of a state that was superseded, unless it was done before the program ran; of one that the program has no
longer; or its removal, where its resource was deleted before. -/
def Dropped (seen : Seen) (rs : List State) : Deletion → Prop
  | .replaced i => ∃ s, rs[i]? = some s ∧ s.delete = true ∧ i ∉ seen.pendingDeletes
  | .gone i => ∃ s, rs[i]? = some s ∧ s.delete = false ∧ s.pendingReplacement = false ∧ Unclaimed seen s.urn
  | .removed i => ∃ s, rs[i]? = some s ∧ s.delete = false ∧ s.pendingReplacement = true ∧ Unclaimed seen s.urn

/-- The loss of the URNs in the set forces the replacement of the resource: its provider is among them, or its provider says
so when the inputs that depend on them are unknown. -/
def Forced (inputs : Nat → List String) (differ : Differ) (set : List String) (j : Nat) (s : State) : Prop :=
  s.custom = true ∧ s.external = false ∧
  ((∃ r, s.provider = .ref r ∧ r.urn ∈ set) ∨
   ∃ keys, keys = (inputs j).filter (fun k => s.propDeps.any (fun kv => decide (kv.1 = k ∧ ∃ d ∈ kv.2, d ∈ set))) ∧
     keys ≠ [] ∧ differ j keys = .ok true)

/-- What is left of the checkpoint without the resources deleted. -/
def without (rs : List State) (dels : List Deletion) : List State :=
  rs.filter (fun s => decide (s.urn ∉ dels.map (Deletion.urn rs)))

/-- The program asks for nothing, as when a stack is destroyed. -/
def nothingSeen : Seen := ⟨[], [], [], [], [], [], []⟩

/-- The provider of the resource at `a` is the resource at `p`. -/
def ProviderOf (rs : List State) (a p : Nat) : Prop :=
  ∃ s t r, rs[a]? = some s ∧ rs[p]? = some t ∧ s.provider = .ref r ∧ r.urn = t.urn

/-- The resource at `a` stands on the one at `b`: following dependencies and parents, but not providers, one comes from one
to the other. -/
inductive StandsOn (rs : List State) : Nat → Nat → Prop where
  | refl {a s} : rs[a]? = some s → StandsOn rs a a
  | step {a b c s t} : rs[a]? = some s → rs[b]? = some t → t.urn ∈ s.deps ∨ t.urn = s.parent → StandsOn rs b c →
      StandsOn rs a c

/-- The resource at `a` requires the one at `b`: following dependencies, parents and providers, one comes from one to the
other. -/
inductive Requires (rs : List State) : Nat → Nat → Prop where
  | refl {a s} : rs[a]? = some s → Requires rs a a
  | step {a b c s t} : rs[a]? = some s → rs[b]? = some t → Names s t.urn ∨ t.urn = s.parent → Requires rs b c →
      Requires rs a c

/-- The provider of whatever a provider of the resource stands on is also the provider of something the resource itself
stands on: there are no chains of providers. -/
def NoProviderChain (rs : List State) (i : Nat) : Prop :=
  ∀ a p b q, StandsOn rs i a → ProviderOf rs a p → StandsOn rs p b → ProviderOf rs b q →
    ∃ a', StandsOn rs i a' ∧ ProviderOf rs a' q

/-- What must be kept for the sake of the protected resources: they, and what they require. -/
def Kept (rs : List State) (k : Nat) : Prop := ∃ i s, rs[i]? = some s ∧ s.protect = true ∧ Requires rs i k

/-- An order in which Go may walk the map from URNs to resources: every URN once. -/
def WalksAll (rs : List State) (order : List String) : Prop := order.Nodup ∧ ∀ u, u ∈ order ↔ ∃ s ∈ rs, s.urn = u

/-- An order in which Go may walk the sets of steps it makes: any, for each of them. -/
def Reorders (order : List Nat → List Nat) : Prop := ∀ l, (order l).Perm l

/-- The batch a step is in. -/
def InBatch (out : List (List Nat)) (n a : Nat) : Prop := ∃ b, out[n]? = some b ∧ a ∈ b

end Pulumi.DepGraph
