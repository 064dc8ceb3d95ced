import Verif.Paths.Model
/-!
# What is said about paths
-/
namespace Pulumi.Paths
open Pulumi.Engine (EV)

/-- a key that survives being written down: a name is not empty and does not end with a backslash, an index fits 64 bits -/
def Printable : Key → Prop
  | .name k => k ≠ [] ∧ k.getLast? ≠ some '\\'
  | .idx i => -(2 ^ 63) ≤ i ∧ i < 2 ^ 63

/-- `p` is about `q` or about something `q` is inside of; `*` stands for any key -/
def Covers (p q : Path) : Prop :=
  p.length ≤ q.length ∧ ∀ i : Nat, i < p.length → p[i]? = some (Key.name ['*']) ∨ p[i]? = q[i]?

/-- there is nothing at `p` any more; null if it is in an array -/
def Gone (p : Path) (now : Option EV) : Prop := now = none ∨ (now = some .null ∧ ∃ i, p.getLast? = some (.idx i))

/-- neither is inside the other -/
def Apart (p q : Path) : Prop := ¬ p <+: q ∧ ¬ q <+: p

/-- The keys of every object are unique, as those of a Go map are -/
inductive Maps : EV → Prop
  | array (xs : List EV) : (∀ x ∈ xs, Maps x) → Maps (.array xs)
  | object (kvs : List (String × EV)) : (kvs.map Prod.fst).Nodup → (∀ kv ∈ kvs, Maps kv.2) → Maps (.object kvs)
  | other (v : EV) : (∀ xs, v ≠ .array xs) → (∀ kvs, v ≠ .object kvs) → Maps v

/-- `t` is a container that `k` can be assigned in -/
def Accepts (t : EV) : Key → Prop
  | .idx i => ∃ xs, t = .array xs ∧ 0 ≤ i ∧ i < xs.length
  | .name _ => ∃ kvs, t = .object kvs

end Pulumi.Paths

namespace Pulumi.Paths

/-- one of the `replaceOnChanges` paths covers what `s` says -/
def Asked (opts : List Text) (s : Text) : Prop :=
  ∃ o ∈ opts, ∃ p q : Path, parse o = .ok p ∧ parse s = .ok q ∧ Covers p q

/-- the update goes on to replace the resource (step_generator.go:750-751) -/
def Replaces (d : DiffResult) : Prop := d.changes = .some ∧ d.replace = true

/-- what a kind of change is apart from replacing or not -/
inductive Change where
  | added | deleted | updated
deriving DecidableEq

def Kind.change : Kind → Change
  | .add | .addReplace => .added
  | .delete | .deleteReplace => .deleted
  | .update | .updateReplace => .updated

/-- the texts that say what changed, in a diff with details -/
def details (d : DiffResult) : List (Text × PropertyDiff) := d.detailed.getD []

end Pulumi.Paths
