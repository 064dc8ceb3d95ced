import Verif.Dynamic.Pickle

/-!
# Specification of the pickling of dynamic providers
-/

namespace Pulumi.Dynamic.Pickle

/-- The same objects, except for the order in which the entries of the dicts were inserted, at any depth. -/
inductive SameData : Obj → Obj → Prop
  | int (n) : SameData (.int n) (.int n)
  | str (oid s) : SameData (.str oid s) (.str oid s)
  | list {oid xs ys} : xs.length = ys.length → (∀ p ∈ xs.zip ys, SameData p.1 p.2) → SameData (.list oid xs) (.list oid ys)
  | set {oid xs ys} : xs.length = ys.length → (∀ p ∈ xs.zip ys, SameData p.1 p.2) → SameData (.set oid xs) (.set oid ys)
  | dict {oid} {xs zs ys : List (Key × Obj)} : (xs.map (·.1)).Nodup → xs.map (·.1) = zs.map (·.1) →
      (∀ p ∈ xs.zip zs, SameData p.1.2 p.2.2) → zs.Perm ys → SameData (.dict oid xs) (.dict oid ys)

/-- The keys of every dict are of one type. -/
inductive Sortable : Obj → Prop
  | int (n) : Sortable (.int n)
  | str (oid s) : Sortable (.str oid s)
  | list {oid xs} : (∀ x ∈ xs, Sortable x) → Sortable (.list oid xs)
  | set {oid xs} : (∀ x ∈ xs, Sortable x) → Sortable (.set oid xs)
  | dict {oid} {kvs : List (Key × Obj)} : ((∀ kv ∈ kvs, ∃ s, kv.1 = .str s) ∨ ∀ kv ∈ kvs, ∃ n, kv.1 = .int n) →
      (∀ kv ∈ kvs, Sortable kv.2) → Sortable (.dict oid kvs)

/-- How many dicts are inside each other. -/
inductive NestedAtMost : Nat → Obj → Prop
  | int (k n) : NestedAtMost k (.int n)
  | str (k oid s) : NestedAtMost k (.str oid s)
  | list {k oid xs} : (∀ x ∈ xs, NestedAtMost k x) → NestedAtMost k (.list oid xs)
  | set {k oid xs} : (∀ x ∈ xs, NestedAtMost k x) → NestedAtMost k (.set oid xs)
  | dict {k oid} {kvs : List (Key × Obj)} : (∀ kv ∈ kvs, NestedAtMost k kv.2) → NestedAtMost (k + 1) (.dict oid kvs)

end Pulumi.Dynamic.Pickle
