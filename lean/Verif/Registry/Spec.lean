import Verif.Registry.Model

/-!
# What the registries promise

The order of versions, the acceptable ones, and which registrations of a history are in force, each said without the
comparison functions, the table or the loops of the model.
-/
namespace Pulumi.Registry

/-- Identifier `a` is later than `b`. -/
def Ident.Later : Ident → Ident → Prop
  | .num a, .num b => b < a
  | .num _, .alpha _ => False
  | .alpha _, .num _ => True
  | .alpha a, .alpha b => b < a

/-- The tag `a` is later than the tag `b`: at the first difference, or because `a` goes on. -/
def TagLater (a b : List Ident) : Prop :=
  ∃ common, (∃ x more, a = common ++ x :: more ∧ b = common) ∨
    (∃ x xs y ys, a = common ++ x :: xs ∧ b = common ++ y :: ys ∧ x.Later y)

/-- Version `a` is newer than `b`, as semantic versioning has it. -/
def Newer (a b : Version) : Prop :=
  b.major < a.major ∨ a.major = b.major ∧
    (b.minor < a.minor ∨ a.minor = b.minor ∧
      (b.patch < a.patch ∨ a.patch = b.patch ∧
        (a.pre = [] ∧ b.pre ≠ [] ∨ a.pre ≠ [] ∧ b.pre ≠ [] ∧ TagLater a.pre b.pre)))

/-- A package of version `v` may serve a request for `want`; None stands for no particular version. -/
def Acceptable (want v : Option Version) : Prop :=
  ∀ w h, want = some w → v = some h → h.major = w.major ∧ w.minor ≤ h.minor ∧ w.patch ≤ h.patch

/-- Two registrations under one key that exclude each other. -/
def Clash (a b : Option Version) : Prop := a = none ∨ b = none ∨ a = b

/-- Registering calls made one after the other, the latest first. -/
abbrev History := List (String × Entry)

/-- Some call of the history registered `e` under `key` and was not rejected, which a call is exactly when it clashes with
one in force before it. -/
def InForce : History → String → Entry → Prop
  | [], _, _ => False
  | (key', e') :: before, key, e =>
    InForce before key e ∨ key' = key ∧ e' = e ∧ ∀ x, InForce before key x → ¬ Clash x.version e.version

/-- The table after the calls of a history; a call that raises leaves it as it was. -/
def after : History → Table
  | [] => []
  | (key, e) :: before =>
    match register (after before) key e with
    | .ok t => t
    | .error _ => after before

end Pulumi.Registry
