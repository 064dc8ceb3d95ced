/-!
# The registry of providers

Models `Registry` of `pkg/resource/deploy/providers/registry.go` (line numbers are of it): which plugin a provider reference stands for during a deployment.

Plugins that are loaded are numbered; what is known of one is the package and version it was loaded for, what it was configured with, and whether it was
closed. Simplifications: aliases are fixed, since they are registered (`RegisterAlias`, 283-287) before the provider they are for is checked; a call of a
plugin that fails, other than `CheckConfig`, ends the step and changes nothing; `builtins` (94-96) is a plugin as any other one; the calls are made one after
the other, see DESIGN.md. Registering no plugin at all under a reference (`Same` with an alias that is not there) and failed assertions are `none`.
-/
namespace Pulumi.Providers

/-- `Reference` (reference.go:75-78), of whatever URNs and IDs are -/
structure Ref (U I : Type) where
  urn : U
  id : I
deriving DecidableEq

/-- A plugin: the package and version for which it was loaded, what it was configured with -/
structure Plug (P V C : Type) where
  pkg : P
  version : V
  conf : Option C
deriving DecidableEq

/-- What provider types and inputs say: `GetProviderPackage` (reference.go:55-58), `GetProviderVersion` (59-75), and the ID that stands for one that is not
known (reference.go:33) -/
structure Sig (U I P V C : Type) where
  pkg : U → P
  version : C → V
  unknown : I
  /-- `aliases` (88): the URN that a provider had before -/
  alias : U → Option U

variable {U I P V C : Type} [DecidableEq U] [DecidableEq I]

structure Reg (U I P V C : Type) where
  plugs : Nat → Plug P V C
  closed : Nat → Bool
  next : Nat
  /-- `providers` (86) -/
  provs : Ref U I → Option Nat

/-- `setProvider` (174-185) -/
def Reg.set (S : Sig U I P V C) (s : Reg U I P V C) (u : U) (id : I) (n : Nat) : Reg U I P V C :=
  { s with provs := fun r => if r = ⟨u, id⟩ ∨ (r.id = id ∧ S.alias u = some r.urn) then some n else s.provs r }

/-- `loadProvider` (91-99) with a plugin that is found -/
def Reg.load (S : Sig U I P V C) (s : Reg U I P V C) (u : U) (c : C) (conf : Option C) : Reg U I P V C :=
  { s with plugs := fun n => if n = s.next then ⟨S.pkg u, S.version c, conf⟩ else s.plugs n, next := s.next + 1 }

def Reg.configure (s : Reg U I P V C) (n : Nat) (c : C) : Reg U I P V C :=
  { s with plugs := fun m => if m = n then { s.plugs n with conf := some c } else s.plugs m }

/-- `CloseProvider` -/
def Reg.close (s : Reg U I P V C) (n : Nat) : Reg U I P V C := { s with closed := fun m => if m = n then true else s.closed m }

/-- `NewRegistry` (104-160), for the old states of provider types (114-117): `none` is an error. -/
def newReg (S : Sig U I P V C) (noId : I) : List (U × I × C) → Reg U I P V C → Option (Reg U I P V C)
  | [], s => some s
  | (u, id, c) :: l, s =>
    if id = noId ∨ id = S.unknown then none
    else if (s.provs ⟨u, id⟩).isSome then none
    else
      let s' := s.load S u c (some c)
      newReg S noId l { s' with provs := fun r => if r = ⟨u, id⟩ then some s.next else s.provs r }

/-- The calls of a deployment -/
inductive Op (U I C : Type)
  /-- `Check` (242-280) with what `CheckConfig` accepts -/
  | check (u : U) (c : C)
  /-- `Check` with what it does not accept (263-268) -/
  | checkFails (u : U) (c : C)
  /-- `Diff` (291-338): whether the answer is that the provider is to be replaced -/
  | diff (u : U) (id : I) (replace : Bool)
  /-- `Same` (342-354) -/
  | same (u : U) (id : I)
  /-- `Create` (360-387) with the new ID -/
  | create (u : U) (c : C) (id : I)
  /-- `Update` (393-411) -/
  | update (u : U) (id : I) (c : C)
  /-- `Delete` (415-428) -/
  | delete (u : U) (id : I)

def Reg.apply (S : Sig U I P V C) (s : Reg U I P V C) : Op U I C → Option (Reg U I P V C)
  | .check u c => some ((s.load S u c none).set S u S.unknown s.next)
  | .checkFails u c => some ((s.load S u c none).close s.next)
  | .diff u id replace =>
    match s.provs ⟨u, S.unknown⟩ with
    | some n => some (if replace then s.close n else s)
    | none => if (s.provs ⟨u, id⟩).isSome then some s else none
  | .same u id =>
    match S.alias u with
    | none => some s
    | some a =>
      match s.provs ⟨a, id⟩ with
      | some n => some { s with provs := fun r => if r = ⟨u, id⟩ then some n else s.provs r }
      | none => none
  | .create u c id => (s.provs ⟨u, S.unknown⟩).map fun n => (s.configure n c).set S u id n
  | .update u id c => (s.provs ⟨u, S.unknown⟩).map fun n => (s.configure n c).set S u id n
  | .delete u id => (s.provs ⟨u, id⟩).map fun n => ({ s with provs := fun r => if r = ⟨u, id⟩ then none else s.provs r } : Reg U I P V C).close n

/-- `GetProvider` (163-171), with whether the plugin can still be used -/
def Reg.get (s : Reg U I P V C) (r : Ref U I) : Option (Plug P V C) :=
  match s.provs r with
  | some n => if s.closed n then none else some (s.plugs n)
  | none => none

/-! ## Specification

As if every reference had a plugin of its own. -/

abbrev Spec (U I P V C : Type) := Ref U I → Option (Plug P V C)

/-- How far a provider is in this deployment -/
inductive Phase
  /-- was not checked -/
  | old
  /-- was checked, and is neither created nor updated since -/
  | ready
  /-- is to be replaced, and was not checked again -/
  | replaced
  /-- was created or updated -/
  | done
deriving DecidableEq

structure View (U I P V C : Type) where
  get : Spec U I P V C
  phase : U → Phase

def View.put (S : Sig U I P V C) (v : View U I P V C) (u : U) (id : I) (p : Option (Plug P V C)) : Spec U I P V C :=
  fun r => if r = ⟨u, id⟩ ∨ (r.id = id ∧ S.alias u = some r.urn) then p else v.get r

def View.apply (S : Sig U I P V C) (v : View U I P V C) : Op U I C → View U I P V C
  | .check u c => ⟨fun r => if r = ⟨u, S.unknown⟩ then some ⟨S.pkg u, S.version c, none⟩ else v.get r, fun w => if w = u then .ready else v.phase w⟩
  | .checkFails _ _ => v
  | .diff u _ replace =>
    if replace ∧ v.phase u ≠ .old then ⟨fun r => if r = ⟨u, S.unknown⟩ then none else v.get r, fun w => if w = u then .replaced else v.phase w⟩ else v
  | .same u id =>
    match S.alias u with
    | none => v
    | some a => { v with get := fun r => if r = ⟨u, id⟩ then v.get ⟨a, id⟩ else v.get r }
  | .create u c id | .update u id c =>
    let p := (v.get ⟨u, S.unknown⟩).map fun p => { p with conf := some c }
    ⟨fun r => if r = ⟨u, S.unknown⟩ then p else v.put S u id p r, fun w => if w = u then .done else v.phase w⟩
  | .delete u id => { v with get := fun r => if r = ⟨u, id⟩ then none else v.get r }

/-- No other provider had this URN before. -/
def Sig.Own (S : Sig U I P V C) (u : U) : Prop := ∀ w, S.alias w ≠ some u

/-- What the engine calls, and when: `Create` and `Update` after `Check`; `Diff` after `Check`, or for what was not checked; only the plugin of a reference
that has it for itself is deleted. -/
def Allowed (S : Sig U I P V C) (s : Reg U I P V C) (v : View U I P V C) : Op U I C → Prop
  | .check u _ => S.Own u
  | .checkFails _ _ => True
  | .diff u id _ => S.Own u ∧ (v.phase u = .ready ∨ (v.phase u = .old ∧ v.get ⟨u, id⟩ ≠ none ∧ id ≠ S.unknown))
  | .same u id => id ≠ S.unknown ∧ ∀ a, S.alias u = some a → v.get ⟨a, id⟩ ≠ none
  | .create u _ id | .update u id _ => S.Own u ∧ v.phase u = .ready ∧ id ≠ S.unknown
  | .delete u id => id ≠ S.unknown ∧ v.get ⟨u, id⟩ ≠ none ∧ ∀ r, r ≠ ⟨u, id⟩ → s.provs r ≠ s.provs ⟨u, id⟩

/-- Calls one after the other -/
inductive Runs (S : Sig U I P V C) : Reg U I P V C → View U I P V C → Reg U I P V C → View U I P V C → Prop
  | refl (s v) : Runs S s v s v
  | step {s v s' v' s''} (op : Op U I C) : Runs S s v s' v' → Allowed S s' v' op → s'.apply S op = some s'' → Runs S s v s'' (v'.apply S op)

/-- What the old states say -/
def oldSpec (S : Sig U I P V C) : List (U × I × C) → Spec U I P V C
  | [], _ => none
  | (u, id, c) :: l, r => if r = ⟨u, id⟩ then some ⟨S.pkg u, S.version c, some c⟩ else oldSpec S l r

end Pulumi.Providers
