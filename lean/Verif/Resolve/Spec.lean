import Verif.Resolve.Model
import Verif.Wire.Spec
/-! # Specification of output resolution -/
namespace Pulumi.Resolve
open Pulumi.Wire

/-- How often a future has been set. -/
def timesSet (s : Store) (t : Target) (f : Fld) : Nat := (s.filter fun e => e.1 = (t, f)).length

/-- The future has been set, once, to this. -/
def Holds (s : Store) (t : Target) (f : Fld) (v : FutVal) : Prop := ((t, f), v) ∈ s ∧ timesSet s t f = 1

/-- Awaiting the Output raises `e`: its value and both flags were set, once, to this exception. -/
def Raises (s : Store) (t : Target) (e : Exc) : Prop :=
  Holds s t .value (.failed e) ∧ Holds s t .known (.failed e) ∧ Holds s t .secret (.failed e)

/-- The Output was resolved, once, with this value and these flags. -/
def Resolved (s : Store) (t : Target) (v : RV) (known secret : Bool) : Prop :=
  Holds s t .value (.value v) ∧ Holds s t .known (.flag known) ∧ Holds s t .secret (.flag secret)

/-- `name` is an output property of the resource: one of the names given to the constructor, except `id` and `urn`. -/
def Declared (c : Ctx) (name : String) : Prop := name ∈ c.props ∧ name ≠ "id" ∧ name ≠ "urn"

/-- The engine's properties: the response read as an ordinary object. -/
def Engine (c : Ctx) (resp : Response) (kvs : List (String × PV)) : Prop :=
  deserializeProperties c.env false false resp.object = .ok (.dict kvs)

/-- The renaming of properties does not produce the key that marks special objects. -/
def NameSafe (f : String → String) : Prop := ∀ k, f k = sigKey → k = sigKey

/-- A value as deserialised, without its secret marker, and whether it had one. -/
inductive Marking : PV → PV → Bool → Prop
  | plain {v} : NoMarker v → Marking v v false
  | secret {x} : NoMarker x → Marking (.dict [(sigKey, .str secretSig), ("value", x)]) x true

/-! ## Output types -/

/-- A step into a translated value: an index, a key, or an attribute of an output type. -/
inductive RStep where
  | idx (i : Nat)
  | key (k : String)
  | attr (name : String)

/-- What a path leads to; `None` if there is nothing. -/
def RV.at (C : Classes) : RV → List RStep → RV
  | v, [] => v
  | .list xs, .idx i :: p => RV.at C ((xs[i]?).getD (.leaf .none)) p
  | .dict kvs, .key k :: p => RV.at C ((kvs.lookup k).getD (.leaf .none)) p
  | .obj cls fields, .attr n :: p => RV.at C (attr C cls fields n) p
  | _, _ :: _ => .leaf .none

/-- The class has distinct Python names and distinct, non-empty Pulumi names, and its `_translate_property` keeps its
properties apart. -/
def WellDefined (c : OClass) : Prop :=
  (c.props.map (·.pyName)).Nodup ∧ (c.props.map (·.pulumiName)).Nodup ∧ (∀ q ∈ c.props, q.pulumiName ≠ "") ∧
    ∀ f, c.translate = some f → (c.props.map fun q => f q.pulumiName).Nodup

/-- `Received C m tr t v p t' v' p'`: in a value `v` from the engine, declared with type `t`, the path `p` leads to `v'`,
of declared type `t'`, which the program finds at `p'`: elements at their index; entries of dicts without type
information under the transformed name; entries of a `Dict[str, T]` under their own name if type metadata is used (`m`),
else under the transformed name; properties of output types as attributes with their Python name. -/
inductive Received (C : Classes) (m : Bool) (tr : String → String) :
    OTy → PV → List Step → OTy → PV → List RStep → Prop
  | here (t v) : Received C m tr t v [] t v []
  | untypedElem {xs : List PV} {i x p t' v' p'} : xs[i]? = some x → Received C m tr .any x p t' v' p' →
      Received C m tr .any (.list xs) (.idx i :: p) t' v' (.idx i :: p')
  | elem {t} {xs : List PV} {i x p t' v' p'} : xs[i]? = some x → Received C m tr t x p t' v' p' →
      Received C m tr (.list t) (.list xs) (.idx i :: p) t' v' (.idx i :: p')
  | untyped {t} {kvs : List (String × PV)} {k x p t' v' p'} : (t = .any ∨ t = .bareDict) →
      (kvs.map fun kv => tr kv.1).Nodup → (k, x) ∈ kvs → Received C m tr .any x p t' v' p' →
      Received C m tr t (.dict kvs) (.key k :: p) t' v' (.key (tr k) :: p')
  | keptEntry {t} {kvs : List (String × PV)} {k x p t' v' p'} : m = true → (kvs.map (·.1)).Nodup → (k, x) ∈ kvs →
      Received C m tr t x p t' v' p' → Received C m tr (.dict t) (.dict kvs) (.key k :: p) t' v' (.key k :: p')
  | renamedEntry {t} {kvs : List (String × PV)} {k x p t' v' p'} : m = false → (kvs.map fun kv => tr kv.1).Nodup →
      (k, x) ∈ kvs → Received C m tr t x p t' v' p' →
      Received C m tr (.dict t) (.dict kvs) (.key k :: p) t' v' (.key (tr k) :: p')
  | property {cls} {kvs : List (String × PV)} {q : OProp} {x p t' v' p'} : WellDefined (C.output cls) →
      (kvs.map (·.1)).Nodup → q ∈ (C.output cls).props → (q.pulumiName, x) ∈ kvs → Received C m tr q.ty x p t' v' p' →
      Received C m tr (.output cls) (.dict kvs) (.key q.pulumiName :: p) t' v' (.attr q.pyName :: p')

end Pulumi.Resolve
