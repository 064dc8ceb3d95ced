import Verif.Wire.Model
import Verif.Deps.Spec
/-!
# Specification of the wire format
-/
namespace Pulumi.Wire

/-! ## Secrets and unknowns: what may differ -/

/-- Two values that are the same except below Outputs related by `Q`. -/
inductive Same (Q : PV → PV → Prop) : PV → PV → Prop
  | base {v w} : Q v w → Same Q v w
  | refl (v) : Same Q v v
  | list {xs ys} : xs.length = ys.length → (∀ p ∈ xs.zip ys, Same Q p.1 p.2) → Same Q (.list xs) (.list ys)
  | dict {xs ys : List (String × PV)} : xs.map (·.1) = ys.map (·.1) →
      (∀ p ∈ xs.zip ys, Same Q p.1.2 p.2.2) → Same Q (.dict xs) (.dict ys)
  | assetArchive {xs ys : List (String × PV)} : xs.map (·.1) = ys.map (·.1) →
      (∀ p ∈ xs.zip ys, Same Q p.1.2 p.2.2) → Same Q (.assetArchive xs) (.assetArchive ys)
  | awaitable {v w} : Same Q v w → Same Q (.awaitable v) (.awaitable w)
  | output {r k s v w} : Same Q v w → Same Q (.output r k s v) (.output r k s w)
  | inputObj {c} {xs ys : List (String × PV)} : xs.map (·.1) = ys.map (·.1) →
      (∀ p ∈ xs.zip ys, Same Q p.1.2 p.2.2) → Same Q (.inputObj c xs) (.inputObj c ys)

/-- The two values are the contents of secret Outputs and may be anything. -/
inductive SecretPair : PV → PV → Prop
  | mk (r r' : List ResId) (k : Bool) (v w : PV) : SecretPair (.output r k true v) (.output r' k true w)

/-- The two values are underlying values of Outputs that are not known. -/
inductive UnknownPair : PV → PV → Prop
  | mk (r r' : List ResId) (s : Bool) (v w : PV) : UnknownPair (.output r false s v) (.output r' false s w)

/-- A secret wrapper `{sig: secret, "value": x}`. -/
def IsSecretWrapper (v : PV) : Prop := ∃ x, v = .dict [(sigKey, .str secretSig), ("value", x)]

/-- An output value marked secret: `{sig: output value, ..., "secret": True, ...}`. -/
def IsSecretOutputValue (v : PV) : Prop :=
  ∃ kvs, v = .dict kvs ∧ kvs.lookup sigKey = some (.str outputSig) ∧ kvs.lookup "secret" = some (.bool true)

/-- Two serialised values that differ only in parts related by `B` and, if `A`, in the dependency lists of output
values. -/
inductive WireSame (B : PV → PV → Prop) (A : Prop) : PV → PV → Prop
  | base {v w} : B v w → WireSame B A v w
  | refl (v) : WireSame B A v v
  | list {xs ys} : xs.length = ys.length → (∀ p ∈ xs.zip ys, WireSame B A p.1 p.2) →
      WireSame B A (.list xs) (.list ys)
  | dict {xs ys : List (String × PV)} : xs.map (·.1) = ys.map (·.1) →
      (∀ p ∈ xs.zip ys, WireSame B A p.1.2 p.2.2) → WireSame B A (.dict xs) (.dict ys)
  | deps {xs ys d d' : List (String × PV)} : A → xs.lookup sigKey = some (.str outputSig) →
      xs.map (·.1) = ys.map (·.1) → (∀ p ∈ xs.zip ys, WireSame B A p.1.2 p.2.2) →
      (∀ p ∈ d ++ d', p.1 = "dependencies") → WireSame B A (.dict (xs ++ d)) (.dict (ys ++ d'))

/-- The parts that an observer who cannot see secrets cannot distinguish. -/
def BothSecret (v w : PV) : Prop :=
  (IsSecretWrapper v ∧ IsSecretWrapper w) ∨ (IsSecretOutputValue v ∧ IsSecretOutputValue w)

/-! ## Dependencies -/

/-- The unknown marker occurs in the value, in lists and dicts. -/
inductive ContainsUnknown : PV → Prop
  | here : ContainsUnknown .unknown
  | list {xs x} : x ∈ xs → ContainsUnknown x → ContainsUnknown (.list xs)
  | dict {kvs : List (String × PV)} {k x} : (k, x) ∈ kvs → ContainsUnknown x → ContainsUnknown (.dict kvs)

/-- `r` is a resource that the value mentions: it is among the resources of an Output in it, or of the `urn` or
`id` Output of a resource in it. The value of an Output that contains unknowns is not visible. When resource
references are not supported, only the `id` of a custom resource and the `urn` of another is used. -/
inductive Mentions (env : Env) : PV → ResId → Prop
  | list {xs x r} : x ∈ xs → Mentions env x r → Mentions env (.list xs) r
  | dict {kvs : List (String × PV)} {k x r} : (k, x) ∈ kvs → Mentions env x r → Mentions env (.dict kvs) r
  | assetArchive {kvs : List (String × PV)} {k x r} : (k, x) ∈ kvs → Mentions env x r →
      Mentions env (.assetArchive kvs) r
  | field {c} {kvs : List (String × PV)} {k x r} : (k, x) ∈ kvs → Mentions env x r →
      Mentions env (.inputObj c kvs) r
  | awaitable {v r} : Mentions env v r → Mentions env (.awaitable v) r
  | own {rs k s v r} : r ∈ rs → Mentions env (.output rs k s v) r
  | value {rs k s v r} : ¬ ContainsUnknown v → Mentions env v r → Mentions env (.output rs k s v) r
  | urn {n r} : r ∈ (env.res n).urn.resources → (env.resourceRefs = true ∨ (env.res n).custom = false) →
      Mentions env (.resource (.decl n)) r
  | id {n r} : r ∈ (env.res n).id.resources → (env.res n).custom = true → Mentions env (.resource (.decl n)) r

/-! ## Plain data -/

/-- A key that reaches the program: it does not start with two underscores, or is `__provider`. -/
def Visible (k : String) : Prop := ['_', '_'] <+: k.toList → k = "__provider"

/-- A key that deserialisation keeps. -/
def UserKey (k : String) : Prop := k ≠ sigKey ∧ Visible k

/-- Data made of `None`, booleans, numbers, strings other than the unknown marker, lists, and dicts with distinct
user keys. -/
inductive Plain : PV → Prop
  | none : Plain .none
  | bool (b) : Plain (.bool b)
  | num (n) : Plain (.num n)
  | str {s} : s ≠ UNKNOWN → Plain (.str s)
  | list {xs} : (∀ x ∈ xs, Plain x) → Plain (.list xs)
  | dict {kvs : List (String × PV)} : (kvs.map (·.1)).Nodup → (∀ kv ∈ kvs, UserKey kv.1) →
      (∀ kv ∈ kvs, Plain kv.2) → Plain (.dict kvs)

mutual
/-- The data without the `None`-valued entries of its dicts. -/
def dropNones : PV → PV
  | .list xs => .list (dropNonesList xs)
  | .dict kvs => .dict (dropNonesKvs kvs)
  | v => v
def dropNonesList : List PV → List PV
  | [] => []
  | x :: xs => dropNones x :: dropNonesList xs
def dropNonesKvs : List (String × PV) → List (String × PV)
  | [] => []
  | (k, x) :: kvs => if isNone x then dropNonesKvs kvs else (k, dropNones x) :: dropNonesKvs kvs
end

/-- No dict in the data has a `None`-valued entry. -/
inductive NoNoneEntry : PV → Prop
  | none : NoNoneEntry .none
  | bool (b) : NoNoneEntry (.bool b)
  | num (n) : NoNoneEntry (.num n)
  | str (s) : NoNoneEntry (.str s)
  | list {xs} : (∀ x ∈ xs, NoNoneEntry x) → NoNoneEntry (.list xs)
  | dict {kvs : List (String × PV)} : (∀ kv ∈ kvs, kv.2 ≠ .none) → (∀ kv ∈ kvs, NoNoneEntry kv.2) →
      NoNoneEntry (.dict kvs)

/-! ## Legal protocol values -/

/-- What the protocol accepts (assets, archives, secrets, references and output values being structs). -/
inductive Legal : PV → Prop
  | none : Legal .none
  | bool (b) : Legal (.bool b)
  | num (n) : Legal (.num n)
  | str (s) : Legal (.str s)
  | list {xs} : (∀ x ∈ xs, Legal x) → Legal (.list xs)
  | dict {kvs : List (String × PV)} : (∀ kv ∈ kvs, Legal kv.2) → Legal (.dict kvs)

/-! ## Assets and archives -/

/-- Assets, and archives nested to any depth whose entries have distinct user keys. -/
inductive IsAsset : PV → Prop
  | asset (k s) : IsAsset (.asset k s)
  | archive (k s) : IsAsset (.archive k s)
  | assetArchive {kvs : List (String × PV)} : (kvs.map (·.1)).Nodup → (∀ kv ∈ kvs, UserKey kv.1) →
      (∀ kv ∈ kvs, IsAsset kv.2) → IsAsset (.assetArchive kvs)

/-! ## Output values -/

/-- The URNs that a dependency on these resources, or on the resources of their URNs, stands for. -/
def UrnOf (env : Env) (rs : List ResId) (u : String) : Prop :=
  ∃ r, (r ∈ rs ∨ ∃ x ∈ rs, r ∈ (env.info x).urn.resources) ∧
    ∃ f, Deps.Frontier (env.treeOf r) f ∧ Deps.HasUrn f u

/-! ## Deserialised values -/

/-- No dict in the value, at any depth of lists and dicts, has the reserved signature key (Outputs, assets and
resources are opaque). -/
inductive NoMarker : PV → Prop
  | list {xs} : (∀ x ∈ xs, NoMarker x) → NoMarker (.list xs)
  | dict {kvs : List (String × PV)} : (∀ kv ∈ kvs, kv.1 ≠ sigKey) → (∀ kv ∈ kvs, NoMarker kv.2) → NoMarker (.dict kvs)
  | leaf {v} : (∀ xs, v ≠ .list xs) → (∀ kvs, v ≠ .dict kvs) → NoMarker v

/-- A deserialised secret. -/
def Secret (v : PV) : Prop := ∃ x, v = .dict [(sigKey, .str secretSig), ("value", x)] ∧ NoMarker x

/-- The wire value contains a secret wrapper that concerns the program: in lists, in the visible entries of ordinary
objects, and in the id of a reference to a resource that the program has no class for. -/
inductive HasSecret (env : Env) : W → Prop
  | wrapper {kvs} : kvs.lookup sigKey = some (.str secretSig) → HasSecret env (.struct kvs)
  | list {xs x} : x ∈ xs → HasSecret env x → HasSecret env (.list xs)
  | entry {kvs k x} : kvs.lookup sigKey = none → (k, x) ∈ kvs → Visible k → HasSecret env x →
      HasSecret env (.struct kvs)
  | reference {kvs u x} : kvs.lookup sigKey = some (.str resourceSig) → rebuild env kvs = .ok (u, none) →
      kvs.lookup "id" = some x → HasSecret env x → HasSecret env (.struct kvs)

mutual
/-- The wire value with the secret wrappers replaced by what they hold, in lists and in ordinary objects. Assets,
archives, references and output values are left alone. -/
def strip : W → W
  | .list xs => .list (stripList xs)
  | .struct kvs =>
    match kvs.lookup sigKey with
    | none => .struct (stripKvs kvs)
    | some (.str s) => if s = secretSig then ((stripKvs kvs).lookup "value").getD (.struct kvs) else .struct kvs
    | some _ => .struct kvs
  | w => w
def stripList : List W → List W
  | [] => []
  | x :: xs => strip x :: stripList xs
def stripKvs : List (String × W) → List (String × W)
  | [] => []
  | (k, x) :: kvs => (k, strip x) :: stripKvs kvs
end

/-- A step into a list or an object. -/
inductive Step where
  | idx (i : Nat)
  | key (k : String)
deriving DecidableEq

/-- The value at a path: `v[i]`, `v.get(k)`; `None` when there is nothing. -/
def PV.at : PV → List Step → PV
  | v, [] => v
  | .list xs, .idx i :: p => (xs[i]?.getD .none).at p
  | .dict kvs, .key k :: p => ((kvs.lookup k).getD .none).at p
  | _, _ :: _ => .none

/-- `WAt w p s w'`: the wire value `w` holds `w'` at path `p`, where secret wrappers do not count as steps; `s` says
whether there is a wrapper on the way. -/
inductive WAt : W → List Step → Bool → W → Prop
  | here (w) : WAt w [] false w
  | secret {kvs w p b w'} : kvs.lookup sigKey = some (.str secretSig) → kvs.lookup "value" = some w → WAt w p b w' →
      WAt (.struct kvs) p true w'
  | idx {xs : List W} {i w p b w'} : xs[i]? = some w → WAt w p b w' → WAt (.list xs) (.idx i :: p) b w'
  | key {kvs : List (String × W)} {k w p b w'} : (kvs.map (·.1)).Nodup → kvs.lookup sigKey = none → Visible k →
      kvs.lookup k = some w → WAt w p b w' → WAt (.struct kvs) (.key k :: p) b w'

/-- The values directly inside a value. -/
def children : PV → List PV
  | .list xs => xs
  | .dict kvs => kvs.map (·.2)
  | .assetArchive kvs => kvs.map (·.2)
  | .awaitable v => [v]
  | .output _ _ _ v => [v]
  | .inputObj _ kvs => kvs.map (·.2)
  | _ => []

/-- `P` holds of the value and of everything inside it. -/
inductive Everywhere (P : PV → Prop) : PV → Prop
  | mk {v} : P v → (∀ c ∈ children v, Everywhere P c) → Everywhere P v

/-- If it is a dict or an archive, all its keys are visible. -/
def VisibleKeys (v : PV) : Prop := ∀ kvs, (v = .dict kvs ∨ v = .assetArchive kvs) → ∀ kv ∈ kvs, Visible kv.1

/-! ## Names -/

/-- The properties of the class have distinct Python names and distinct, non-empty Pulumi names. -/
def WellNamed (env : Env) (cls : String) : Prop :=
  ((env.classes cls).map (·.pyName)).Nodup ∧ ((env.classes cls).map (·.pulumiName)).Nodup ∧
    ∀ q ∈ env.classes cls, q.pulumiName ≠ ""

/-- `Sent env t v p t' v' p'`: in a value `v` declared with type `t`, the Python path `p` leads to `v'`, whose declared
type is `t'`, and which is to be sent at path `p'`: elements of lists at their index; entries of dicts without type
information under the name given by the transformer; entries of a `Dict[str, T]` under their own name; properties of
input types under their Pulumi name, whether the value is a dict or an instance of the class. -/
inductive Sent (env : Env) : Ty → PV → List Step → Ty → PV → List Step → Prop
  | here (t v) : Sent env t v [] t v []
  | untypedElem {xs : List PV} {i x p t' v' p'} : xs[i]? = some x → Sent env .any x p t' v' p' →
      Sent env .any (.list xs) (.idx i :: p) t' v' (.idx i :: p')
  | elem {t} {xs : List PV} {i x p t' v' p'} : xs[i]? = some x → Sent env t x p t' v' p' →
      Sent env (.list t) (.list xs) (.idx i :: p) t' v' (.idx i :: p')
  | untyped {t} {kvs : List (String × PV)} {k x p t' v' p'} : (t = .any ∨ t = .bareDict) →
      (kvs.map fun kv => env.translate kv.1).Nodup → (k, x) ∈ kvs → Sent env .any x p t' v' p' →
      Sent env t (.dict kvs) (.key k :: p) t' v' (.key (env.translate k) :: p')
  | entry {t} {kvs : List (String × PV)} {k x p t' v' p'} : (kvs.map (·.1)).Nodup → (k, x) ∈ kvs →
      Sent env t x p t' v' p' → Sent env (.dict t) (.dict kvs) (.key k :: p) t' v' (.key k :: p')
  | property {cls} {kvs : List (String × PV)} {q : PropInfo} {x p t' v' p'} : WellNamed env cls →
      (kvs.map (·.1)).Nodup → (∀ kv ∈ kvs, ∃ q ∈ env.classes cls, q.pyName = kv.1) → q ∈ env.classes cls →
      (q.pyName, x) ∈ kvs → Sent env q.ty x p t' v' p' →
      Sent env (.input cls) (.dict kvs) (.key q.pyName :: p) t' v' (.key q.pulumiName :: p')
  | field {t cls} {fields : List (String × PV)} {q : PropInfo} {x p t' v' p'} : WellNamed env cls →
      (fields.map (·.1)).Nodup → q ∈ env.classes cls → (q.pulumiName, x) ∈ fields → Sent env q.ty x p t' v' p' →
      Sent env t (.inputObj cls fields) (.key q.pyName :: p) t' v' (.key q.pulumiName :: p')

end Pulumi.Wire
