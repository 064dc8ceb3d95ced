import Verif.Engine.Model
import Verif.Wire.Spec
/-!
# Specification of what crosses the wire
-/
namespace Pulumi.Engine

open Wire (Env PV ResId Ty Mentions ContainsUnknown)

/-- The strings that mean "unknown" to the engine: they are reserved. -/
def reserved : List String :=
  ["1c4a061d-8072-4f0a-a4cb-0ff528b18fe7", "3eeb2bf0-c639-47a8-9e75-3b44932eb421", "04da6b54-80e4-46f7-96ec-b56ff0331ba9",
   "6a19a0b0-7e62-4c92-b797-7f8e31da9cc2", "030794c1-ac77-496b-92df-f27374a8bd58", "e48ece36-62e2-4504-bad9-02848725956a",
   "dd056dcd-154b-4c76-9bd3-c8f88648b5ff"]

/-- The key that marks assets, archives, secrets, references and output values. -/
def reservedKey : String := "4dabf18193072939515e22adb298388d"

/-- The URN `u` is one that a dependency on a resource mentioned in the value, or on a resource that such a resource's
URN depends on, stands for. -/
def DependsOn (env : Env) (v : PV) (u : String) : Prop :=
  ∃ r, (Mentions env v r ∨ ∃ x, Mentions env v x ∧ r ∈ (env.info x).urn.resources) ∧
    ∃ f, Deps.Frontier (env.treeOf r) f ∧ Deps.HasUrn f u

/-- Members of archives. -/
inductive IsMember : PV → Prop
  | asset (k s) : IsMember (.asset k s)
  | archive (k s) : IsMember (.archive k s)
  | assetArchive (kvs) : IsMember (.assetArchive kvs)

/-- Values that a program may pass where the type `t` is declared: no string is reserved, objects have distinct names
other than the reserved key, Outputs that are known hold no unknowns, resources have a URN, and an id that is either a
public string or not known. -/
inductive Sendable (env : Env) : Ty → PV → Prop
  | none {t} : Sendable env t .none
  | bool {t} (b) : Sendable env t (.bool b)
  | num {t} (n) : Sendable env t (.num n)
  | str {t s} : s ∉ reserved → Sendable env t (.str s)
  | unknown {t} : Sendable env t .unknown
  | untypedList {xs} : (∀ x ∈ xs, Sendable env .any x) → Sendable env .any (.list xs)
  | list {t xs} : (∀ x ∈ xs, Sendable env t x) → Sendable env (.list t) (.list xs)
  | dict {t} {kvs : List (String × PV)} : (kvs.map fun kv => env.mapKey t kv.1).Nodup →
      (∀ kv ∈ kvs, env.mapKey t kv.1 ≠ reservedKey) →
      (∀ kv ∈ kvs, Sendable env (env.mapTy t (env.mapKey t kv.1)) kv.2) → Sendable env t (.dict kvs)
  | object {t cls} {kvs : List (String × PV)} : (kvs.map (·.1)).Nodup → (∀ kv ∈ kvs, kv.1 ≠ reservedKey) →
      (∀ kv ∈ kvs, Sendable env (env.propTy cls kv.1) kv.2) → Sendable env t (.inputObj cls kvs)
  | awaitable {t v} : Sendable env t v → Sendable env t (.awaitable v)
  | output {t rs known secret v} : Sendable env t v → (known = true → ¬ ContainsUnknown v) →
      (∀ u, DependsOn env (.output rs known secret v) u → u ∉ reserved) →
      Sendable env t (.output rs known secret v)
  | resource {t n u} : env.resourceRefs = true → (env.res n).urn.known = true → (env.res n).urn.secret = false →
      (env.res n).urn.value = some u → u ∉ reserved →
      ((env.res n).id.known = true → (env.res n).id.secret = false ∧ ∃ s, (env.res n).id.value = some s ∧ s ∉ reserved) →
      Sendable env t (.resource (.decl n))
  | asset {t} (k) {s} : s ∉ reserved → Sendable env t (.asset k s)
  | archive {t} (k) {s} : s ∉ reserved → Sendable env t (.archive k s)
  | assetArchive {t} {kvs : List (String × PV)} : (kvs.map fun kv => env.translate kv.1).Nodup →
      (∀ kv ∈ kvs, env.translate kv.1 ≠ reservedKey) → (∀ kv ∈ kvs, IsMember kv.2) →
      (∀ kv ∈ kvs, Sendable env .any kv.2) → Sendable env t (.assetArchive kvs)

/-- The asset of the engine for an asset of the program. -/
def assetOf : Wire.AssetKind → String → Blob
  | .file, s => .asset "" "" s ""
  | .text, s => .asset "" s "" ""
  | .remote, s => .asset "" "" "" s

/-- The archive of the engine for a file or remote archive of the program. -/
def archiveOf : Wire.ArchiveKind → String → Blob
  | .file, s => .archive "" s ""
  | .remote, s => .archive "" "" s

/-- `Means env ov t v e`: the engine's value `e` is what a program means by `v`, declared with type `t`. With `ov`, the
outermost Outputs of the value stay Outputs: they keep their flags, and list what they depend on, sorted and once. Where
Outputs do not stay, a known one is its value, a secret if it is secret and the engine keeps secrets, and an unknown one
is an unknown value. -/
inductive Means (env : Env) : Bool → Ty → PV → EV → Prop
  | none {ov t} : Means env ov t .none .null
  | bool {ov t} (b) : Means env ov t (.bool b) (.bool b)
  | num {ov t} (n) : Means env ov t (.num n) (.num n)
  | str {ov t} (s) : Means env ov t (.str s) (.str s)
  | unknown {ov t} : Means env ov t .unknown (.computed (.str ""))
  | untypedList {ov} {xs : List PV} {es} : xs.length = es.length → (∀ p ∈ xs.zip es, Means env ov .any p.1 p.2) →
      Means env ov .any (.list xs) (.array es)
  | list {ov t} {xs : List PV} {es} : xs.length = es.length → (∀ p ∈ xs.zip es, Means env ov t p.1 p.2) →
      Means env ov (.list t) (.list xs) (.array es)
  | dict {ov t} {kvs : List (String × PV)} {es : List (String × EV)} :
      es.map (·.1) = kvs.map (fun kv => env.mapKey t kv.1) →
      (∀ p ∈ kvs.zip es, Means env ov (env.mapTy t (env.mapKey t p.1.1)) p.1.2 p.2.2) →
      Means env ov t (.dict kvs) (.object es)
  | object {ov t cls} {kvs : List (String × PV)} {es : List (String × EV)} :
      es.map (·.1) = (kvs.filter fun kv => !Wire.isNone kv.2).map (·.1) →
      (∀ p ∈ (kvs.filter fun kv => !Wire.isNone kv.2).zip es, Means env ov (env.propTy cls p.1.1) p.1.2 p.2.2) →
      Means env ov t (.inputObj cls kvs) (.object es)
  | awaitable {ov t v e} : Means env ov t v e → Means env ov t (.awaitable v) e
  | output {t rs known secret v e deps} : (known = true → Means env false t v e) → (known = false → e = .null) →
      deps.Pairwise (· ≤ ·) → deps.Nodup → (∀ u, u ∈ deps ↔ DependsOn env (.output rs known secret v) u) →
      Means env true t (.output rs known secret v) (.output e known secret deps)
  | unknownOutput {t rs secret v} : Means env false t (.output rs false secret v) (.computed (.str ""))
  | secretOutput {t rs v e} : env.secrets = true → Means env false t v e →
      Means env false t (.output rs true true v) (.secret e)
  | plainOutput {t rs secret v e} : (secret = true → env.secrets = false) → Means env false t v e →
      Means env false t (.output rs true secret v) e
  | component {ov t n u} : (env.res n).custom = false → (env.res n).urn.value = some u →
      Means env ov t (.resource (.decl n)) (.ref u .none "")
  | custom {ov t n u s} : (env.res n).custom = true → (env.res n).urn.value = some u → (env.res n).id.known = true →
      (env.res n).id.value = some s → s ≠ "" → Means env ov t (.resource (.decl n)) (.ref u (.known s) "")
  | pending {ov t n u} : (env.res n).custom = true → (env.res n).urn.value = some u →
      ((env.res n).id.known = false ∨ (env.res n).id.value = some "") →
      Means env ov t (.resource (.decl n)) (.ref u .unknown "")
  | asset {ov t} (k s) : Means env ov t (.asset k s) (.blob (assetOf k s))
  | archive {ov t} (k s) : Means env ov t (.archive k s) (.blob (archiveOf k s))
  | assetArchive {ov t} {kvs : List (String × PV)} {ms : List (String × Blob)} :
      ms.map (·.1) = kvs.map (fun kv => env.translate kv.1) →
      (∀ p ∈ kvs.zip ms, Means env false .any p.1.2 (.blob p.2.2)) →
      Means env ov t (.assetArchive kvs) (.blob (.assets "" ms "" ""))

/-- The engine reads with these options: nothing is left out or refused, and unknowns, secrets and references are kept. -/
structure Reads (o : Opts) : Prop where
  skipNulls : o.skipNulls = false
  skipInternalKeys : o.skipInternalKeys = false
  keepUnknowns : o.keepUnknowns = true
  rejectUnknowns : o.rejectUnknowns = false
  keepSecrets : o.keepSecrets = true
  rejectAssets : o.rejectAssets = false
  keepResources : o.keepResources = true

end Pulumi.Engine
