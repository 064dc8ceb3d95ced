import Verif.Engine.Spec
/-!
# Specification of what a program sees of the engine's answers
-/
namespace Pulumi.Engine

open Wire (Env PV ResId)

/-- The string that means "unknown" to programs. -/
def programUnknown : String := "04da6b54-80e4-46f7-96ec-b56ff0331ba9"

/-- Names that programs are not shown: they begin with two underscores, and `__provider` is not one of them. -/
def hidden (k : String) : Bool := "__".toList.isPrefixOf k.toList && k != "__provider"

/-- The resource that the program has a class for, built from a URN and a version, if it has one. -/
def Builds (env : Env) (urn version : String) (r : Option ResId) : Prop :=
  ∃ parts, Urn.parseUrn urn.toList = .ok parts ∧
    r = (if parts.pkgName = "pulumi".toList ∧ parts.modName = "providers".toList then
        env.providerPackage (String.ofList parts.typName) version
      else env.resourceModule (String.ofList parts.pkgName) (String.ofList parts.modName) version).map fun c => c parts urn

/-- An unknown value, as the program sees it: as unknown in previews and where unknowns are asked for, as `None` otherwise. -/
def pending (env : Env) (keep : Bool) : PV := if env.dryRun || keep then .unknown else .none

/-- What a program sees of an asset or an archive: what it is made from, and no hash. -/
inductive ShownBlob : Blob → PV → Prop
  | file {h t p u} : p ≠ "" → ShownBlob (.asset h t p u) (.asset .file p)
  | text {h t u} : t ≠ "" → ShownBlob (.asset h t "" u) (.asset .text t)
  | remote {h u} : u ≠ "" → ShownBlob (.asset h "" "" u) (.asset .remote u)
  | fileArchive {h p u} : p ≠ "" → ShownBlob (.archive h p u) (.archive .file p)
  | remoteArchive {h u} : u ≠ "" → ShownBlob (.archive h "" u) (.archive .remote u)
  | assets {h p u} {ms : List (String × Blob)} {vs : List PV} : ms.length = vs.length →
      (∀ m ∈ ms, m.1 ≠ reservedKey) → (∀ q ∈ ms.zip vs, ShownBlob q.1.2 q.2) →
      ShownBlob (.assets h ms p u)
        (.assetArchive (((ms.zip vs).filter fun q => !hidden q.1.1).map fun q => (q.1.1, q.2)))

/-- `Shown env secrets resources keep e b v`: of the engine's value `e` a program sees `v`, and `b` tells whether it sees
it as a secret. `secrets` and `resources` tell what the program accepts, `keep` whether it asks for unknowns. A list or an
object is secret if something in it is, which is then shown without a mark of its own. Of an object the names that are
hidden are left out, and those that are null. -/
inductive Shown (env : Env) (secrets resources : Bool) : Bool → EV → Bool → PV → Prop
  | null {keep} : Shown env secrets resources keep .null false .none
  | bool {keep} (b) : Shown env secrets resources keep (.bool b) false (.bool b)
  | num {keep} (n) : Shown env secrets resources keep (.num n) false (.num n)
  | str {keep s} : s ≠ programUnknown → Shown env secrets resources keep (.str s) false (.str s)
  | computed {keep s} : Shown env secrets resources keep (.computed (.str s)) false (pending env keep)
  | secret {keep e b v} : secrets = true → Shown env secrets resources false e b v →
      Shown env secrets resources keep (.secret e) true v
  | revealed {keep e b v} : secrets = false → Shown env secrets resources keep e b v →
      Shown env secrets resources keep (.secret e) b v
  | array {keep} {es : List EV} {rs : List (Bool × PV)} : es.length = rs.length →
      (∀ q ∈ es.zip rs, Shown env secrets resources keep q.1 q.2.1 q.2.2) →
      Shown env secrets resources keep (.array es) (rs.any (·.1)) (.list (rs.map (·.2)))
  | object {keep} {kvs : List (String × EV)} {rs : List (Bool × PV)} {seen : List ((String × EV) × (Bool × PV))} :
      kvs.length = rs.length → (∀ kv ∈ kvs, kv.1 ≠ reservedKey) →
      (∀ q ∈ kvs.zip rs, Shown env secrets resources keep q.1.2 q.2.1 q.2.2) →
      seen = ((kvs.zip rs).filter fun q => !hidden q.1.1 && (q.2.1 || !Wire.isNone q.2.2)) →
      Shown env secrets resources keep (.object kvs) (seen.any fun q => q.2.1) (.dict (seen.map fun q => (q.1.1, q.2.2)))
  | output {keep e s deps b v} : Shown env secrets resources keep (if s then .secret e else e) b v →
      Shown env secrets resources keep (.output e true s deps) b v
  | unknownOutput {keep e s deps b v} :
      Shown env secrets resources keep (if s then .secret (.computed (.str "")) else .computed (.str "")) b v →
      Shown env secrets resources keep (.output e false s deps) b v
  | resource {keep urn id version r} : resources = true → Builds env urn version (some r) →
      Shown env secrets resources keep (.ref urn id version) false (.resource r)
  | component {keep urn version} : (resources = true → Builds env urn version none) → 
      (resources = false → urn ≠ programUnknown) →
      Shown env secrets resources keep (.ref urn .none version) false (.str urn)
  | custom {keep urn s version} : (resources = true → Builds env urn version none) → s ≠ "" → s ≠ programUnknown →
      Shown env secrets resources keep (.ref urn (.known s) version) false (.str s)
  | pending {keep urn version} : (resources = true → Builds env urn version none) →
      Shown env secrets resources keep (.ref urn .unknown version) false (pending env keep)
  | blob {keep b v} : ShownBlob b v → Shown env secrets resources keep (.blob b) false v

/-- Assets and archives that are made from something. -/
inductive SoundBlob : Blob → Prop
  | asset {h t p u} : (p ≠ "" ∨ t ≠ "" ∨ u ≠ "") → SoundBlob (.asset h t p u)
  | archive {h p u} : (p ≠ "" ∨ u ≠ "") → SoundBlob (.archive h p u)
  | assets {h p u} {ms : List (String × Blob)} : (∀ m ∈ ms, m.1 ≠ reservedKey) → (∀ m ∈ ms, SoundBlob m.2) →
      SoundBlob (.assets h ms p u)

/-- Values that the engine may answer with: no string is the one that means "unknown", unknown values are unknown strings
(nothing more is known of them), no name is the reserved key, URNs are well formed and ids are not empty. -/
inductive Answerable (resources : Bool) : EV → Prop
  | null : Answerable resources .null
  | bool (b) : Answerable resources (.bool b)
  | num (n) : Answerable resources (.num n)
  | str {s} : s ≠ programUnknown → Answerable resources (.str s)
  | computed {s} : Answerable resources (.computed (.str s))
  | secret {e} : Answerable resources e → Answerable resources (.secret e)
  | array {es} : (∀ e ∈ es, Answerable resources e) → Answerable resources (.array es)
  | object {kvs : List (String × EV)} : (∀ kv ∈ kvs, kv.1 ≠ reservedKey) → (∀ kv ∈ kvs, Answerable resources kv.2) →
      Answerable resources (.object kvs)
  | output {e s deps} : Answerable resources e → Answerable resources (.output e true s deps)
  | unknownOutput {e s deps} : Answerable resources (.output e false s deps)
  | ref {urn id version} : (resources = true → ∃ parts, Urn.parseUrn urn.toList = .ok parts) → urn ≠ programUnknown →
      id ≠ .known "" → id ≠ .known programUnknown → Answerable resources (.ref urn id version)
  | blob {b} : SoundBlob b → Answerable resources (.blob b)

end Pulumi.Engine
