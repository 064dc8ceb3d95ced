import Verif.Engine.EchoSpec
/-!
# Specification of what the options of the codec promise
-/
namespace Pulumi.Engine

open Wire (W)

/-- `P` holds of the value and of everything in it. -/
inductive Throughout (P : EV → Prop) : EV → Prop
  | leaf {e} : P e → (∀ es, e ≠ .array es) → (∀ kvs, e ≠ .object kvs) → (∀ x, e ≠ .secret x) →
      (∀ x k s d, e ≠ .output x k s d) → Throughout P e
  | array {es} : P (.array es) → (∀ e ∈ es, Throughout P e) → Throughout P (.array es)
  | object {kvs : List (String × EV)} : P (.object kvs) → (∀ kv ∈ kvs, Throughout P kv.2) → Throughout P (.object kvs)
  | secret {x} : P (.secret x) → Throughout P x → Throughout P (.secret x)
  | output {x k s d} : P (.output x k s d) → Throughout P x → Throughout P (.output x k s d)

/-- A name that starts with two underscores. -/
def InternalName (k : String) : Prop := "__".toList <+: k.toList

/-- What a reader that was given these options may get: secrets, unknowns, references, Outputs, assets, null properties
and internal names only if it wants them. -/
def Wanted (o : Opts) : EV → Prop
  | .secret _ => o.keepSecrets = true
  | .computed _ => o.keepUnknowns = true ∧ o.rejectUnknowns = false
  | .ref .. => o.keepResources = true
  | .output .. => o.keepOutputValues = true
  | .blob _ => o.rejectAssets = false
  | .object kvs => ∀ kv ∈ kvs, (o.skipNulls = true → kv.2 ≠ .null) ∧
      (o.skipInternalKeys = true → ¬ InternalName kv.1)
  | _ => True

/-- `P` holds of the wire value and of everything in it. -/
inductive ThroughoutW (P : W → Prop) : W → Prop
  | leaf {w} : P w → (∀ ws, w ≠ .list ws) → (∀ kvs, w ≠ .struct kvs) → ThroughoutW P w
  | list {ws} : P (.list ws) → (∀ w ∈ ws, ThroughoutW P w) → ThroughoutW P (.list ws)
  | struct {kvs : List (String × W)} : P (.struct kvs) → (∀ kv ∈ kvs, ThroughoutW P kv.2) → ThroughoutW P (.struct kvs)

/-- What a writer that was given these options may send. -/
def Accepted (o : Opts) : W → Prop
  | .str s => s ∈ reserved → o.keepUnknowns = true ∧ o.rejectUnknowns = false
  | .struct kvs => (∀ kv ∈ kvs, o.skipInternalKeys = true → ¬ InternalName kv.1) ∧
      ∀ sig, kvs.lookup reservedKey = some (.str sig) →
      (sig = "1b47061264138c4ac30d75fd1eb44270" → o.keepSecrets = true) ∧
      (sig = "5cf8f73096256a8f31e491e813e4eb8e" → o.keepResources = true) ∧
      (sig = "d0e6a833031e9bbcd3f4e8bde6ca49a4" → o.keepOutputValues = true) ∧
      (sig = "c44067f5952c0a294b673a41bacd8c17" ∨ sig = "0def7320c3a5731c473e5ecbe6d01bc7" → o.rejectAssets = false)
  | _ => True

/-- Values of the engine in which reserved strings and names do not occur. -/
def Ordinary : EV → Prop
  | .str s => s ∉ reserved
  | .object kvs => ∀ kv ∈ kvs, kv.1 ≠ reservedKey
  | .ref urn id version => urn ∉ reserved ∧ version ∉ reserved ∧ ∀ s, id = .known s → s ∉ reserved
  | .blob b => CleanBlob b
  | .output _ _ _ deps => ∀ d ∈ deps, d ∉ reserved
  | _ => True

/-- The value has an unknown in it that a writer looks at: of an Output whose value is not known it does not look at the
value, and the names it leaves out it does not look at. -/
inductive HasUnknown (o : Opts) : EV → Prop
  | computed {e} : HasUnknown o (.computed e)
  | output {e s deps} : o.keepOutputValues = false → HasUnknown o (.output e false s deps)
  | known {e s deps} : HasUnknown o e → HasUnknown o (.output e true s deps)
  | secret {e} : HasUnknown o e → HasUnknown o (.secret e)
  | reference {urn version} : o.keepResources = false → HasUnknown o (.ref urn .unknown version)
  | array {es e} : e ∈ es → HasUnknown o e → HasUnknown o (.array es)
  | object {kvs : List (String × EV)} {k e} : (k, e) ∈ kvs → ¬ (o.skipInternalKeys = true ∧ InternalName k) →
      HasUnknown o e → HasUnknown o (.object kvs)

end Pulumi.Engine
