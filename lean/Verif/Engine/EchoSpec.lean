import Verif.Engine.AnswerSpec
/-!
# Specification of the values that two parts of the engine exchange
-/
namespace Pulumi.Engine

/-- Assets and archives without reserved strings and names. -/
inductive CleanBlob : Blob → Prop
  | asset {h t p u} : h ∉ reserved → t ∉ reserved → p ∉ reserved → u ∉ reserved → CleanBlob (.asset h t p u)
  | archive {h p u} : h ∉ reserved → p ∉ reserved → u ∉ reserved → CleanBlob (.archive h p u)
  | assets {h p u} {ms : List (String × Blob)} : h ∉ reserved → p ∉ reserved → u ∉ reserved →
      (∀ m ∈ ms, m.1 ≠ reservedKey) → (∀ m ∈ ms, CleanBlob m.2) → CleanBlob (.assets h ms p u)

/-- What is known of an unknown value: the kind that it will be of, as an empty value of that kind. -/
inductive Kind : EV → Prop
  | bool : Kind (.bool false)
  | num : Kind (.num 0)
  | str : Kind (.str "")
  | array : Kind (.array [])
  | object : Kind (.object [])
  | asset : Kind (.blob (.asset "" "" "" ""))
  | archive : Kind (.blob (.archive "" "" ""))

/-- Values that can be exchanged: no string is reserved, no name is the reserved key, an id is empty only if there is
none, and an Output that is not known has no value. With `outputs` there may be Outputs. -/
inductive Clean (outputs : Bool) : EV → Prop
  | null : Clean outputs .null
  | bool (b) : Clean outputs (.bool b)
  | num (n) : Clean outputs (.num n)
  | str {s} : s ∉ reserved → Clean outputs (.str s)
  | computed {e} : Kind e → Clean outputs (.computed e)
  | secret {e} : Clean outputs e → Clean outputs (.secret e)
  | array {es} : (∀ e ∈ es, Clean outputs e) → Clean outputs (.array es)
  | object {kvs : List (String × EV)} : (∀ kv ∈ kvs, kv.1 ≠ reservedKey) → (∀ kv ∈ kvs, Clean outputs kv.2) →
      Clean outputs (.object kvs)
  | component {urn version} : urn ∉ reserved → version ∉ reserved → Clean outputs (.ref urn .none version)
  | custom {urn s version} : urn ∉ reserved → version ∉ reserved → s ≠ "" → s ∉ reserved →
      Clean outputs (.ref urn (.known s) version)
  | pending {urn version} : urn ∉ reserved → version ∉ reserved → Clean outputs (.ref urn .unknown version)
  | blob {b} : CleanBlob b → Clean outputs (.blob b)
  | output {e s deps} : outputs = true → Clean outputs e → (∀ d ∈ deps, d ∉ reserved) → Clean outputs (.output e true s deps)
  | unknownOutput {s deps} : outputs = true → (∀ d ∈ deps, d ∉ reserved) → Clean outputs (.output .null false s deps)

open Wire (PV) in
/-- Data of a program: `None`, booleans, numbers, strings, lists, and dicts with distinct names that are neither reserved
nor hidden. -/
inductive Data : PV → Prop
  | none : Data .none
  | bool (b) : Data (.bool b)
  | num (n) : Data (.num n)
  | str {s} : s ∉ reserved → Data (.str s)
  | list {xs} : (∀ x ∈ xs, Data x) → Data (.list xs)
  | dict {kvs : List (String × PV)} : (kvs.map (·.1)).Nodup → (∀ kv ∈ kvs, kv.1 ≠ reservedKey) →
      (∀ kv ∈ kvs, hidden kv.1 = false) → (∀ kv ∈ kvs, Data kv.2) → Data (.dict kvs)

end Pulumi.Engine
