import Verif.Checkpoint.Model
/-!
# Specification of what a state file keeps
-/
namespace Pulumi.Checkpoint

open Wire (W)
open Engine (EV Blob RefId)

/-- The string that stands for an unknown value in a state file. -/
def reserved : String := "04da6b54-80e4-46f7-96ec-b56ff0331ba9"

/-- The name that tells assets, archives, secrets and references from other objects in a state file. -/
def reservedName : String := "4dabf18193072939515e22adb298388d"

/-- Reading a JSON text gives the value it was written for; no JSON text is empty or the reserved string. -/
def Codec.Faithful (J : Codec) : Prop :=
  ∀ w, J.parse (J.print w) = some w ∧ J.print w ≠ "" ∧ J.print w ≠ reserved

/-- What the encrypter gives for a JSON text, in whichever state it may be (`I` holds of those), decrypts to the text that
was encrypted; it is neither empty nor the reserved string. -/
def Opens {σ : Type} (J : Codec) (I : σ → Prop) (enc : Encrypter σ) (dec : Decrypter) : Prop :=
  ∀ w s c s', I s → enc (J.print w) s = .ok (c, s') → dec c = .ok (J.print w) ∧ c ≠ "" ∧ c ≠ reserved ∧ I s'

/-- Reading the value in a state file gives this property value. -/
def Loads (J : Codec) (dec enc : Decrypter) (w : W) (v : EV) : Prop := ∃ n, deserialize J n dec enc w = .ok v

/-- Reading the properties of a resource in a state file gives these. -/
def LoadsProps (J : Codec) (dec enc : Decrypter) (kvs : List (String × W)) (props : List (String × EV)) : Prop :=
  ∃ n, eachProp (deserialize J n dec enc) kvs = .ok props

/-- Assets and archives in which neither the reserved string nor the reserved name occurs. -/
inductive StorableBlob : Blob → Prop
  | asset {h t p u} : h ≠ reserved → t ≠ reserved → p ≠ reserved → u ≠ reserved → StorableBlob (.asset h t p u)
  | archive {h p u} : h ≠ reserved → p ≠ reserved → u ≠ reserved → StorableBlob (.archive h p u)
  | assets {h p u} {ms : List (String × Blob)} : h ≠ reserved → p ≠ reserved → u ≠ reserved →
      (∀ m ∈ ms, m.1 ≠ reservedName) → (∀ m ∈ ms, StorableBlob m.2) → StorableBlob (.assets h ms p u)

/-- Property values in which neither the reserved string nor the reserved name occurs, and no id is empty. What is in an
unknown value, or in an Output, does not matter. -/
inductive Storable : EV → Prop
  | null : Storable .null
  | bool (b) : Storable (.bool b)
  | num (n) : Storable (.num n)
  | str {s} : s ≠ reserved → Storable (.str s)
  | array {es} : (∀ e ∈ es, Storable e) → Storable (.array es)
  | object {kvs : List (String × EV)} : (∀ kv ∈ kvs, kv.1 ≠ reservedName) → (∀ kv ∈ kvs, Storable kv.2) →
      Storable (.object kvs)
  | blob {b} : StorableBlob b → Storable (.blob b)
  | computed (e) : Storable (.computed e)
  | output (e k s d) : Storable (.output e k s d)
  | secret {e} : Storable e → Storable (.secret e)
  | ref {urn id version} : urn ≠ reserved → version ≠ reserved → (∀ s, id = .known s → s ≠ "" ∧ s ≠ reserved) →
      Storable (.ref urn id version)

mutual
/-- What is left of a property value in a state file: everything, but for an unknown value no more than that it is unknown,
and an Output is an unknown value. -/
def kept : EV → EV
  | .array es => .array (keptList es)
  | .object kvs => .object (keptProps kvs)
  | .secret e => .secret (kept e)
  | .computed _ => .computed (.str "")
  | .output .. => .computed (.str "")
  | v => v
def keptList : List EV → List EV
  | [] => []
  | e :: es => kept e :: keptList es
def keptProps : List (String × EV) → List (String × EV)
  | [] => []
  | (k, e) :: kvs => (k, kept e) :: keptProps kvs
end

mutual
/-- Whether something in the value is unknown, or an Output. -/
def hasUnknown : EV → Bool
  | .array es => listHasUnknown es
  | .object kvs => propsHaveUnknown kvs
  | .secret e => hasUnknown e
  | .computed _ => true
  | .output .. => true
  | _ => false
def listHasUnknown : List EV → Bool
  | [] => false
  | e :: es => hasUnknown e || listHasUnknown es
def propsHaveUnknown : List (String × EV) → Bool
  | [] => false
  | (_, e) :: kvs => hasUnknown e || propsHaveUnknown kvs
end

/-- Two property values that are the same but for what is in their secrets (and in unknown values). -/
inductive SamePublic : EV → EV → Prop
  | refl (v) : SamePublic v v
  | secret (e e') : SamePublic (.secret e) (.secret e')
  | computed (e e') : SamePublic (.computed e) (.computed e')
  | nil : SamePublic (.array []) (.array [])
  | cons {e e' es es'} : SamePublic e e' → SamePublic (.array es) (.array es') →
      SamePublic (.array (e :: es)) (.array (e' :: es'))
  | empty : SamePublic (.object []) (.object [])
  | entry {k e e'} {kvs kvs' : List (String × EV)} : SamePublic e e' → SamePublic (.object kvs) (.object kvs') →
      SamePublic (.object ((k, e) :: kvs)) (.object ((k, e') :: kvs'))

/-- An encrypter that tells nothing: what it gives does not depend on the text. -/
def Tight {σ : Type} (enc : Encrypter σ) : Prop := ∀ p q s, enc p s = enc q s

mutual
/-- What is in the secrets of a value that are in no other secret, in order. -/
def secretsOf : EV → List EV
  | .array es => secretsOfList es
  | .object kvs => secretsOfProps kvs
  | .secret e => [e]
  | _ => []
def secretsOfList : List EV → List EV
  | [] => []
  | e :: es => secretsOf e ++ secretsOfList es
def secretsOfProps : List (String × EV) → List EV
  | [] => []
  | (_, e) :: kvs => secretsOf e ++ secretsOfProps kvs
end

mutual
/-- A value in a state file, with these ciphertexts in place of its secrets, and the ciphertexts that are left. -/
def fill (J : Codec) : EV → List String → W × List String
  | .null, cs => (.null, cs)
  | .bool b, cs => (.bool b, cs)
  | .num n, cs => (.num n, cs)
  | .str t, cs => (.str t, cs)
  | .array es, cs => (.list (fillList J es cs).1, (fillList J es cs).2)
  | .object kvs, cs => (.struct (fillKvs J kvs cs).1, (fillKvs J kvs cs).2)
  | .blob b, cs => (blobW b, cs)
  | .computed _, cs => (.str placeholder, cs)
  | .output .., cs => (.str placeholder, cs)
  | .ref urn id version, cs => (refW urn id version, cs)
  | .secret _, cs => (secretW false "" (cs.headD ""), cs.tail)
def fillList (J : Codec) : List EV → List String → List W × List String
  | [], cs => ([], cs)
  | e :: es, cs => ((fill J e cs).1 :: (fillList J es (fill J e cs).2).1, (fillList J es (fill J e cs).2).2)
def fillKvs (J : Codec) : List (String × EV) → List String → List (String × W) × List String
  | [], cs => ([], cs)
  | (k, e) :: kvs, cs => ((k, (fill J e cs).1) :: (fillKvs J kvs (fill J e cs).2).1, (fillKvs J kvs (fill J e cs).2).2)
end


/-- The text of a value that is written with no encryption. -/
def IsText (J : Codec) (showSecrets : Bool) (e : EV) (t : String) : Prop :=
  ∃ w, serialize J showSecrets (nopEncrypter (σ := Unit)) e () = .ok (w, ()) ∧ t = J.print w

/-- Texts are encrypted one after the other. -/
inductive Encrypts {σ : Type} (enc : Encrypter σ) : List String → σ → List String → σ → Prop
  | nil (s) : Encrypts enc [] s [] s
  | cons {p ps s c s1 cs s2} : enc p s = .ok (c, s1) → Encrypts enc ps s1 cs s2 → Encrypts enc (p :: ps) s (c :: cs) s2

/-- The objects in a value of a state file that are marked as secrets have only strings, numbers, truth values and nulls in
them, as those have that are written. -/
inductive Flat : W → Prop
  | leaf {w} : (∀ ws, w ≠ .list ws) → (∀ kvs, w ≠ .struct kvs) → Flat w
  | list {ws} : (∀ w ∈ ws, Flat w) → Flat (.list ws)
  | struct {kvs : List (String × W)} : (∀ kv ∈ kvs, Flat kv.2) →
      (kvs.lookup reservedName = some (.str "1b47061264138c4ac30d75fd1eb44270") →
        ∀ kv ∈ kvs, (∀ ws, kv.2 ≠ .list ws) ∧ ∀ kvs', kv.2 ≠ .struct kvs') →
      Flat (.struct kvs)

/-- A cache in which every ciphertext stands for the text beside it, and which has an encrypter in a good state. -/
def GoodCache {σ : Type} (I : σ → Prop) (dec : Decrypter) (s : Cache σ) : Prop :=
  I s.inner ∧ ∀ a p c, (a, p, c) ∈ s.entries → dec c = .ok p ∧ c ≠ "" ∧ c ≠ reserved

/-- Secrets at the same address are the same: two of the texts that are encrypted are the same if the secrets that they are
of have the same address. -/
def SameAddressSameText (address : Nat → Nat) (ps : List String) : Prop :=
  ∀ i j p q, ps[i]? = some p → ps[j]? = some q → address i = address j → p = q

end Pulumi.Checkpoint
