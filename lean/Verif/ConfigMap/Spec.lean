import Verif.ConfigMap.Model
/-! # Specification of the configuration of a stack -/
namespace Pulumi.ConfigMap

open Wire (W)
open Checkpoint (Codec)
open Paths (Path)

/-- Writing a value as JSON and reading the text gives the value. -/
def Faithful (J : Codec) : Prop := ∀ w, J.parse (J.print w) = some w

/-- The key `k` means this path, in this namespace: its name is the text of the path, which starts with a name. -/
def Means (k : Key) (p : Path) : Prop := Paths.parse k.name.toList = .ok p ∧ ∃ s rest, p = .name s :: rest ∧ s ≠ []

/-- Two paths of which none leads to what the other leads to or to a part of it. -/
def Apart (p q : Path) : Prop := ¬ p <+: q ∧ ¬ q <+: p

/-- Two keys, of which none is of what the other is of or of a part of it. -/
def Elsewhere (k q : Key) : Prop :=
  q.ns ≠ k.ns ∨ ∀ p p', Paths.parse k.name.toList = .ok p → Paths.parse q.name.toList = .ok p' → Apart p p'

/-- What a plain text reads as that has been put into an object: itself, unless it is a whole number that starts with a plus sign,
or with a minus sign and a zero, which reads as that number does. -/
def SameText (s t : String) : Prop :=
  t = s ∨ ∃ i, (['+'] <+: s.toList ∨ ['-', '0'] <+: s.toList) ∧ Paths.parseInt s.toList = some i ∧ t.toList = Paths.intText i

/-- A value as JSON has it: an object is written as JSON is written; it is no string, no null and no secure value, and it is secure
if there is a secure value in it. -/
def Consistent (J : Codec) (v : Value) : Prop :=
  v.object = true → ∃ w, v.value = J.print w ∧ (∀ s, w ≠ .str s) ∧ w ≠ .null ∧ (∀ s, w ≠ .struct [("secure", .str s)]) ∧
    v.secure = hasSecure w

/-- Something can be set at this path of this value: on the way there are only lists, at indices they have or that follow their last,
and maps; where there is nothing yet, an index is zero. -/
def CanHold : W → Path → Prop
  | _, [] => True
  | .list ws, .idx i :: p => 0 ≤ i ∧ i ≤ ws.length ∧ CanHold (ws[i.toNat]?.getD .null) p
  | .struct kvs, .name k :: p => CanHold ((kvs.lookup (String.ofList k)).getD .null) p
  | .null, .idx i :: p => i = 0 ∧ CanHold .null p
  | .null, .name _ :: p => CanHold .null p
  | _, _ => False

/-- A text without colons. -/
def NoColon (s : String) : Prop := ':' ∉ s.toList

/-- What the encrypter gives decrypts to the text that was encrypted. -/
def Opens {σ : Type} (I : σ → Prop) (enc : Encrypter σ) (dec : String → Except Err String) : Prop :=
  ∀ p s c s', I s → enc p s = .ok (c, s') → dec c = .ok p ∧ I s'

/-- The value at a path of a JSON value, where nothing is taken out of a secure value. -/
inductive At : W → Path → W → Prop
  | here (w) : At w [] w
  | idx {ws : List W} {i : Nat} {w p w'} : ws[i]? = some w → At w p w' → At (.list ws) (.idx i :: p) w'
  | key {kvs : List (String × W)} {k w p w'} : kvs.lookup (String.ofList k) = some w → isSecure (.struct kvs) = none → At w p w' →
      At (.struct kvs) (.name k :: p) w'

end Pulumi.ConfigMap
