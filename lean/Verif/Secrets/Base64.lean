/-!
# Base 64

Models what `encoding/base64` of Go's library does in `StdEncoding`, which secrets and their salts are written with (`/repo/sdk/go/common/resource/config/crypt.go:169-197`,
`/repo/pkg/secrets/passphrase/manager.go:55`). The library is not in /repo; its source is modelled from its documentation: newlines are ignored, padding is needed, bits that are left over
are not looked at.
-/
namespace Pulumi.Secrets

abbrev Byte := Fin 256

/-- The alphabet of RFC 4648 -/
def alphabet : List Char := "ABCDEFGHIJKLMNOPQRSTUVWXYZabcdefghijklmnopqrstuvwxyz0123456789+/".toList

def digit (n : Nat) : Char := alphabet.getD (n % 64) 'A'

def value (c : Char) : Option Nat := alphabet.findIdx? (· == c)

/-- `EncodeToString` -/
def encode : List Byte → List Char
  | [] => []
  | [a] => [digit (a / 4), digit (a % 4 * 16), '=', '=']
  | [a, b] => [digit (a / 4), digit (a % 4 * 16 + b / 16), digit (b % 16 * 4), '=']
  | a :: b :: c :: l => digit (a / 4) :: digit (a % 4 * 16 + b / 16) :: digit (b % 16 * 4 + c / 64) :: digit (c % 64) :: encode l

def byte (n : Nat) : Byte := Fin.ofNat 256 n

/-- `DecodeString`, of a text without newlines -/
def decodeText : List Char → Option (List Byte)
  | [] => some []
  | a :: b :: c :: d :: l =>
    match value a, value b with
    | some a, some b =>
      if c = '=' then (if d = '=' ∧ l = [] then some [byte (a * 4 + b / 16)] else none)
      else
        match value c with
        | none => none
        | some c =>
          if d = '=' then (if l = [] then some [byte (a * 4 + b / 16), byte (b % 16 * 16 + c / 4)] else none)
          else
            match value d, decodeText l with
            | some d, some r => some (byte (a * 4 + b / 16) :: byte (b % 16 * 16 + c / 4) :: byte (c % 4 * 64 + d) :: r)
            | _, _ => none
    | _, _ => none
  | _ => none

/-- `DecodeString` -/
def decode (t : List Char) : Option (List Byte) := decodeText (t.filter fun c => c != '\n' && c != '\r')

theorem digit_spec : ∀ n < 64, value (digit n) = some n ∧ digit n ≠ '=' ∧ digit n ≠ '\n' ∧ digit n ≠ '\r' ∧ digit n ≠ ':' := by decide +kernel

theorem digit_mod (n : Nat) : digit (n % 64) = digit n := by unfold digit; rw [Nat.mod_mod]

theorem digit_ne (n : Nat) : digit n ≠ '=' ∧ digit n ≠ '\n' ∧ digit n ≠ '\r' ∧ digit n ≠ ':' := by
  rw [← digit_mod]; exact (digit_spec _ (Nat.mod_lt _ (by decide))).2

theorem value_digit {n : Nat} (h : n < 64) : value (digit n) = some n := (digit_spec n h).1

theorem encode_chars : ∀ (l : List Byte), ∀ c ∈ encode l, c ≠ '\n' ∧ c ≠ '\r' ∧ c ≠ ':'
  | [], c, h => by cases h
  | [a], c, h => by
    simp only [encode, List.mem_cons, List.not_mem_nil, or_false] at h
    rcases h with rfl | rfl | rfl | rfl
    · exact (digit_ne _).2
    · exact (digit_ne _).2
    · decide
    · decide
  | [a, b], c, h => by
    simp only [encode, List.mem_cons, List.not_mem_nil, or_false] at h
    rcases h with rfl | rfl | rfl | rfl
    · exact (digit_ne _).2
    · exact (digit_ne _).2
    · exact (digit_ne _).2
    · decide
  | a :: b :: c :: l, x, h => by
    simp only [encode, List.mem_cons] at h
    rcases h with rfl | rfl | rfl | rfl | h
    · exact (digit_ne _).2
    · exact (digit_ne _).2
    · exact (digit_ne _).2
    · exact (digit_ne _).2
    · exact encode_chars l x h

theorem byte_eq {n : Nat} {a : Byte} (h : n = a.val) : byte n = a := by
  subst h
  unfold byte
  apply Fin.ext
  simp [Fin.ofNat, Nat.mod_eq_of_lt a.isLt]

theorem decodeText_encode : ∀ l : List Byte, decodeText (encode l) = some l
  | [] => rfl
  | [a] => by
    have ha := a.isLt
    simp only [encode, decodeText, value_digit (n := a.val / 4) (by omega), value_digit (n := a.val % 4 * 16) (by omega), and_self, if_true]
    rw [byte_eq (a := a) (by omega)]
  | [a, b] => by
    have ha := a.isLt
    have hb := b.isLt
    simp only [encode, decodeText, value_digit (n := a.val / 4) (by omega), value_digit (n := a.val % 4 * 16 + b.val / 16) (by omega), value_digit (n := b.val % 16 * 4) (by omega),
      (digit_ne _).1, if_true, if_false]
    rw [byte_eq (a := a) (by omega), byte_eq (a := b) (by omega)]
  | a :: b :: c :: l => by
    have ha := a.isLt
    have hb := b.isLt
    have hc := c.isLt
    simp only [encode, decodeText, value_digit (n := a.val / 4) (by omega), value_digit (n := a.val % 4 * 16 + b.val / 16) (by omega),
      value_digit (n := b.val % 16 * 4 + c.val / 64) (by omega), value_digit (n := c.val % 64) (by omega), (digit_ne _).1, if_false, decodeText_encode l]
    rw [byte_eq (a := a) (by omega), byte_eq (a := b) (by omega), byte_eq (a := c) (by omega)]

theorem decode_encode (l : List Byte) : decode (encode l) = some l := by
  unfold decode
  rw [List.filter_eq_self.mpr]
  · exact decodeText_encode l
  · intro c hc
    have := encode_chars l c hc
    simp [this.1, this.2.1]

theorem colon_notin_encode (l : List Byte) : ':' ∉ encode l := fun h => (encode_chars l ':' h).2.2 rfl

end Pulumi.Secrets
