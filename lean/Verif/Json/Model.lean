/-!
# `pulumi.runtime.to_json`

Models `runtime/_json.py` and, of Python's `json.dumps`, what it writes with its default settings (`json/encoder.py`).

Simplified: floats are a type of their own with `repr` (`Floats`); `str` has no lone surrogates; objects have no cycles; a
`str` or `int` subclass is what it is a subclass of.
-/

namespace Pulumi.Json

abbrev Text := List Char

/-- Finite floats, of which only `repr` matters: it is made of digits, signs, `.` and `e`, has one of the last two, and tells
apart different floats. -/
structure Floats where
  F : Type
  repr : F → Text
  read : Text → F
  read_repr : ∀ x, read (repr x) = x
  shape : ∀ x, ∀ c ∈ repr x, c ∈ "0123456789+-.e".toList
  point : ∀ x, ∃ c ∈ repr x, c = '.' ∨ c = 'e'

variable (fl : Floats)

/-- Keys of dicts. -/
inductive Key where
  | str (s : Text)
  | int (n : Int)
  | bool (b : Bool)
  | none
  | float (x : fl.F)
  | other

/-- Objects: a sequence that is not a tuple (nor text or bytes), a tuple, a dict, another mapping, an instance of an input
type (a dict or not) with its properties (Python name, Pulumi name, value), and objects that JSON has nothing for. -/
inductive Obj where
  | none
  | bool (b : Bool)
  | int (n : Int)
  | float (x : fl.F)
  | str (s : Text)
  | seq (os : List Obj)
  | tuple (os : List Obj)
  | dict (kvs : List (Key fl × Obj))
  | mapping (kvs : List (Key fl × Obj))
  | input (isDict : Bool) (props : List (Text × Text × Obj))
  | other

variable {fl}

/-- `v is None` -/
def Obj.isNone : Obj fl → Bool
  | .none => true
  | _ => false

mutual
/-- `_to_json_serializable_obj` (runtime/_json.py:22-39): tuples are returned as they are. The properties that
`input_type_to_dict` (_types.py:509-525) keeps are those that are not `None`; the Pulumi names of a class are taken to be
different. -/
def serializable : Obj fl → Obj fl
  | .seq os => .seq (serializableList os)
  | .input _ props => .dict (serializableProps props)
  | .dict kvs => .dict (serializableItems kvs)
  | .mapping kvs => .dict (serializableItems kvs)
  | o => o
def serializableList : List (Obj fl) → List (Obj fl)
  | [] => []
  | o :: os => serializable o :: serializableList os
def serializableItems : List (Key fl × Obj fl) → List (Key fl × Obj fl)
  | [] => []
  | (k, o) :: kvs => (k, serializable o) :: serializableItems kvs
def serializableProps : List (Text × Text × Obj fl) → List (Key fl × Obj fl)
  | [] => []
  | (_, n, o) :: ps => if o.isNone then serializableProps ps else (.str n, serializable o) :: serializableProps ps
end

/-- `TypeError` -/
inductive Err | typeError
  deriving DecidableEq

/-! ## `json.dumps` -/

/-- Digits of a number, last first. -/
def revDigits (n : Nat) : Text :=
  if n < 10 then [Char.ofNat (48 + n)] else Char.ofNat (48 + n % 10) :: revDigits (n / 10)
termination_by n
decreasing_by omega

/-- `int.__repr__` -/
def natText (n : Nat) : Text := (revDigits n).reverse

def intText : Int → Text
  | .ofNat n => natText n
  | .negSucc n => '-' :: natText (n + 1)

/-- A hexadecimal digit of `'{0:04x}'`. -/
def hexDigit (n : Nat) : Char := if n < 10 then Char.ofNat (48 + n) else Char.ofNat (87 + n)

/-- `'\\u{0:04x}'.format(n)` (json/encoder.py:59-65) -/
def unicodeEscape (n : Nat) : Text :=
  ['\\', 'u', hexDigit (n / 4096 % 16), hexDigit (n / 256 % 16), hexDigit (n / 16 % 16), hexDigit (n % 16)]

/-- `replace` of `py_encode_basestring_ascii` (json/encoder.py:52-66) -/
def escapeChar (c : Char) : Text :=
  if c = '\\' then ['\\', '\\']
  else if c = '"' then ['\\', '"']
  else if c = '\x08' then ['\\', 'b']
  else if c = '\x0c' then ['\\', 'f']
  else if c = '\n' then ['\\', 'n']
  else if c = '\r' then ['\\', 'r']
  else if c = '\t' then ['\\', 't']
  else if 32 ≤ c.toNat ∧ c.toNat ≤ 126 then [c]
  else if c.toNat < 65536 then unicodeEscape c.toNat
  else unicodeEscape (55296 + (c.toNat - 65536) / 1024) ++ unicodeEscape (56320 + (c.toNat - 65536) % 1024)

/-- `py_encode_basestring_ascii` (json/encoder.py:49-67) -/
def strText (s : Text) : Text := '"' :: s.flatMap escapeChar ++ ['"']

def boolText (b : Bool) : Text := if b then "true".toList else "false".toList

/-- The text of a key (json/encoder.py:353-371): numbers, booleans and `None` become texts, other keys raise `TypeError`. -/
def keyText : Key fl → Except Err Text
  | .str s => .ok s
  | .int n => .ok (intText n)
  | .bool b => .ok (boolText b)
  | .none => .ok "null".toList
  | .float x => .ok (fl.repr x)
  | .other => .error .typeError

mutual
/-- `_iterencode` (json/encoder.py:414-442): tuples are written like lists, of mappings only dicts are written, a dict
subclass with the items it holds. -/
def encode : Obj fl → Except Err Text
  | .none => .ok "null".toList
  | .bool b => .ok (boolText b)
  | .int n => .ok (intText n)
  | .float x => .ok (fl.repr x)
  | .str s => .ok (strText s)
  | .seq os => do
    let t ← encodeList os
    return '[' :: t ++ [']']
  | .tuple os => do
    let t ← encodeList os
    return '[' :: t ++ [']']
  | .dict kvs => do
    let t ← encodeItems kvs
    return '{' :: t ++ ['}']
  | .mapping _ => .error .typeError
  | .input true ps => do
    let t ← encodeProps ps
    return '{' :: t ++ ['}']
  | .input false _ => .error .typeError
  | .other => .error .typeError
/-- Items, separated by `", "`. -/
def encodeList : List (Obj fl) → Except Err Text
  | [] => .ok []
  | [o] => encode o
  | o :: os => do
    let t ← encode o
    let ts ← encodeList os
    return t ++ [',', ' '] ++ ts
/-- `"key": value`, separated by `", "`. -/
def encodeItems : List (Key fl × Obj fl) → Except Err Text
  | [] => .ok []
  | [(k, o)] => do
    let kt ← keyText k
    let t ← encode o
    return strText kt ++ [':', ' '] ++ t
  | (k, o) :: kvs => do
    let kt ← keyText k
    let t ← encode o
    let ts ← encodeItems kvs
    return strText kt ++ [':', ' '] ++ t ++ [',', ' '] ++ ts
/-- The items that an input type that is a dict holds are under the Python names. -/
def encodeProps : List (Text × Text × Obj fl) → Except Err Text
  | [] => .ok []
  | [(k, _, o)] => do
    let t ← encode o
    return strText k ++ [':', ' '] ++ t
  | (k, _, o) :: ps => do
    let t ← encode o
    let ts ← encodeProps ps
    return strText k ++ [':', ' '] ++ t ++ [',', ' '] ++ ts
end

/-- `to_json` (runtime/_json.py:42-47) -/
def toJson (o : Obj fl) : Except Err Text := encode (serializable o)

end Pulumi.Json
