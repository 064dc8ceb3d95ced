import Verif.Json.Model

/-!
# Specification: JSON (RFC 8259) and what an object stands for
-/

namespace Pulumi.Json

/-- JSON values. Integers and other numbers are told apart as Python does: a number with a fraction or an exponent is a float. -/
inductive J (fl : Floats) where
  | null
  | bool (b : Bool)
  | int (n : Int)
  | float (x : fl.F)
  | str (s : Text)
  | arr (js : List (J fl))
  | obj (kvs : List (Text × J fl))

variable {fl : Floats}

mutual
/-- What an object stands for: tuples and other sequences are arrays, mappings are objects, an input type is the object of
its properties that are not `None`, under their Pulumi names. There is nothing for other objects. Only texts are names. -/
def meaning : Obj fl → Option (J fl)
  | .none => some .null
  | .bool b => some (.bool b)
  | .int n => some (.int n)
  | .float x => some (.float x)
  | .str s => some (.str s)
  | .seq os => (meaningList os).map .arr
  | .tuple os => (meaningList os).map .arr
  | .dict kvs => (meaningItems kvs).map .obj
  | .mapping kvs => (meaningItems kvs).map .obj
  | .input _ ps => (meaningProps ps).map .obj
  | .other => none
def meaningList : List (Obj fl) → Option (List (J fl))
  | [] => some []
  | o :: os => do
    let j ← meaning o
    let js ← meaningList os
    return j :: js
def meaningItems : List (Key fl × Obj fl) → Option (List (Text × J fl))
  | [] => some []
  | (.str k, o) :: kvs => do
    let j ← meaning o
    let js ← meaningItems kvs
    return (k, j) :: js
  | _ :: _ => none
def meaningProps : List (Text × Text × Obj fl) → Option (List (Text × J fl))
  | [] => some []
  | (_, _, .none) :: ps => meaningProps ps
  | (_, n, o) :: ps => do
    let j ← meaning o
    let js ← meaningProps ps
    return (n, j) :: js
end

mutual
/-- An input type, or a mapping that is no dict, at any depth. -/
def Obj.hasTyped : Obj fl → Bool
  | .input _ _ => true
  | .mapping _ => true
  | .seq os => listHasTyped os
  | .tuple os => listHasTyped os
  | .dict kvs => itemsHaveTyped kvs
  | _ => false
def listHasTyped : List (Obj fl) → Bool
  | [] => false
  | o :: os => o.hasTyped || listHasTyped os
def itemsHaveTyped : List (Key fl × Obj fl) → Bool
  | [] => false
  | (_, o) :: kvs => o.hasTyped || itemsHaveTyped kvs
end

mutual
/-- No tuple, at any depth, has an input type or another mapping inside, and all keys are texts. -/
def Obj.fine : Obj fl → Bool
  | .seq os => listFine os
  | .tuple os => listFine os && !listHasTyped os
  | .dict kvs => itemsFine kvs
  | .mapping kvs => itemsFine kvs
  | .input _ ps => propsFine ps
  | _ => true
def listFine : List (Obj fl) → Bool
  | [] => true
  | o :: os => o.fine && listFine os
def itemsFine : List (Key fl × Obj fl) → Bool
  | [] => true
  | (.str _, o) :: kvs => o.fine && itemsFine kvs
  | _ :: _ => false
def propsFine : List (Text × Text × Obj fl) → Bool
  | [] => true
  | (_, _, o) :: ps => o.fine && propsFine ps
end

/-! ## A JSON reader -/

/-- Whitespace. -/
def isWs (c : Char) : Bool := c = ' ' || c = '\n' || c = '\r' || c = '\t'

def skipWs (s : Text) : Text := s.dropWhile isWs

def hexValue (c : Char) : Option Nat :=
  if '0' ≤ c ∧ c ≤ '9' then some (c.toNat - 48)
  else if 'a' ≤ c ∧ c ≤ 'f' then some (c.toNat - 87)
  else if 'A' ≤ c ∧ c ≤ 'F' then some (c.toNat - 55)
  else none

/-- UTF-16 code units of a character. -/
def utf16 (c : Char) : List Nat :=
  if c.toNat < 65536 then [c.toNat] else [55296 + (c.toNat - 65536) / 1024, 56320 + (c.toNat - 65536) % 1024]

/-- The characters of UTF-16 code units; a lone surrogate is an error. -/
def fromUtf16 : List Nat → Option Text
  | [] => some []
  | u :: us =>
    if u < 55296 ∨ 57344 ≤ u then (fromUtf16 us).map (Char.ofNat u :: ·)
    else
      match us with
      | v :: vs =>
        if u < 56320 ∧ 56320 ≤ v ∧ v < 57344 then
          (fromUtf16 vs).map (Char.ofNat (65536 + (u - 55296) * 1024 + (v - 56320)) :: ·)
        else none
      | [] => none

/-- What a letter after a backslash stands for. -/
def simpleEscape (c : Char) : Option Char :=
  if c = '"' then some '"' else if c = '\\' then some '\\' else if c = '/' then some '/'
  else if c = 'b' then some '\x08' else if c = 'f' then some '\x0c' else if c = 'n' then some '\n'
  else if c = 'r' then some '\r' else if c = 't' then some '\t' else none

/-- The rest of a string, as UTF-16 code units: up to the quote; control characters are errors. -/
def readUnits : Text → Option (List Nat × Text)
  | [] => none
  | c :: s =>
    if c = '"' then some ([], s)
    else if c = '\\' then
      match s with
      | [] => none
      | e :: s =>
        if e = 'u' then
          match s with
          | a :: b :: c :: d :: s =>
            match hexValue a, hexValue b, hexValue c, hexValue d with
            | some a, some b, some c, some d => (readUnits s).map fun x => ((((a * 16 + b) * 16 + c) * 16 + d) :: x.1, x.2)
            | _, _, _, _ => none
          | _ => none
        else
          match simpleEscape e with
          | some x => (readUnits s).map fun y => (x.toNat :: y.1, y.2)
          | none => none
    else if c.toNat < 32 then none
    else (readUnits s).map fun x => (utf16 c ++ x.1, x.2)

/-- The rest of a string. -/
def readString (s : Text) : Option (Text × Text) := do
  let (us, r) ← readUnits s
  let t ← fromUtf16 us
  return (t, r)

def isDigit (c : Char) : Bool := decide ('0' ≤ c) && decide (c ≤ '9')

/-- The value of decimal digits. -/
def readNat : Text → Option Nat
  | [] => none
  | s => if s.all isDigit then some (s.foldl (fun n c => n * 10 + (c.toNat - 48)) 0) else none

/-- A number: with a fraction or an exponent a float, else digits without needless zeros, with a sign or without. -/
def readNumber (t : Text) : Option (J fl) :=
  if t.any (fun c => c = '.' || c = 'e' || c = 'E') then some (.float (fl.read t))
  else
    match t with
    | '-' :: d => if d.head? = some '0' ∧ d ≠ ['0'] then none else (readNat d).map fun n => .int (-n)
    | d => if d.head? = some '0' ∧ d ≠ ['0'] then none else (readNat d).map fun n => .int n

def isNumberChar (c : Char) : Bool := isDigit c || c = '-' || c = '+' || c = '.' || c = 'e' || c = 'E'

/-- A letter or a character of a number. -/
def isWordChar (c : Char) : Bool := isNumberChar c || (decide ('a' ≤ c) && decide (c ≤ 'z'))

/-- `null`, `true`, `false` or a number: letters and number characters up to anything else. -/
def readWord (s : Text) : Option (J fl × Text) :=
  let w := s.takeWhile isWordChar
  let r := s.dropWhile isWordChar
  if w = "null".toList then some (.null, r)
  else if w = "true".toList then some (.bool true, r)
  else if w = "false".toList then some (.bool false, r)
  else (readNumber w).map fun j => (j, r)

mutual
/-- A value at the head of the text, and the rest. The number bounds the depth of the recursion. -/
def readValue : Nat → Text → Option (J fl × Text)
  | 0, _ => none
  | n + 1, s =>
    match skipWs s with
    | [] => none
    | c :: r =>
      if c = '"' then (readString r).map fun x => (.str x.1, x.2)
      else if c = '[' then
        if (skipWs r).head? = some ']' then some (.arr [], (skipWs r).tail)
        else (readItems n r).map fun x => (.arr x.1, x.2)
      else if c = '{' then
        if (skipWs r).head? = some '}' then some (.obj [], (skipWs r).tail)
        else (readMembers n r).map fun x => (.obj x.1, x.2)
      else readWord (c :: r)
/-- `value, ..., value ]` -/
def readItems : Nat → Text → Option (List (J fl) × Text)
  | 0, _ => none
  | n + 1, s =>
    match readValue n s with
    | none => none
    | some (j, r) =>
      match skipWs r with
      | [] => none
      | c :: r =>
        if c = ']' then some ([j], r)
        else if c = ',' then (readItems n r).map fun x => (j :: x.1, x.2)
        else none
/-- `"name": value, ..., "name": value }` -/
def readMembers : Nat → Text → Option (List (Text × J fl) × Text)
  | 0, _ => none
  | n + 1, s =>
    match skipWs s with
    | [] => none
    | q :: s =>
      if q = '"' then
        match readString s with
        | none => none
        | some (k, s) =>
          match skipWs s with
          | [] => none
          | c :: s =>
            if c = ':' then
              match readValue n s with
              | none => none
              | some (j, r) =>
                match skipWs r with
                | [] => none
                | c :: r =>
                  if c = '}' then some ([(k, j)], r)
                  else if c = ',' then (readMembers n r).map fun x => ((k, j) :: x.1, x.2)
                  else none
            else none
      else none
end

/-- The value that a text is: nothing but whitespace may follow. -/
def readJson (fl : Floats) (t : Text) : Option (J fl) :=
  match readValue (2 * t.length + 2) t with
  | some (j, r) => if skipWs r = [] then some j else none
  | none => none

end Pulumi.Json
