import Verif.Paths.Model
import Verif.Checkpoint.Model
/-!
# The configuration of a stack: keys, values, secrets and paths

Models `sdk/go/common/resource/config/map.go`, `value.go`, `key.go` and the parts of `crypt.go` they use. Line numbers are of
`map.go` if no file is given.

Simplifications: an `interface{}` that `encoding/json` decodes is a `W`, its texts are those of a `Codec` (as in `Checkpoint`), Go
maps are association lists, and numbers are whole ones that a double holds. The tree that `Set` and `Remove` change is decoded
afresh from the text of a value and belongs to nobody else; the model rebuilds it along the path where the code changes it in
place, and it stores a new container once it is filled instead of before. YAML is not modelled, JSON is.
-/
namespace Pulumi.ConfigMap

open Wire (W)
open Checkpoint (Codec)
open Paths (Path parseInt intText)

/-- `config.Key` (key.go:27-30) -/
structure Key where
  ns : String
  name : String
deriving DecidableEq, Repr

/-- `config.Value` (value.go:28-32) -/
structure Value where
  value : String
  secure : Bool
  object : Bool
deriving DecidableEq, Repr

/-- Errors: a path that does not parse, is empty, does not start with a name, starts with an empty name; a text that is no JSON or
not the JSON of what is wanted; an array or a map was expected; an index out of range; the reserved key; an error of a crypter; a
key that does not parse; a failed assertion. -/
inductive Err
  | path (e : Paths.PathErr) | noPath | notName | emptyName | json | arrayExpected | mapExpected | range | reserved
  | crypt (msg : String) | noDecrypter | key | panic
deriving DecidableEq, Repr

/-! ## Keys -/

/-- the text before the first colon, and what follows it -/
def cut : List Char → Option (List Char × List Char)
  | [] => none
  | c :: cs => if c = ':' then some ([], cs) else (cut cs).map fun ab => (c :: ab.1, ab.2)

/-- `ParseKey` (key.go:38-63). With two colons, the module of a module member is what is before the second and its package what is
before the first (`sdk/go/common/tokens/tokens.go:71-90, 140-150, 179-200`). -/
def parseKey (s : String) : Except Err Key :=
  match cut s.toList with
  | none => .error .key
  | some (a, rest) =>
    match cut rest with
    | none => .ok ⟨String.ofList a, String.ofList rest⟩
    | some (b, c) =>
      match cut c with
      | some _ => .error .key
      | none => if b = "config".toList then .ok ⟨String.ofList a, String.ofList c⟩ else .error .key

/-- `String` (key.go:113-115) -/
def Key.text (k : Key) : String := k.ns ++ ":" ++ k.name

/-! ## Maps -/

/-- `m[k] = v` -/
def put {α β : Type} [DecidableEq α] (k : α) (v : β) : List (α × β) → List (α × β)
  | [] => [(k, v)]
  | (k', v') :: m => if k' = k then (k, v) :: m else (k', v') :: put k v m

/-- `delete(m, k)` -/
def drop {α β : Type} [DecidableEq α] (k : α) : List (α × β) → List (α × β)
  | [] => []
  | (k', v') :: m => if k' = k then drop k m else (k', v') :: drop k m

/-- `m[k]` -/
def find {α β : Type} [DecidableEq α] (k : α) : List (α × β) → Option β
  | [] => none
  | (k', v) :: m => if k' = k then some v else find k m

/-- `config.Map` (31) -/
abbrev Map := List (Key × Value)

/-! ## Secure values in objects -/

/-- `isSecureValue` (value.go:266-275) -/
def isSecure : W → Option String
  | .struct [(k, .str s)] => if k = "secure" then some s else none
  | _ => none

mutual
/-- `hasSecureValue` (value.go:244-263) -/
def hasSecure : W → Bool
  | .struct kvs => (isSecure (.struct kvs)).isSome || hasSecureKvs kvs
  | .list ws => hasSecureList ws
  | _ => false
def hasSecureList : List W → Bool
  | [] => false
  | w :: ws => hasSecure w || hasSecureList ws
def hasSecureKvs : List (String × W) → Bool
  | [] => false
  | (_, w) :: kvs => hasSecure w || hasSecureKvs kvs
end

/-- The map a secure value is written as (value.go:214-217). -/
def secureW (c : String) : W := .struct [("secure", .str c)]

/-! ## Paths -/

/-- `parseKeyPath` (411-433). The namespace of a key has no colon, so that `MustMakeKey` does not fail. -/
def parseKeyPath (k : Key) : Except Err (Path × Key) :=
  match Paths.parse k.name.toList with
  | .error e => .error (.path e)
  | .ok [] => .error .noPath
  | .ok (.idx _ :: _) => .error .notName
  | .ok (.name s :: rest) => if s = [] then .error .emptyName else .ok (.name s :: rest, ⟨k.ns, String.ofList s⟩)

/-- One round of the loop of `getValueForPath` (446-465). -/
def step : W → Paths.Key → Option W
  | .list ws, .idx i => if i < 0 then none else ws[i.toNat]?
  | .struct kvs, .name k => find (String.ofList k) kvs
  | _, _ => none

/-- `getValueForPath` (436-468), whose source is the root and not nil. -/
def getForPath : W → Path → Option W
  | w, [] => some w
  | w, k :: p =>
    match step w k with
    | none => none
    | some w' => getForPath w' p

/-- `getValue` (471-493); what is not in a map is nil. -/
def getValue : W → Paths.Key → Except Err W
  | .list ws, .idx i =>
    if i < 0 ∨ i > ws.length then .error .range
    else .ok (ws[i.toNat]?.getD .null)
  | .struct kvs, .name k => .ok ((find (String.ofList k) kvs).getD .null)
  | _, _ => .error .panic

/-- `setValue` (499-526), and what it stores in the parent. -/
def setValue : W → Paths.Key → W → Except Err W
  | .list ws, .idx i, v =>
    if i < 0 ∨ i > ws.length then .error .range
    else if i = ws.length then .ok (.list (ws ++ [v]))
    else .ok (.list (ws.set i.toNat v))
  | .struct kvs, .name k, v => .ok (.struct (put (String.ofList k) v kvs))
  | _, _, _ => .error .panic

/-- The container for the next key of a path (283-309): a new one if there is nothing, or what is there if it is of the right
kind. -/
def container : W → Paths.Key → Except Err W
  | .null, .idx _ => .ok (.list [])
  | .list ws, .idx _ => .ok (.list ws)
  | _, .idx _ => .error .arrayExpected
  | .null, .name _ => .ok (.struct [])
  | .struct kvs, .name _ => .ok (.struct kvs)
  | _, .name _ => .error .mapExpected

/-- The walk of `Set` (268-335): the value of `k` followed by `rest`, in this container, becomes `v`. -/
def setAt (v : W) : W → Paths.Key → Path → Except Err W
  | c, k, [] => do
    let c' ← setValue c k v
    if (isSecure c').isSome then throw .reserved
    return c'
  | c, k, k' :: rest => do
    let old ← getValue c k
    let inner ← container old k'
    let inner' ← setAt v inner k' rest
    setValue c k inner'

/-- The removal of `Remove` (180-213): `none` if there is nothing at the path. -/
def removeAt : W → Paths.Key → Path → Except Err (Option W)
  | .list ws, k, [] =>
    match k with
    | .idx i => if i < 0 ∨ i ≥ ws.length then .ok none else .ok (some (.list (ws.eraseIdx i.toNat)))
    | .name _ => .ok none
  | .struct kvs, k, [] =>
    match k with
    | .name k =>
      if (isSecure (.struct (drop (String.ofList k) kvs))).isSome then .error .reserved
      else .ok (some (.struct (drop (String.ofList k) kvs)))
    | .idx _ => .ok none
  | c, _, [] => .ok (some c)
  | c, k, k' :: rest =>
    match step c k with
    | none => .ok none
    | some inner => do
      match ← removeAt inner k' rest with
      | none => return none
      | some inner' => return some (← setValue c k inner')

/-! ## Values -/

/-- `unmarshalObjectJSON` (value.go:358-376), with what it makes of numbers. -/
def decode (J : Codec) (s : String) : Except Err W :=
  match J.parse s with
  | some w => .ok w
  | none => .error .json

/-- `ToObject` (value.go:135-140) -/
def Value.toObject (J : Codec) (v : Value) : Except Err W := if v.object then decode J v.value else .ok (.str v.value)

/-- `adjustObjectValue` (529-559). The value is not an object (318-327). -/
def adjust (v : Value) : W :=
  if v.secure then secureW v.value
  else if v.value = "false" then .bool false
  else if v.value = "true" then .bool true
  else if v.value.toList.length > 1 ∧ v.value.toList.head? = some '0' then .str v.value
  else match parseInt v.value.toList with
    | some i => .num i
    | none => .str v.value

/-- The value that `Set` stores (316-327). An object is read into a map, which JSON's null makes nil. -/
def adjusted (J : Codec) (v : Value) : Except Err W :=
  if v.object then
    match J.parse v.value with
    | some (.struct kvs) => .ok (.struct kvs)
    | some .null => .ok .null
    | _ => .error .json
  else .ok (adjust v)

/-- What `Get` returns for what it finds (117-139). -/
def found (J : Codec) (w : W) : Value :=
  match isSecure w with
  | some s => ⟨s, true, false⟩
  | none =>
    match w with
    | .str s => ⟨s, false, false⟩
    | .bool b => ⟨if b then "true" else "false", false, false⟩
    | .num i => ⟨String.ofList (intText i), false, false⟩
    | w => ⟨J.print w, hasSecure w, true⟩

/-- The temporary map with the root value (102-110, 170-178, 251-266). -/
def rootOf (J : Codec) (m : Map) (k : Key) : Except Err W :=
  match find k m with
  | none => .ok (.struct [])
  | some v => do
    let obj ← v.toObject J
    return .struct [(k.name, obj)]

/-- `Get` (83-140) -/
def Map.get (J : Codec) (m : Map) (k : Key) (path : Bool) : Except Err (Option Value) :=
  if !path then .ok (find k m)
  else do
    let (p, ck) ← parseKeyPath k
    if p.length = 1 then return find ck m
    let root ← rootOf J m ck
    return (getForPath root p).map (found J)

/-- lines 259-263: a string at the top may be overwritten -/
def forgetString : W → W
  | .struct [(k, .str _)] => .struct [(k, .null)]
  | w => w

/-- `Set` (232-349) -/
def Map.set (J : Codec) (m : Map) (k : Key) (v : Value) (path : Bool) : Except Err Map :=
  if !path then .ok (put k v m)
  else do
    let (p, ck) ← parseKeyPath k
    match p with
    | [] => throw .panic
    | [_] => return put ck v m
    | k0 :: rest =>
      let root ← rootOf J m ck
      -- the value is adjusted after the walk (316-327): which of two errors is reported is not modelled
      let w ← adjusted J v
      let root ← setAt w (forgetString root) k0 rest
      return put ck ⟨J.print ((step root k0).getD .null), v.secure, true⟩ m

/-- `UnmarshalJSON` of a value, that is `unmarshalValue` (value.go:170-203): JSON's null leaves a string empty. -/
def fromJson (J : Codec) (w : W) : Value :=
  match w with
  | .str s => ⟨s, false, false⟩
  | .null => ⟨"", false, false⟩
  | w =>
    match isSecure w with
    | some s => ⟨s, true, false⟩
    | none => ⟨J.print w, hasSecure w, true⟩

/-- `MarshalJSON` of a value, that is `marshalValue` (value.go:205-218) -/
def toJson (J : Codec) (v : Value) : Except Err W :=
  if v.object then decode J v.value
  else if !v.secure then .ok (.str v.value)
  else .ok (secureW v.value)

/-- `Remove` (143-229); a path that does not start with a name is ignored (155-161). -/
def Map.remove (J : Codec) (m : Map) (k : Key) (path : Bool) : Except Err Map :=
  if !path then .ok (drop k m)
  else
    match Paths.parse k.name.toList with
    | .error e => .error (.path e)
    | .ok [] => .ok m
    | .ok (.idx _ :: _) => .ok m
    | .ok (.name s :: rest) =>
      if s = [] then .ok m
      else
        match rest with
        | [] => .ok (drop ⟨k.ns, String.ofList s⟩ m)
        | rest => do
          let root ← rootOf J m ⟨k.ns, String.ofList s⟩
          match ← removeAt root (.name s) rest with
          | none => return m
          | some root => return put ⟨k.ns, String.ofList s⟩ (fromJson J ((step root (.name s)).getD .null)) m

/-- `MarshalJSON` (351-358), the members of the map it writes -/
def Map.marshal (J : Codec) : Map → Except Err (List (String × W))
  | [] => .ok []
  | (k, v) :: m => do
    let w ← toJson J v
    let rest ← Map.marshal J m
    return (k.text, w) :: rest

/-- `UnmarshalJSON` (360-378), of the members of the map it reads; the first of two keys that are the same wins, where in
the code any may. -/
def Map.unmarshal (J : Codec) : List (String × W) → Except Err Map
  | [] => .ok []
  | (s, w) :: rest => do
    let k ← parseKey s
    let m ← Map.unmarshal J rest
    return put k (fromJson J w) m

/-! ## Decrypting and encrypting -/

/-- `config.Decrypter`: `NopDecrypter`, which is told apart (value.go:60), or another. -/
inductive Decrypter
  | nop
  | real (f : String → Except Err String)

/-- `DecryptValue` -/
def Decrypter.decrypt : Decrypter → String → Except Err String
  | .nop, c => .ok c
  | .real f, c => f c

/-- `config.Encrypter`, with the state it has -/
abbrev Encrypter (σ : Type) := String → σ → Except Err (String × σ)

mutual
/-- `decryptObject` (value.go:325-356) -/
def decryptObject (dec : String → Except Err String) : W → Except Err W
  | .struct kvs => (decryptKvs dec kvs).map .struct
  | .list ws => (decryptList dec ws).map .list
  | w => .ok w
def decryptList (dec : String → Except Err String) : List W → Except Err (List W)
  | [] => .ok []
  | w :: ws => do
    let x ← match isSecure w with
      | some c => (dec c).map .str
      | none => decryptObject dec w
    let xs ← decryptList dec ws
    return x :: xs
def decryptKvs (dec : String → Except Err String) : List (String × W) → Except Err (List (String × W))
  | [] => .ok []
  | (k, w) :: kvs => do
    let x ← match isSecure w with
      | some c => (dec c).map .str
      | none => decryptObject dec w
    let xs ← decryptKvs dec kvs
    return (k, x) :: xs
end

mutual
/-- `reencryptObject` (value.go:277-322) -/
def reencryptObject {σ : Type} (dec : String → Except Err String) (enc : Encrypter σ) : W → σ → Except Err (W × σ)
  | .struct kvs, s => (reencryptKvs dec enc kvs s).map fun r => (.struct r.1, r.2)
  | .list ws, s => (reencryptList dec enc ws s).map fun r => (.list r.1, r.2)
  | w, s => .ok (w, s)
def reencryptList {σ : Type} (dec : String → Except Err String) (enc : Encrypter σ) : List W → σ → Except Err (List W × σ)
  | [], s => .ok ([], s)
  | w :: ws, s => do
    let (x, s) ← match isSecure w with
      | some c => do
        let raw ← dec c
        let (e, s) ← enc raw s
        pure (secureW e, s)
      | none => reencryptObject dec enc w s
    let (xs, s) ← reencryptList dec enc ws s
    return (x :: xs, s)
def reencryptKvs {σ : Type} (dec : String → Except Err String) (enc : Encrypter σ) :
    List (String × W) → σ → Except Err (List (String × W) × σ)
  | [], s => .ok ([], s)
  | (k, w) :: kvs, s => do
    let (x, s) ← match isSecure w with
      | some c => do
        let raw ← dec c
        let (e, s) ← enc raw s
        pure (secureW e, s)
      | none => reencryptObject dec enc w s
    let (xs, s) ← reencryptKvs dec enc kvs s
    return ((k, x) :: xs, s)
end

/-- `Value` (value.go:52-76); no decrypter is nil. -/
def Value.read (J : Codec) (v : Value) (dec : Option Decrypter) : Except Err String :=
  if !v.secure then .ok v.value
  else
    match dec with
    | none => .error .noDecrypter
    | some .nop => .ok v.value
    | some (.real f) =>
      if v.object then do
        let obj ← decode J v.value
        let x ← decryptObject f obj
        return J.print x
      else f v.value

/-- `Copy` (value.go:78-116) -/
def Value.copy {σ : Type} (J : Codec) (v : Value) (dec : Decrypter) (enc : Encrypter σ) (s : σ) : Except Err (Value × σ) := do
  let raw ← v.read J (some dec)
  if v.secure then
    if v.object then do
      let obj ← v.toObject J
      let (x, s) ← reencryptObject dec.decrypt enc obj s
      return (⟨J.print x, true, true⟩, s)
    else do
      let (e, s) ← enc raw s
      return (⟨e, true, false⟩, s)
  else return (⟨raw, false, v.object⟩, s)

/-- `Decrypt` of a map (34-44) -/
def Map.decrypt (J : Codec) (dec : Option Decrypter) : Map → Except Err (List (Key × String))
  | [] => .ok []
  | (k, v) :: m => do
    let t ← v.read J dec
    let rest ← Map.decrypt J dec m
    return (k, t) :: rest

/-- `Copy` of a map (46-58) -/
def Map.copy {σ : Type} (J : Codec) (dec : Decrypter) (enc : Encrypter σ) : Map → σ → Except Err (Map × σ)
  | [], s => .ok ([], s)
  | (k, v) :: m, s => do
    let (v', s) ← v.copy J dec enc s
    let (rest, s) ← Map.copy J dec enc m s
    return ((k, v') :: rest, s)

/-- `HasSecureValue` (72-80) -/
def Map.hasSecureValue (m : Map) : Bool := m.any fun kv => kv.2.secure

end Pulumi.ConfigMap
