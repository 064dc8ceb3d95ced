import Verif.Engine.Model
/-!
# How property values are written to a state file and read back

Models `pkg/resource/stack/deployment.go` (`SerializeProperties` 353-364, `SerializePropertyValue` 367-465,
`collectCiphertexts` 468-485, `DeserializeProperties` 528-539, `DeserializePropertyValue` 542-695),
`pkg/resource/stack/secrets.go` (69-159 `cachingSecretsManager`, `cachingCrypter`; 161-234 `mapDecrypter`), the crypters of
`sdk/go/common/resource/config/crypt.go` that they use (51-67 `nopCrypter`, 259-277 `DefaultBulkDecrypt`), and `apitype.SecretV1`
(`sdk/go/common/apitype/core.go:354-358`).

Simplifications: what `encoding/json` reads and writes are the values `W`; its texts are those of a `Codec`. Go maps are
association lists. Numbers are whole (those a double holds are written and read exactly by `encoding/json`; NaN and the
infinities, which it refuses to write, are left out). Which of several errors is reported is not modelled.
-/
namespace Pulumi.Checkpoint

open Wire (W)
open Engine (EV Blob RefId sigKey assetSig archiveSig secretSig resourceSig textField)

/-- Errors: of an encrypter or decrypter, a text that is no JSON, a value that is malformed, a signature that is not known,
a failed assertion. `deep` is none of the code's: a value is nested deeper than the model was asked to follow. -/
inductive Err
  | crypt (msg : String) | json | malformed | signature | version | panic | deep
deriving DecidableEq, Repr

/-- `json.Marshal` and `json.Unmarshal` into an `interface{}`. -/
structure Codec where
  print : W → String
  parse : String → Option W

/-- `config.Encrypter` (crypt.go:33-35), with the state it has: two encryptions of a text need not be the same. -/
abbrev Encrypter (σ : Type) := String → σ → Except Err (String × σ)

/-- `config.Decrypter` (crypt.go:38-43) -/
abbrev Decrypter := String → Except Err String

/-- `NopEncrypter` (crypt.go:65-67) -/
def nopEncrypter {σ : Type} : Encrypter σ := fun p s => .ok (p, s)

/-- `NopDecrypter` (crypt.go:57-59) -/
def nopDecrypter : Decrypter := fun c => .ok c

/-- `computedValuePlaceholder` (deployment.go:48) -/
def placeholder : String := "04da6b54-80e4-46f7-96ec-b56ff0331ba9"

/-! ## Writing -/

mutual
/-- `Serialize` of an asset or an archive (`sdk/go/common/resource/asset.go:227-244, 561-589`) -/
def blobW : Blob → W
  | .asset hash text path uri =>
    .struct ([(sigKey, .str assetSig)] ++ textField "hash" hash ++ textField "text" text ++ textField "path" path ++
      textField "uri" uri)
  | .archive hash path uri =>
    .struct ([(sigKey, .str archiveSig)] ++ textField "hash" hash ++ textField "path" path ++ textField "uri" uri)
  | .assets hash members path uri =>
    .struct ([(sigKey, .str archiveSig)] ++ textField "hash" hash ++ [("assets", .struct (membersW members))] ++
      textField "path" path ++ textField "uri" uri)
def membersW : List (String × Blob) → List (String × W)
  | [] => []
  | (k, b) :: rest => (k, blobW b) :: membersW rest
end

/-- `IDString` (`sdk/go/common/resource/properties.go:118-127`): the field `id` of a reference. -/
def idField : RefId → List (String × W)
  | .none => []
  | .known s => [("id", .str s)]
  | .unknown => [("id", .str "")]

/-- A resource reference (deployment.go:409-421). -/
def refW (urn : String) (id : RefId) (version : String) : W :=
  .struct ([(sigKey, .str resourceSig), ("urn", .str urn), ("packageVersion", .str version)] ++ idField id)

/-- `SecretV1` (core.go:354-358; deployment.go:450-460) -/
def secretW (showSecrets : Bool) (plaintext ciphertext : String) : W :=
  .struct ((sigKey, .str secretSig) ::
    (if showSecrets then textField "plaintext" plaintext else textField "ciphertext" ciphertext))

mutual
/-- `SerializePropertyValue` (deployment.go:367-465). The call through `encryptSecret` (437-444) is in the encrypter: see
`caching`. -/
def serialize {σ : Type} (J : Codec) (showSecrets : Bool) (enc : Encrypter σ) : EV → σ → Except Err (W × σ)
  | .null, s => .ok (.null, s)
  | .bool b, s => .ok (.bool b, s)
  | .num n, s => .ok (.num n, s)
  | .str t, s => .ok (.str t, s)
  | .array es, s => do
    let (ws, s) ← serializeList J showSecrets enc es s
    return (.list ws, s)
  | .object kvs, s => do
    let (ws, s) ← serializeKvs J showSecrets enc kvs s
    return (.struct ws, s)
  | .blob b, s => .ok (blobW b, s)
  | .computed _, s => .ok (.str placeholder, s)
  | .output .., s => .ok (.str placeholder, s)
  | .ref urn id version, s => .ok (refW urn id version, s)
  | .secret e, s => do
    let (w, s) ← serialize J showSecrets nopEncrypter e s
    let (c, s) ← enc (J.print w) s
    return (secretW showSecrets (J.print w) c, s)
/-- deployment.go:384-394 -/
def serializeList {σ : Type} (J : Codec) (showSecrets : Bool) (enc : Encrypter σ) :
    List EV → σ → Except Err (List W × σ)
  | [], s => .ok ([], s)
  | e :: es, s => do
    let (w, s) ← serialize J showSecrets enc e s
    let (ws, s) ← serializeList J showSecrets enc es s
    return (w :: ws, s)
/-- `SerializeProperties` (deployment.go:353-364) -/
def serializeKvs {σ : Type} (J : Codec) (showSecrets : Bool) (enc : Encrypter σ) :
    List (String × EV) → σ → Except Err (List (String × W) × σ)
  | [], s => .ok ([], s)
  | (k, e) :: kvs, s => do
    let (w, s) ← serialize J showSecrets enc e s
    let (ws, s) ← serializeKvs J showSecrets enc kvs s
    return ((k, w) :: ws, s)
end

/-! ## Reading -/

/-- `x.(string)` -/
def asStr : Option EV → Option String
  | some (.str s) => some s
  | _ => none

/-- The element of a secret (deployment.go:613-622). -/
def openSecret (J : Codec) (read : W → Except Err EV) (plaintext : String) : Except Err EV :=
  match J.parse plaintext with
  | none => .error .json
  | some w => (read w).map .secret

/-- A secret (deployment.go:590-628). The ciphertext that the plaintext is encrypted to only goes to the cache of a
`cachingCrypter`; see `caching`. -/
def readSecret (J : Codec) (dec enc : Decrypter) (read : W → Except Err EV) (obj : List (String × EV)) : Except Err EV :=
  match asStr (obj.lookup "ciphertext"), asStr (obj.lookup "plaintext") with
  | some c, none => do
    let p ← dec c
    openSecret J read p
  | none, some p => do
    let _ ← enc p
    openSecret J read p
  | _, _ => .error .malformed

/-- `MakeCustomResourceReference` (properties.go:244-257): an empty id is unknown. -/
def customId (s : String) : RefId := if s = "" then .unknown else .known s

/-- `deserializeID` (deployment.go:645-672): an id is a string, or what an old version of the code wrote. -/
def readId (obj : List (String × EV)) : Except Err RefId :=
  match obj.lookup "id" with
  | none => .ok .none
  | some (.str s) => .ok (customId s)
  | some (.object kvs) =>
    match kvs.lookup "V" with
    | none => .ok .none
    | some .null => .ok .none
    | some (.str s) => .ok (customId s)
    | some (.object _) => .ok .unknown
    | some _ => .error .malformed
  | some _ => .error .malformed

/-- deployment.go:630-637 -/
def readVersion (obj : List (String × EV)) : Except Err String :=
  match obj.lookup "packageVersion" with
  | none => .ok ""
  | some (.str s) => .ok s
  | some _ => .error .malformed

/-- A resource reference (deployment.go:629-680). -/
def readRef (obj : List (String × EV)) : Except Err EV := do
  let version ← readVersion obj
  match asStr (obj.lookup "urn") with
  | none => .error .malformed
  | some urn =>
    let id ← readId obj
    return .ref urn id version

/-- Errors of `DeserializeAsset` and `DeserializeArchive`. -/
def blobResult : Except Engine.Err Blob → Except Err EV
  | .ok b => .ok (.blob b)
  | .error _ => .error .malformed

/-- What an object stands for whose properties have been read (deployment.go:572-688). -/
def recover (J : Codec) (dec enc : Decrypter) (read : W → Except Err EV) (obj : List (String × EV)) : Except Err EV :=
  match obj.lookup sigKey with
  | none => .ok (.object obj)
  | some (.str s) =>
    if s = assetSig then blobResult (Engine.deserializeAsset obj)
    else if s = archiveSig then blobResult (Engine.deserializeArchive obj)
    else if s = secretSig then readSecret J dec enc read obj
    else if s = resourceSig then readRef obj
    else .error .signature
  | some _ => .error .signature

/-- deployment.go:556-564 -/
def each (f : W → Except Err EV) : List W → Except Err (List EV)
  | [] => .ok []
  | w :: ws => do
    let e ← f w
    let es ← each f ws
    return e :: es

/-- `DeserializeProperties` (deployment.go:528-539) -/
def eachProp (f : W → Except Err EV) : List (String × W) → Except Err (List (String × EV))
  | [] => .ok []
  | (k, w) :: kvs => do
    let e ← f w
    let es ← eachProp f kvs
    return (k, e) :: es

/-- `DeserializePropertyValue` (deployment.go:542-695) of a value that is nested at most so deep, the values in secrets
counted. `enc` tells whether the encrypter can encrypt. -/
def deserialize (J : Codec) : Nat → Decrypter → Decrypter → W → Except Err EV
  | 0, _, _, _ => .error .deep
  | n + 1, dec, enc, w =>
    match w with
    | .null => .ok .null
    | .bool b => .ok (.bool b)
    | .num k => .ok (.num k)
    | .str s => .ok (if s = placeholder then .computed (.str "") else .str s)
    | .list ws => (each (deserialize J n dec enc) ws).map .array
    | .struct kvs => do
      let obj ← eachProp (deserialize J n dec enc) kvs
      recover J dec enc (deserialize J n nopDecrypter enc) obj

/-! ## Decrypting all at once -/

mutual
/-- `collectCiphertexts` (deployment.go:468-485) -/
def collect : W → List String
  | .list ws => collectList ws
  | .struct kvs =>
    match kvs.lookup sigKey with
    | some (.str s) =>
      if s = secretSig then
        match kvs.lookup "ciphertext" with
        | some (.str c) => [c]
        | _ => []
      else collectKvs kvs
    | _ => collectKvs kvs
  | _ => []
def collectList : List W → List String
  | [] => []
  | w :: ws => collect w ++ collectList ws
def collectKvs : List (String × W) → List String
  | [] => []
  | (_, w) :: kvs => collect w ++ collectKvs kvs
end

/-- `DefaultBulkDecrypt` (crypt.go:259-277): the texts that ciphertexts stand for, or the error of one. -/
def bulkDecrypt (dec : Decrypter) : List String → Except Err (List (String × String))
  | [] => .ok []
  | c :: cs => do
    let p ← dec c
    let rest ← bulkDecrypt dec cs
    return (c, p) :: rest

/-- `mapDecrypter.DecryptValue` (secrets.go:180-197): a text that is in the cache is not decrypted. That a text that is not
goes there afterwards is left out: decrypting it again gives the same. -/
def mapDecrypter (cache : List (String × String)) (dec : Decrypter) : Decrypter := fun c =>
  match cache.lookup c with
  | some p => .ok p
  | none => dec c

/-! ## Encrypting no secret twice -/

/-- A `cachingCrypter` (secrets.go:119-123) and the encrypter in it. Which secret is being encrypted, that is the address of
its `resource.Secret`, is not in a property value of the model: a function gives it for the first, second, ... secret that
is encrypted, and `next` counts them. -/
structure Cache (σ : Type) where
  entries : List (Nat × String × String)
  inner : σ
  next : Nat

/-- A call of the encrypter in it, and `insert` (secrets.go:148-159). -/
def encryptAfresh {σ : Type} (address : Nat) (enc : Encrypter σ) : Encrypter (Cache σ) := fun p s => do
  let (c, inner) ← enc p s.inner
  return (c, { entries := (address, p, c) :: s.entries, inner := inner, next := s.next + 1 })

/-- `encryptSecret` (secrets.go:138-154) -/
def caching {σ : Type} (address : Nat → Nat) (enc : Encrypter σ) : Encrypter (Cache σ) := fun p s =>
  match s.entries.lookup (address s.next) with
  | some (p', c) => if p' = p then .ok (c, { s with next := s.next + 1 }) else encryptAfresh (address s.next) enc p s
  | none => encryptAfresh (address s.next) enc p s

end Pulumi.Checkpoint
