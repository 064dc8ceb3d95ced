import Verif.Wire.Model
/-!
# The engine's side of the wire

Models the engine's codec for property values, the counterpart of `runtime/rpc.py`: `sdk/go/common/resource/plugin/rpc.go`
(options 31-43, sentinels 45-67, `MarshalProperties` 70-91, `MarshalPropertyValue` 94-217, `marshalUnknownProperty`
220-252, `UnmarshalProperties` 255-286, `UnmarshalPropertyValue` 289-502, `unmarshalUnknownPropertyValue` 504-528,
`unmarshalSecretPropertyValue` 530-537, `MarshalAsset`, `MarshalArchive` 567-608), and what it uses of
`sdk/go/common/resource/asset.go` (51-62, 227-288, 452-464, 561-661) and `sdk/go/common/resource/properties.go`
(73-127, 224-256, 446-510, 621-646).

Simplifications: Go maps are association lists; which of several errors is reported (the code goes by sorted keys) is not
modelled: it is the first in the order of the list. Hashes are what the asset says: `ComputeAssetHashes`, which reads
files, and `ElideAssetContents`, which programs are not given, are left out.
-/
namespace Pulumi.Engine

open Wire (W)

/-- Errors of the codec; `panic` is a failed assertion. -/
inductive Err
  | unknown | asset | malformed | signature | panic
deriving DecidableEq, Repr

/-- `MarshalOptions` (rpc.go:31-43), without the label and the two options named above. -/
structure Opts where
  skipNulls : Bool := false
  keepUnknowns : Bool := false
  rejectUnknowns : Bool := false
  keepSecrets : Bool := false
  rejectAssets : Bool := false
  keepResources : Bool := false
  skipInternalKeys : Bool := false
  keepOutputValues : Bool := false

/-- `Asset` (asset.go:51-62) and `Archive` (asset.go:452-464): an archive whose `Assets` is nil, and one whose `Assets`
is not. Fields that are not given are empty strings. -/
inductive Blob
  | asset (hash text path uri : String)
  | archive (hash path uri : String)
  | assets (hash : String) (members : List (String × Blob)) (path uri : String)

/-- `ID` of a `ResourceReference` (properties.go:112-116): null, a string, or computed. -/
inductive RefId
  | none | known (s : String) | unknown
deriving DecidableEq, Repr

/-- `PropertyValue` (properties.go:73-127). -/
inductive EV
  | null
  | bool (b : Bool)
  | num (n : Int)
  | str (s : String)
  | array (xs : List EV)
  | object (kvs : List (String × EV))
  | blob (b : Blob)
  | computed (elem : EV)
  | secret (elem : EV)
  | ref (urn : String) (id : RefId) (version : String)
  | output (elem : EV) (known secret : Bool) (deps : List String)

/-- `IsNull` (properties.go:446-448) -/
def EV.isNull : EV → Bool
  | .null => true
  | _ => false

/-! ## Constants -/

/-- rpc.go:49 -/
def unknownBool : String := "1c4a061d-8072-4f0a-a4cb-0ff528b18fe7"
/-- rpc.go:52 -/
def unknownNumber : String := "3eeb2bf0-c639-47a8-9e75-3b44932eb421"
/-- rpc.go:55 -/
def unknownString : String := "04da6b54-80e4-46f7-96ec-b56ff0331ba9"
/-- rpc.go:58 -/
def unknownArray : String := "6a19a0b0-7e62-4c92-b797-7f8e31da9cc2"
/-- rpc.go:61 -/
def unknownAsset : String := "030794c1-ac77-496b-92df-f27374a8bd58"
/-- rpc.go:64 -/
def unknownArchive : String := "e48ece36-62e2-4504-bad9-02848725956a"
/-- rpc.go:67 -/
def unknownObject : String := "dd056dcd-154b-4c76-9bd3-c8f88648b5ff"

/-- `SigKey` (properties.go:623) -/
def sigKey : String := "4dabf18193072939515e22adb298388d"
/-- `AssetSig` (asset.go:65) -/
def assetSig : String := "c44067f5952c0a294b673a41bacd8c17"
/-- `ArchiveSig` (asset.go:467) -/
def archiveSig : String := "0def7320c3a5731c473e5ecbe6d01bc7"
/-- `SecretSig` (properties.go:634) -/
def secretSig : String := "1b47061264138c4ac30d75fd1eb44270"
/-- `ResourceReferenceSig` (properties.go:637) -/
def resourceSig : String := "5cf8f73096256a8f31e491e813e4eb8e"
/-- `OutputValueSig` (properties.go:640) -/
def outputSig : String := "d0e6a833031e9bbcd3f4e8bde6ca49a4"

/-- `IsInternalPropertyKey` (properties.go:644-646) -/
def isInternalKey (k : String) : Bool := ['_', '_'].isPrefixOf k.toList

/-! ## Unmarshaling -/

/-- `unmarshalUnknownPropertyValue` (rpc.go:504-528): the element of the computed value that a sentinel stands for. -/
def sentinel (s : String) : Option EV :=
  if s = unknownBool then some (.bool false)
  else if s = unknownNumber then some (.num 0)
  else if s = unknownString then some (.str "")
  else if s = unknownArray then some (.array [])
  else if s = unknownAsset then some (.blob (.asset "" "" "" ""))
  else if s = unknownArchive then some (.blob (.archive "" "" ""))
  else if s = unknownObject then some (.object [])
  else none

/-- A string (rpc.go:303-315); `none` is the nil pointer, which callers skip. -/
def unmarshalStr (o : Opts) (s : String) : Except Err (Option EV) :=
  match sentinel s with
  | some elem =>
    if o.rejectUnknowns then .error .unknown
    else if o.keepUnknowns then .ok (some (.computed elem))
    else .ok none
  | none => .ok (some (.str s))

/-- A field of an asset or archive that has to be a string, if it is there (asset.go:254-285). -/
def strField (obj : List (String × EV)) (k : String) : Except Err String :=
  match obj.lookup k with
  | none => .ok ""
  | some (.str s) => .ok s
  | some _ => .error .malformed

/-- `DeserializeAsset` (asset.go:247-288) of an object with the signature. -/
def deserializeAsset (obj : List (String × EV)) : Except Err Blob := do
  let hash ← strField obj "hash"
  let text ← strField obj "text"
  let path ← strField obj "path"
  let uri ← strField obj "uri"
  return .asset hash text path uri

/-- The members of an archive (asset.go:616-641). A member that is still an object has no signature, so that neither
`DeserializeAsset` nor `DeserializeArchive` takes it. -/
def archiveMembers : List (String × EV) → Except Err (List (String × Blob))
  | [] => .ok []
  | (k, .blob b) :: rest => (archiveMembers rest).map ((k, b) :: ·)
  | _ :: _ => .error .malformed

/-- `assets` of an archive (asset.go:607-643): absent, null, an object, or wrong. -/
def archiveAssets (obj : List (String × EV)) : Except Err (Option (List (String × Blob))) :=
  match obj.lookup "assets" with
  | none => .ok none
  | some .null => .ok (some [])
  | some (.object kvs) => (archiveMembers kvs).map some
  | some _ => .error .malformed

/-- `DeserializeArchive` (asset.go:592-661) of an object with the signature. -/
def deserializeArchive (obj : List (String × EV)) : Except Err Blob := do
  let hash ← strField obj "hash"
  let assets ← archiveAssets obj
  let path ← strField obj "path"
  let uri ← strField obj "uri"
  match assets with
  | some ms => return .assets hash ms path uri
  | none => return .archive hash path uri

/-- `unmarshalSecretPropertyValue` (rpc.go:530-537) -/
def secretValue (o : Opts) (v : EV) : EV := if o.keepSecrets then .secret v else v

/-- The fields `id` and `hasID` of a reference (rpc.go:401-412): `MakeCustomResourceReference` (properties.go:246-257)
takes an empty id for an unknown one. -/
def refId (obj : List (String × EV)) : Except Err RefId :=
  match obj.lookup "id" with
  | none => .ok .none
  | some (.str s) => .ok (if s = "" then .unknown else .known s)
  | some (.computed _) => .ok .unknown
  | some _ => .error .malformed

/-- `urn` (rpc.go:393-399) -/
def refUrn (obj : List (String × EV)) : Except Err String :=
  match obj.lookup "urn" with
  | some (.str s) => .ok s
  | _ => .error .malformed

/-- `packageVersion` (rpc.go:414-420) -/
def refVersion (obj : List (String × EV)) : Except Err String :=
  match obj.lookup "packageVersion" with
  | none => .ok ""
  | some (.str s) => .ok s
  | some _ => .error .malformed

/-- A reference whose resource is not kept (rpc.go:422-436): its id or its URN. -/
def plainRef (o : Opts) (urn : String) : RefId → Except Err (Option EV)
  | .none => .ok (some (.str urn))
  | .known s => .ok (some (.str s))
  | .unknown => if o.keepUnknowns then unmarshalStr o unknownString else .ok (some (.str ""))

/-- A resource reference (rpc.go:392-444). -/
def recoverRef (o : Opts) (obj : List (String × EV)) : Except Err (Option EV) := do
  let urn ← refUrn obj
  let id ← refId obj
  let version ← refVersion obj
  if o.keepResources then return some (.ref urn id version) else plainRef o urn id

/-- `secret` of an output value (rpc.go:448-454). -/
def outSecret (obj : List (String × EV)) : Except Err Bool :=
  match obj.lookup "secret" with
  | none => .ok false
  | some (.bool b) => .ok b
  | some _ => .error .malformed

/-- The elements of `dependencies` (rpc.go:477-484). -/
def depUrns : List EV → Except Err (List String)
  | [] => .ok []
  | .str s :: vs => (depUrns vs).map (s :: ·)
  | _ :: _ => .error .malformed

/-- `dependencies` of an output value (rpc.go:472-485). -/
def outDeps (obj : List (String × EV)) : Except Err (List String) :=
  match obj.lookup "dependencies" with
  | none => .ok []
  | some (.array vs) => depUrns vs
  | some _ => .error .malformed

/-- An output value that is not kept (rpc.go:456-470): its value, or an unknown one, possibly secret. -/
def plainOutput (o : Opts) (value : Option EV) (secret : Bool) : Except Err (Option EV) := do
  let result ← match value with
    | some v => .ok (some v)
    | none => unmarshalStr o unknownString
  return if secret then result.map (secretValue o) else result

/-- An output value (rpc.go:445-493); `Element` of an unknown one is the zero value, which is null. -/
def recoverOutput (o : Opts) (obj : List (String × EV)) : Except Err (Option EV) := do
  let secret ← outSecret obj
  if o.keepOutputValues then
    let deps ← outDeps obj
    return some (.output ((obj.lookup "value").getD .null) (obj.lookup "value").isSome secret deps)
  else plainOutput o (obj.lookup "value") secret

/-- What an object that was unmarshaled stands for (rpc.go:340-496). -/
def recover (o : Opts) (obj : List (String × EV)) : Except Err (Option EV) :=
  match obj.lookup sigKey with
  | none => .ok (some (.object obj))
  | some (.str s) =>
    if s = assetSig then
      if o.rejectAssets then .error .asset else (deserializeAsset obj).map fun b => some (.blob b)
    else if s = archiveSig then
      if o.rejectAssets then .error .asset else (deserializeArchive obj).map fun b => some (.blob b)
    else if s = secretSig then
      match obj.lookup "value" with
      | none => .error .malformed
      | some v => .ok (some (secretValue o v))
    else if s = resourceSig then recoverRef o obj
    else if s = outputSig then recoverOutput o obj
    else .error .signature
  | some _ => .error .signature

/-- Whether `UnmarshalProperties` and `MarshalProperties` leave out a property (rpc.go:275-279, 75-79). -/
def skips (o : Opts) (k : String) (null : Bool) : Bool :=
  (o.skipNulls && null) || (o.skipInternalKeys && isInternalKey k)

mutual
/-- `UnmarshalPropertyValue` (rpc.go:289-502) -/
def unmarshal (o : Opts) : W → Except Err (Option EV)
  | .null => .ok (some .null)
  | .bool b => .ok (some (.bool b))
  | .num n => .ok (some (.num n))
  | .str s => unmarshalStr o s
  | .list xs => (unmarshalList o xs).map fun es => some (.array es)
  | .struct kvs => do
    let obj ← unmarshalKvs o kvs
    recover o obj
/-- rpc.go:316-332: an element that is skipped is the zero value, which is null. -/
def unmarshalList (o : Opts) : List W → Except Err (List EV)
  | [] => .ok []
  | x :: xs => do
    let e ← unmarshal o x
    let es ← unmarshalList o xs
    return e.getD .null :: es
/-- `UnmarshalProperties` (rpc.go:255-286) -/
def unmarshalKvs (o : Opts) : List (String × W) → Except Err (List (String × EV))
  | [] => .ok []
  | (k, x) :: kvs => do
    let e ← unmarshal o x
    let es ← unmarshalKvs o kvs
    match e with
    | none => return es
    | some v => return if skips o k v.isNull then es else (k, v) :: es
end

/-! ## Marshaling -/

/-- A string field that is written if it is not empty (asset.go:231-242, 565-567, 582-587). -/
def textField (k s : String) : List (String × W) := if s = "" then [] else [(k, .str s)]

mutual
/-- `MarshalAsset` and `MarshalArchive` (rpc.go:567-608) with `Serialize` (asset.go:227-244, 561-589): an object of
strings, and for the members of an archive an object of such objects, from which `SkipInternalKeys` takes names. -/
def marshalBlob (o : Opts) : Blob → W
  | .asset hash text path uri =>
    .struct ([(sigKey, .str assetSig)] ++ textField "hash" hash ++ textField "text" text ++ textField "path" path ++
      textField "uri" uri)
  | .archive hash path uri =>
    .struct ([(sigKey, .str archiveSig)] ++ textField "hash" hash ++ textField "path" path ++ textField "uri" uri)
  | .assets hash members path uri =>
    .struct ([(sigKey, .str archiveSig)] ++ textField "hash" hash ++ [("assets", .struct (marshalMembers o members))] ++
      textField "path" path ++ textField "uri" uri)
def marshalMembers (o : Opts) : List (String × Blob) → List (String × W)
  | [] => []
  | (k, b) :: rest => if skips o k false then marshalMembers o rest else (k, marshalBlob o b) :: marshalMembers o rest
end

/-- `marshalUnknownProperty` (rpc.go:220-252): a secret or a reference as the element is a failed assertion. -/
def marshalUnknown : EV → Except Err W
  | .bool _ => .ok (.str unknownBool)
  | .num _ => .ok (.str unknownNumber)
  | .str _ => .ok (.str unknownString)
  | .array _ => .ok (.str unknownArray)
  | .blob (.asset ..) => .ok (.str unknownAsset)
  | .blob _ => .ok (.str unknownArchive)
  | .object _ => .ok (.str unknownObject)
  | .computed e => marshalUnknown e
  | .output e _ _ _ => marshalUnknown e
  | .null => .ok .null
  | .secret _ => .error .panic
  | .ref .. => .error .panic

/-- A computed value with this element (rpc.go:144-150). -/
def marshalComputed (o : Opts) (elem : EV) : Except Err (Option W) :=
  if o.rejectUnknowns then .error .unknown
  else if o.keepUnknowns then (marshalUnknown elem).map some
  else .ok none

/-- A field of an object that is marshaled: nothing if it is nil, or null and nulls are skipped. -/
def field (o : Opts) (k : String) (null : Bool) : Option W → List (String × W)
  | none => []
  | some w => if skips o k null then [] else [(k, w)]

/-- A secret (rpc.go:181-190), given what its element is marshaled to. -/
def marshalSecret (o : Opts) (null : Bool) (m : Except Err (Option W)) : Except Err (Option W) :=
  if o.keepSecrets then do
    let w ← m
    return some (.struct ([(sigKey, .str secretSig)] ++ field o "value" null w))
  else m

/-- A reference (rpc.go:191-212). -/
def marshalRef (o : Opts) (urn : String) (id : RefId) (version : String) : Except Err (Option W) :=
  if o.keepResources then
    .ok (some (.struct ([(sigKey, .str resourceSig), ("urn", .str urn)]
      ++ (match id with
        | .none => []
        | .known s => [("id", .str s)]
        | .unknown => [("id", .str "")])
      ++ (if version = "" then [] else [("packageVersion", .str version)]))))
  else
    match id with
    | .none => .ok (some (.str urn))
    | .known s => .ok (some (.str s))
    | .unknown => marshalComputed o (.str "")

/-- The value field of an output value that is kept (rpc.go:166-168), given what its element is marshaled to. -/
def valueField (o : Opts) (known null : Bool) (m : Except Err (Option W)) : Except Err (List (String × W)) :=
  if known then m.map (field o "value" null) else .ok []

/-- An output value that is kept (rpc.go:163-180), given its value field. -/
def outputStruct (secret : Bool) (deps : List String) (value : List (String × W)) : W :=
  .struct ([(sigKey, .str outputSig)] ++ value
    ++ (if secret then [("secret", .bool true)] else [])
    ++ (if deps.isEmpty then [] else [("dependencies", .list (deps.map .str))]))

mutual
/-- `MarshalPropertyValue` (rpc.go:94-217) -/
def marshal (o : Opts) : EV → Except Err (Option W)
  | .null => .ok (some .null)
  | .bool b => .ok (some (.bool b))
  | .num n => .ok (some (.num n))
  | .str s => .ok (some (.str s))
  | .array xs => (marshalList o xs).map fun ws => some (.list ws)
  | .object kvs => (marshalKvs o kvs).map fun ws => some (.struct ws)
  | .blob b => if o.rejectAssets then .error .asset else .ok (some (marshalBlob o b))
  | .computed e => marshalComputed o e
  | .secret e => marshalSecret o e.isNull (marshal o e)
  | .ref urn id version => marshalRef o urn id version
  | .output e known secret deps =>
    if o.keepOutputValues then (valueField o known e.isNull (marshal o e)).map fun fs => some (outputStruct secret deps fs)
    else if secret then
      if known then marshalSecret o e.isNull (marshal o e) else marshalSecret o false (marshalComputed o (.str ""))
    else if known then marshal o e else marshalComputed o (.str "")
/-- rpc.go:112-127: an element that is nil is left out. -/
def marshalList (o : Opts) : List EV → Except Err (List W)
  | [] => .ok []
  | x :: xs => do
    let w ← marshal o x
    let ws ← marshalList o xs
    return w.toList ++ ws
/-- `MarshalProperties` (rpc.go:70-91): a property that is skipped is not looked at. -/
def marshalKvs (o : Opts) : List (String × EV) → Except Err (List (String × W))
  | [] => .ok []
  | (k, x) :: kvs =>
    if skips o k x.isNull then marshalKvs o kvs
    else do
      let w ← marshal o x
      let ws ← marshalKvs o kvs
      return (w.map (k, ·)).toList ++ ws
end

/-! ## The options the engine uses for programs -/

/-- The options for the properties of `RegisterResource` (pkg/resource/deploy/source_eval.go:996-1006), of
`RegisterResourceOutputs` (1260-1267) and `ReadResource` (870-875), and for the arguments of `Invoke` (654-660),
`StreamInvoke` (791-797) and `Call` (705-714): output values are kept for remote components and calls. -/
def reading (remote : Bool) : Opts :=
  { keepUnknowns := true, keepSecrets := true, keepResources := true, keepOutputValues := remote }

/-- The options for what the engine returns to a program (source_eval.go:671-676, 747-752, 913-918, 1218-1223); the
program says whether it accepts secrets and resources. -/
def answering (acceptSecrets acceptResources : Bool) : Opts :=
  { keepUnknowns := true, keepSecrets := acceptSecrets, keepResources := acceptResources }

end Pulumi.Engine
