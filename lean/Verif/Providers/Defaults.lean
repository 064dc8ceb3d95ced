import Verif.Plugins.Version
import Verif.Rename.Model
/-!
# Default providers

`pkg/resource/deploy/providers/provider.go`, `IntoQName` and `IsQName` (`sdk/go/common/tokens/names.go`) and the default providers of
`pkg/resource/deploy/source_eval.go`. Paths are relative to `/repo/`.

Requests are served one after the other by one goroutine (`serve`, 443-457), so a run is the list of the requests in the order in which they are taken, each with
what the engine does about a registration that is made for it.
-/
namespace Pulumi.Providers
open Pulumi.Plugins (Version Ident)
open Pulumi.Urn (Text splitChar sep)
open Pulumi.Rename (newURN validateURN)

/-! ## `names.go` -/

/-- `nameFirstCharRegexpPattern` and `nameRestCharRegexpPattern` (38-39) -/
def nameChar (c : Char) : Bool := c.isAlphanum || c == '_' || c == '.' || c == '-'

/-- `IsQName` (57-59): the longest match of the expression, from the left, is the text -/
def isQName (t : Text) : Bool := (splitChar '/' t).all fun s => !s.isEmpty && s.all nameChar

/-- The bytes of a segment, where those which are not of names are underscores (69-77). The bytes of a character that is not ASCII are all none of names. -/
def intoName (s : Text) : Text := s.flatMap fun c => if nameChar c then [c] else List.replicate c.utf8Size '_'

/-- `strings.Join` -/
def join (c : Char) : List Text → Text
  | [] => []
  | [t] => t
  | t :: u :: ts => t ++ c :: join c (u :: ts)

/-- `IntoQName` (63-85) -/
def intoQName (t : Text) : Text :=
  let r := join '/' (((splitChar '/' t).filter fun s => !s.isEmpty).map intoName)
  if r = [] then ['_'] else r

/-! ## `provider.go` -/

/-- `%d` -/
def digits (n : Nat) : Text := Nat.toDigits 10 n

/-- `PRVersion.String` of blang/semver -/
def identText : Ident → Text
  | .num n => digits n
  | .str s => s.toList

/-- `Version.String` of blang/semver -/
def versionText (v : Version) : Text :=
  digits v.major ++ '.' :: (digits v.minor ++ '.' :: (digits v.patch ++
    ((if v.pre = [] then [] else '-' :: join '.' (v.pre.map identText)) ++ if v.build = [] then [] else '+' :: join '.' (v.build.map String.toList))))

/-- `ProviderRequest` (40-44) -/
structure Request where
  version : Option Version
  pkg : Text
  url : Text
deriving DecidableEq, Repr

/-- `strings.TrimSuffix(url, "/")` -/
def trimSlash (t : Text) : Text := if t.getLast? = some '/' then t.dropLast else t

/-- `NewProviderRequest` (48-54) -/
def newRequest (version : Option Version) (pkg url : Text) : Request := ⟨version, pkg, trimSlash url⟩

/-- `parseProviderRequest` (source_eval.go:601-616); `parse` is `semver.Parse` -/
def parseRequest (parse : Text → Option Version) (pkg version url : Text) : Option Request :=
  if version = [] then some (newRequest none pkg url)
  else (parse version).map fun v => newRequest (some v) pkg (trimSlash url)

/-- The part of `Name` for the version (81-89) -/
def versionName (v : Version) : Text :=
  ([digits v.major, digits v.minor, digits v.patch] ++ v.pre.map identText ++ v.build.map String.toList).flatMap fun t => '_' :: t

/-- `Name` (79-98), before the assertion of its last line -/
def Request.name (r : Request) : Text :=
  "default".toList ++ (match r.version with | none => [] | some v => versionName v) ++ if r.url = [] then [] else '_' :: intoQName r.url

/-- `String` (101-111) -/
def Request.key (r : Request) : Text :=
  r.pkg ++ (match r.version with | none => [] | some v => '-' :: versionText v) ++ if r.url = [] then [] else '-' :: r.url

/-! ## `source_eval.go` -/

/-- `unicode.IsSpace` -/
def isSpace (c : Char) : Bool :=
  [' ', '\t', '\n', '\r'].contains c || c.val == 0x0b || c.val == 0x0c || c.val == 0x85 || c.val == 0xa0 || c.val == 0x1680 ||
    (decide (0x2000 ≤ c.val) && decide (c.val ≤ 0x200a)) || c.val == 0x2028 || c.val == 0x2029 || c.val == 0x202f || c.val == 0x205f || c.val == 0x3000

/-- `strings.TrimSpace` -/
def trimSpace (t : Text) : Text := ((t.dropWhile isSpace).reverse.dropWhile isSpace).reverse

/-- What `pulumi:disable-default-providers` is: the configuration cannot be read, the key is not set, is no string, is empty, is no JSON list, or is a list, in
which an element that is no string is `none`. -/
inductive Setting where
  | failed | unset | notString | empty | noList
  | list (l : List (Option Text))
deriving DecidableEq, Repr

inductive DefaultErr where
  | setting (s : Setting) | element | config | canceled | panic
deriving DecidableEq, Repr

/-- The loop of `shouldDenyRequest` (421-432) -/
def denyList (pkg : Text) : List (Option Text) → Except DefaultErr Bool
  | [] => .ok false
  | none :: _ => .error .element
  | some s :: l => if trimSpace s = ['*'] ∨ trimSpace s = pkg then .ok true else denyList pkg l

/-- `shouldDenyRequest` (397-440) -/
def shouldDeny (s : Setting) (pkg : Text) : Except DefaultErr Bool :=
  match s with
  | .failed => .error (.setting .failed)
  | .unset => .ok false
  | .notString => .error (.setting .notString)
  | .empty => .ok false
  | .noList => .error (.setting .noList)
  | .list l => denyList pkg l

/-- `denyDefaultProviderID` (reference.go:99) -/
def denyID : Text := "denydefaultprovider".toList

/-- `NewDenyDefaultProvider` (reference.go:102-106), before its assertion -/
def denyRef (pkg : Text) : Text × Text := (newURN "denied".toList "denied".toList "denied".toList "pulumi:providers:denied".toList pkg, denyID)

/-- The inputs of a provider: its version and the URL of its plugin, and the other ones -/
structure Inputs where
  version : Option Text
  url : Option Text
  rest : String
deriving DecidableEq, Repr

/-- What default providers are made from: the setting of `disable-default-providers`, `GetPackageConfig`, which may fail, and `defaultProviderInfo` -/
structure Sources where
  setting : Setting
  config : Text → Option Inputs
  version : Text → Option Version
  url : Text → Text

/-- The registration of a provider; its type is that of the providers of the package. -/
structure Registration where
  pkg : Text
  name : Text
  inputs : Inputs
deriving DecidableEq, Repr

/-- `newRegisterDefaultProviderEvent` (274-331) -/
def Sources.registration (S : Sources) (r : Request) : Option Registration :=
  (S.config r.pkg).map fun i =>
    let i := match r.version with
      | some v => { i with version := some (versionText v) }
      | none => match S.version r.pkg with
        | some v => { i with version := some (versionText v) }
        | none => i
    let i := if r.url ≠ [] then { i with url := some r.url } else if S.url r.pkg ≠ [] then { i with url := some (S.url r.pkg) } else i
    ⟨r.pkg, r.name, i⟩

/-- What the engine does about a registration: it is cancelled before it takes it, or before it answers, or it has a state with a URN and an ID. -/
inductive Reply where
  | notTaken | notAnswered
  | state (urn id : Text)
deriving DecidableEq, Repr

/-- What becomes of a request: the reference or the error, and the registration that the engine has taken. -/
structure Served where
  request : Request
  answer : Except DefaultErr (Text × Text)
  registered : Option Registration

/-- `UnknownID` (reference.go:33) -/
def unknownID : Text := "04da6b54-80e4-46f7-96ec-b56ff0331ba9".toList

/-- `handleRequest` (340-394). `m` is `providers`, with the newest entry first. -/
def Sources.handle (S : Sources) (m : List (Text × (Text × Text))) (r : Request) (reply : Reply) : List (Text × (Text × Text)) × Served :=
  match shouldDeny S.setting r.pkg with
  | .error e => (m, ⟨r, .error e, none⟩)
  | .ok true => (m, ⟨r, if validateURN (denyRef r.pkg).1 = some true then .ok (denyRef r.pkg) else .error .panic, none⟩)
  | .ok false =>
    match m.lookup r.key with
    | some ref => (m, ⟨r, .ok ref, none⟩)
    | none =>
      match S.registration r with
      | none => (m, ⟨r, .error .config, none⟩)
      | some e =>
        if isQName e.name = false then (m, ⟨r, .error .panic, none⟩)
        else
          match reply with
          | .notTaken => (m, ⟨r, .error .canceled, none⟩)
          | .notAnswered => (m, ⟨r, .error .canceled, some e⟩)
          | .state urn id =>
            let ref := (urn, if id = [] then unknownID else id)
            if validateURN urn = some true then ((r.key, ref) :: m, ⟨r, .ok ref, some e⟩)
            else (m, ⟨r, .error .panic, some e⟩)

/-- `serve` (443-457) -/
def Sources.serve (S : Sources) (m : List (Text × (Text × Text))) : List (Request × Reply) → List Served
  | [] => []
  | x :: l => (S.handle m x.1 x.2).2 :: S.serve (S.handle m x.1 x.2).1 l

/-! ## Specification -/

/-- A version as `semver.Parse` gives it: identifiers are not empty and of letters, digits and dashes, and those of pre-releases which are texts are not numbers. -/
def identChar (c : Char) : Bool := c.isAlphanum || c == '-'

structure Parsed (v : Version) : Prop where
  pre : ∀ s, .str s ∈ v.pre → s.toList ≠ [] ∧ s.toList.all identChar = true ∧ s.toList.all Char.isDigit = false
  build : ∀ s ∈ v.build, s.toList ≠ [] ∧ s.toList.all identChar = true

/-- The user has turned default providers off for a package: the list has `*` or the package, and everything before it is a string. -/
def Off (s : Setting) (pkg : Text) : Prop :=
  ∃ a x b, s = .list (a ++ some x :: b) ∧ (trimSpace x = ['*'] ∨ trimSpace x = pkg) ∧ ∀ y ∈ a, y ≠ none

end Pulumi.Providers
