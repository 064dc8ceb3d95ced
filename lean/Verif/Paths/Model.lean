import Verif.Engine.Model
/-!
# Property paths, and the options that take them

`sdk/go/common/resource/properties_path.go`, and `applyReplaceOnChanges` (`pkg/resource/deploy/step_generator.go:1506-1604`)
with what it uses of `sdk/go/common/resource/plugin/provider.go`. Paths are relative to `/repo/`.

Texts are lists of characters: the code goes through bytes, but all it looks for is ASCII, so the two agree on valid UTF-8.
-/
namespace Pulumi.Paths
open Pulumi.Engine (EV)

abbrev Text := List Char

/-- What a `PropertyPath` (properties_path.go:14) is made of: strings and ints -/
inductive Key where
  | name (s : Text)
  | idx (i : Int)
deriving DecidableEq, Repr

abbrev Path := List Key

inductive PathErr where
  /-- line 66 -/
  | missingQuote
  /-- line 79 -/
  | missingBracket
  /-- line 86 -/
  | missingIndexBracket
  /-- line 95 -/
  | badIndex
deriving DecidableEq, Repr

/-- the digits of `parseInt`, after the sign -/
def parseDigits (neg : Bool) (ds : Text) : Option Int :=
  if ds = [] ∨ ds.all Char.isDigit = false then none
  else if neg then
    if Nat.ofDigitChars 10 ds 0 ≤ 2 ^ 63 then some (-(Nat.ofDigitChars 10 ds 0 : Int)) else none
  else if Nat.ofDigitChars 10 ds 0 < 2 ^ 63 then some (Nat.ofDigitChars 10 ds 0 : Int) else none

/-- `strconv.ParseInt(s, 10, 0)` (93): an optional sign, digits, and what 64 bits can hold -/
def parseInt : Text → Option Int
  | [] => none
  | c :: ds => if c = '-' then parseDigits true ds else if c = '+' then parseDigits false ds else parseDigits false (c :: ds)

/-- the key after `["` (62-77), and what follows its closing quote -/
def quotedKey : Text → Option (Text × Text)
  | [] => none
  | [c] => if c = '"' then some ([], []) else none
  | c :: d :: rest =>
    if c = '"' then some ([], d :: rest)
    else if c = '\\' ∧ d = '"' then (quotedKey rest).map (fun kr => ('"' :: kr.1, kr.2))
    else (quotedKey (d :: rest)).map (fun kr => (c :: kr.1, kr.2))

/-- the path up to a dot or an opening bracket (102-107), and what follows -/
def bareName : Text → Text × Text
  | [] => ([], [])
  | c :: rest => if c = '.' ∨ c = '[' then ([], c :: rest) else (c :: (bareName rest).1, (bareName rest).2)

/-- what is before the first closing bracket (84-89), and what follows it -/
def upToBracket : Text → Option (Text × Text)
  | [] => none
  | c :: rest => if c = ']' then some ([], rest) else (upToBracket rest).map (fun sr => (c :: sr.1, sr.2))

/-- a key in quotes (61-81), without the quote that opens it -/
def quotedElement (s : Text) : Except PathErr (Key × Text) :=
  match quotedKey s with
  | none => .error .missingQuote
  | some (_, []) => .error .missingBracket
  | some (k, c :: rest) => if c = ']' then .ok (.name k, rest) else .error .missingBracket

/-- an index (82-99), without the opening bracket -/
def indexElement (s : Text) : Except PathErr (Key × Text) :=
  match upToBracket s with
  | none => .error .missingIndexBracket
  | some (seg, rest) =>
    if seg = ['*'] then .ok (.name ['*'], rest)
    else
      match parseInt seg with
      | none => .error .badIndex
      | some i => .ok (.idx i, rest)

/-- an element in brackets (58-100), without the opening one -/
def bracket : Text → Except PathErr (Key × Text)
  | [] => indexElement []
  | c :: rest => if c = '"' then quotedElement rest else indexElement (c :: rest)

/-- the loop of `ParsePropertyPath` (54-109); every round takes something off the path, so its length is fuel enough -/
def parseLoop : Nat → Text → Except PathErr Path
  | 0, _ => .ok []
  | _ + 1, [] => .ok []
  | fuel + 1, c :: rest =>
    if c = '.' then parseLoop fuel rest
    else if c = '[' then
      match bracket rest with
      | .error e => .error e
      | .ok (k, rest) => (parseLoop fuel rest).map (k :: ·)
    else (parseLoop fuel (bareName (c :: rest)).2).map (.name (bareName (c :: rest)).1 :: ·)

/-- `ParsePropertyPath` (48-111) -/
def parse (s : Text) : Except PathErr Path := parseLoop s.length s

/-- `requiresQuote` (304-306) -/
def requiresQuote (c : Char) : Bool := !(c.isUpper || c.isLower || c.isDigit || c == '_')

/-- lines 315-323 -/
def escape : Text → Text
  | [] => []
  | c :: cs => if c = '"' then '\\' :: '"' :: escape cs else c :: escape cs

/-- `%d` -/
def intText : Int → Text
  | .ofNat n => Nat.toDigits 10 n
  | .negSucc n => '-' :: Nat.toDigits 10 (n + 1)

/-- lines 311-335 for one of the keys -/
def keyText (first : Bool) : Key → Text
  | .name k =>
    if k.any requiresQuote then '[' :: '"' :: (escape k ++ ['"', ']'])
    else if first then k else '.' :: k
  | .idx i => '[' :: (intText i ++ [']'])

/-- `String` (308-338) -/
def pathText : Path → Text
  | [] => []
  | k :: ks => keyText true k ++ (ks.map (keyText false)).flatten

/-- a member of a Go map -/
def member (k : Text) : List (String × EV) → Option EV
  | [] => none
  | (k', v) :: kvs => if k'.toList = k then some v else member k kvs

/-- a round of `Get` (117-135) -/
def step (v : EV) : Key → Option EV
  | .idx i => match v with
    | .array xs => if 0 ≤ i then xs[i.toNat]? else none
    | _ => none
  | .name n => match v with
    | .object kvs => member n kvs
    | _ => none

/-- `Get` (115-138) -/
def get : Path → EV → Option EV
  | [], v => some v
  | k :: ks, v => (step v k).bind (get ks)

/-- an assignment to a member of a Go map -/
def putMember (k : Text) (v : EV) : List (String × EV) → List (String × EV)
  | [] => [(String.ofList k, v)]
  | (k', v') :: kvs => if k'.toList = k then (k', v) :: kvs else (k', v') :: putMember k v kvs

/-- `delete` -/
def dropMember (k : Text) (kvs : List (String × EV)) : List (String × EV) := kvs.filter (fun kv => decide (kv.1.toList ≠ k))

/-- the assignment at the end of `Set` (152-169) -/
def putKey (dest : EV) (k : Key) (v : EV) : Option EV :=
  match k with
  | .idx i => match dest with
    | .array xs => if 0 ≤ i ∧ i < xs.length then some (.array (xs.set i.toNat v)) else none
    | _ => none
  | .name n => match dest with
    | .object kvs => some (.object (putMember n v kvs))
    | _ => none

/-- the end of `Delete` (249-266): an element of an array becomes null -/
def dropKey (dest : EV) (k : Key) : Option EV :=
  match k with
  | .idx i => match dest with
    | .array xs => if 0 ≤ i ∧ i < xs.length then some (.array (xs.set i.toNat .null)) else none
    | _ => none
  | .name n => match dest with
    | .object kvs => some (.object (dropMember n kvs))
    | _ => none

/-- Changing in place what all but the last key of a path lead to (147-150, 244-247). Values are trees here, so the containers on
the way are put back one in the other; in the code they are shared, see `Verif/Paths/Ignore.lean`. -/
def change (f : EV → Key → Option EV) : Path → EV → Option EV
  | [], _ => none
  | [k], v => f v k
  | k :: ks, v => (step v k).bind fun w => (change f ks w).bind (putKey v k)

/-- `Set` (142-170) -/
def setAt (p : Path) (v : EV) (dest : EV) : Option EV := change (fun d k => putKey d k v) p dest

/-- `Delete` (239-268) -/
def deleteAt (p : Path) (dest : EV) : Option EV := change dropKey p dest

/-- a round of `Contains` (280-298) -/
def keyMatches (pat k : Key) : Bool :=
  match pat with
  | .idx i => decide (k = .idx i)
  | .name n => if n = ['*'] then true else decide (k = .name n)

/-- `Contains` (274-302) -/
def contains : Path → Path → Bool
  | [], _ => true
  | _ :: _, [] => false
  | p :: ps, q :: qs => keyMatches p q && contains ps qs

/-! ## `replaceOnChanges` -/

/-- `DiffKind` (plugin/provider.go:136, 190-203) -/
inductive Kind where
  | add | addReplace | delete | deleteReplace | update | updateReplace
deriving DecidableEq, Repr

/-- `IsReplace` (plugin/provider.go:159-166) -/
def Kind.isReplace : Kind → Bool
  | .addReplace => true
  | .deleteReplace => true
  | .updateReplace => true
  | _ => false

/-- `AsReplace` (plugin/provider.go:168-188) -/
def Kind.asReplace : Kind → Kind
  | .add => .addReplace
  | .addReplace => .addReplace
  | .delete => .deleteReplace
  | .deleteReplace => .deleteReplace
  | .update => .updateReplace
  | .updateReplace => .updateReplace

/-- `PropertyDiff` (plugin/provider.go:205-209) -/
structure PropertyDiff where
  kind : Kind
  inputDiff : Bool
deriving DecidableEq, Repr

/-- `ToReplace` (plugin/provider.go:211-218) -/
def PropertyDiff.toReplace (d : PropertyDiff) : PropertyDiff := { kind := d.kind.asReplace, inputDiff := d.inputDiff }

/-- `DiffChanges` (plugin/provider.go:124-134) -/
inductive Changes where
  | unknown | none | some
deriving DecidableEq, Repr

/-- `DiffResult` (plugin/provider.go:220-228); no detailed diff is a nil one -/
structure DiffResult where
  changes : Changes
  replaceKeys : List Text
  stableKeys : List Text
  changedKeys : List Text
  detailed : Option (List (Text × PropertyDiff))
  deleteBeforeReplace : Bool
deriving DecidableEq, Repr

/-- `Replace` (plugin/provider.go:296-304) -/
def DiffResult.replace (d : DiffResult) : Bool :=
  (d.detailed.getD []).any (fun kv => kv.2.kind.isReplace) || !d.replaceKeys.isEmpty

/-- `initErrorSpecialKey` (step_generator.go:1509) -/
def initErrorKey : Text := "#initerror".toList

def parseAll : List Text → Except PathErr (List Path)
  | [] => .ok []
  | s :: ss =>
    match parse s with
    | .error e => .error e
    | .ok p => (parseAll ss).map (p :: ·)

/-- lines 1532-1553 -/
def adjustDetailed (paths : List Path) : List (Text × PropertyDiff) → Except PathErr (List (Text × PropertyDiff))
  | [] => .ok []
  | (p, d) :: rest =>
    match parse p with
    | .error e => .error e
    | .ok q => (adjustDetailed paths rest).map ((p, if paths.any (contains · q) then d.toReplace else d) :: ·)

/-- line 1564, with a key that is not a path passed over (1560-1563) -/
def keyCovered (paths : List Path) (k : Text) : Bool :=
  match parse k with
  | .error _ => false
  | .ok q => paths.any (contains · q)

/-- assignment to `modifiedDiff` (1585) -/
def putDetail (k : Text) (d : PropertyDiff) : List (Text × PropertyDiff) → List (Text × PropertyDiff)
  | [] => [(k, d)]
  | (k', d') :: rest => if k' = k then (k, d) :: rest else (k', d') :: putDetail k d rest

/-- `applyReplaceOnChanges` (step_generator.go:1513-1604). Go's maps are lists here, in some order, and the set of 1555-1571 is a
list that may repeat keys; every path that covers the init errors adds their key again (1577-1593), here one of them does. -/
def applyReplaceOnChanges (diff : DiffResult) (replaceOnChanges : List Text) (hasInitErrors : Bool) : Except PathErr DiffResult :=
  if diff.changes ≠ .some ∧ hasInitErrors = false then .ok diff
  else
    match parseAll replaceOnChanges with
    | .error e => .error e
    | .ok paths =>
      match (match diff.detailed with
        | .none => .ok .none
        | .some dd => (adjustDetailed paths dd).map Option.some : Except PathErr (Option (List (Text × PropertyDiff)))) with
      | .error e => .error e
      | .ok modified =>
        let keys := diff.replaceKeys ++ diff.changedKeys.filter (keyCovered paths)
        if hasInitErrors ∧ keyCovered paths initErrorKey then
          .ok { diff with
            detailed := modified.map (putDetail initErrorKey { kind := .updateReplace, inputDiff := false })
            replaceKeys := keys ++ [initErrorKey]
            changes := .some }
        else .ok { diff with detailed := modified, replaceKeys := keys }

end Pulumi.Paths
