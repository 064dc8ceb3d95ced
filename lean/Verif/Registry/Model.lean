/-!
# The registries of packages and modules

`runtime/rpc.py:1129-1234`; paths are relative to `/repo/sdk/python/lib/pulumi/`. Generated SDKs register their packages
and modules here; resource references that arrive over the wire are looked up here.

Versions are those of the `semver` library, which is not part of the repository: its comparison is modelled after its
documentation (numbers in order, then no pre-release after any pre-release, then identifier by identifier, numeric ones
before others, a proper prefix first; build metadata ignored). Parsing is a parameter.
-/
namespace Pulumi.Registry

/-- An identifier of a pre-release tag. -/
inductive Ident where
  | num (n : Nat)
  | alpha (s : String)
deriving DecidableEq, Repr

/-- `semver.VersionInfo` without build metadata; `pre` is empty when there is no pre-release tag. -/
structure Version where
  major : Nat
  minor : Nat
  patch : Nat
  pre : List Ident := []
deriving DecidableEq, Repr

/-- Numeric identifiers come before others. -/
def Ident.key : Ident → Nat × Nat × String
  | .num n => (0, n, "")
  | .alpha s => (1, 0, s)

def Ident.cmp (a b : Ident) : Ordering :=
  (compare a.key.1 b.key.1).then ((compare a.key.2.1 b.key.2.1).then (compare a.key.2.2 b.key.2.2))

/-- Lexicographic; a proper prefix comes first. -/
def idsCmp : List Ident → List Ident → Ordering
  | [], [] => .eq
  | [], _ :: _ => .lt
  | _ :: _, [] => .gt
  | a :: as, b :: bs => (a.cmp b).then (idsCmp as bs)

/-- No pre-release tag comes after any tag. -/
def preCmp : List Ident → List Ident → Ordering
  | [], [] => .eq
  | [], _ :: _ => .gt
  | _ :: _, [] => .lt
  | as, bs => idsCmp as bs

/-- `VersionInfo.compare` -/
def Version.cmp (a b : Version) : Ordering :=
  (compare a.major b.major).then ((compare a.minor b.minor).then ((compare a.patch b.patch).then (preCmp a.pre b.pre)))

/-- `same_version` (1129-1131). -/
def sameVersion (a b : Option Version) : Bool :=
  match a, b with
  | none, _ => true
  | _, none => true
  | some a, some b => a.cmp b == .eq

/-- `check_version` (1134-1141). -/
def checkVersion (want have_ : Option Version) : Bool :=
  match want, have_ with
  | none, _ => true
  | _, none => true
  | some w, some h => h.major == w.major && decide (h.minor ≥ w.minor) && decide (h.patch ≥ w.patch)

/-- A `ResourcePackage` or `ResourceModule`: its identity and what its `version()` returns. -/
structure Entry where
  id : Nat
  version : Option Version
deriving DecidableEq, Repr

/-- `_RESOURCE_PACKAGES` or `_RESOURCE_MODULES`. -/
abbrev Table := List (String × List Entry)

inductive Err where
  | value
  | type
deriving DecidableEq, Repr

/-- `d[k] = v` -/
def setKey : Table → String → List Entry → Table
  | [], k, v => [(k, v)]
  | (k', v') :: rest, k, v => if k' = k then (k', v) :: rest else (k', v') :: setKey rest k v

/-- `register_resource_package` (1157-1171); `register_resource_module` (1200-1217) is the same with another key. -/
def register (t : Table) (key : String) (e : Entry) : Except Err Table :=
  match t.lookup key with
  | some es => if es.any (fun x => sameVersion x.version e.version) then .error .value else .ok (setKey t key (es ++ [e]))
  | none => .ok (setKey t key [e])

/-- `a > b` on what `version()` returns: a TypeError when one of them is None. -/
def greater (a b : Option Version) : Except Err Bool :=
  match a, b with
  | some a, some b => .ok (a.cmp b == .gt)
  | _, _ => .error .type

/-- The loop of `get_resource_package` (1178-1182) and `get_resource_module` (1227-1231). -/
def best (want : Option Version) : Option Entry → List Entry → Except Err (Option Entry)
  | b, [] => .ok b
  | b, e :: rest =>
    if checkVersion want e.version then
      match b with
      | none => best want (some e) rest
      | some b' =>
        match greater e.version b'.version with
        | .error x => .error x
        | .ok true => best want (some e) rest
        | .ok false => best want (some b') rest
    else best want b rest

/-- `get_resource_package` (1174-1184); `get_resource_module` (1220-1234) is the same with another key. -/
def get (parse : String → Option Version) (t : Table) (key : String) (version : String) : Except Err (Option Entry) :=
  if version = "" then best none none ((t.lookup key).getD [])
  else
    match parse version with
    | none => .error .value
    | some v => best (some v) none ((t.lookup key).getD [])

/-- `_module_key` (1196-1197). -/
def moduleKey (pkg mod : String) : String := pkg ++ ":" ++ mod

end Pulumi.Registry
