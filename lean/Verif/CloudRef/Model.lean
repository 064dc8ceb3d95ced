/-!
# Names of stacks of the service

`pkg/backend/httpstate/backend.go`: `parseStackName` (550-569) and `ParseStackReference` (571-619), and `pkg/backend/httpstate/stack.go`:
`cloudBackendReference.String` (50-71). Paths are relative to `/repo/`. Strings are lists of characters.
-/
namespace Pulumi.CloudRef

abbrev Str := List Char

/-- `strings.Split(s, "/")` -/
def split : Str → List Str
  | [] => [[]]
  | c :: cs =>
    if c = '/' then [] :: split cs
    else match split cs with
      | [] => [[c]]
      | h :: t => (c :: h) :: t

/-- `qualifiedStackReference`: owner, project and name, empty where not given -/
structure Qualified where
  owner : Str
  project : Str
  name : Str
  deriving DecidableEq, Repr

/-- `cloudBackendReference` (`stack.go:43-48`), without the backend it belongs to -/
structure Ref where
  owner : Str
  project : Str
  name : Str
  deriving DecidableEq, Repr

/-- Why a name is refused: it has too many parts; the default organization, the user or the project cannot be told; or the name itself is not legal -/
inductive Refusal where
  | parts
  | defaultOrg
  | user
  | project
  | name
  deriving DecidableEq, Repr

/-- What the names are read in: the default organization of the backend (empty for none, `sdk/go/common/workspace/creds.go:342-360`), the user
and the project, each with whether it can be told. The backend's `currentProject` (`backend.go:134-137`) is the project, if it can be told.
Simplification: it is that of the moment the backend was made, taken here to be still the same. -/
structure Env where
  defaultOrg : Option Str
  user : Option Str
  project : Option Str
  deriving DecidableEq, Repr

/-- `parseStackName` (`backend.go:550-569`) -/
def parseName (s : Str) : Option Qualified :=
  match split s with
  | [n] => some ⟨[], [], n⟩
  | [o, n] => some ⟨o, [], n⟩
  | [o, p, n] => some ⟨o, p, n⟩
  | _ => none

/-- A character of a name (`sdk/go/common/tokens/names.go:38-39`) -/
def nameChar (c : Char) : Bool :=
  ('A' ≤ c && c ≤ 'Z') || ('a' ≤ c && c ≤ 'z') || ('0' ≤ c && c ≤ '9') || c = '_' || c = '.' || c = '-'

/-- `tokens.IsName` (`names.go:42-44`) -/
def isName (s : Str) : Bool := !s.isEmpty && s.all nameChar

/-- The owner where none is given (`backend.go:580-597`) -/
def ownerOf (e : Env) (given : Str) : Except Refusal Str :=
  if given = [] then
    match e.defaultOrg with
    | none => .error .defaultOrg
    | some org =>
      if org ≠ [] then .ok org
      else match e.user with
        | none => .error .user
        | some u => .ok u
  else .ok given

/-- The project where none is given (`backend.go:599-607`) -/
def projectOf (e : Env) (given : Str) : Except Refusal Str :=
  if given = [] then
    match e.project with
    | none => .error .project
    | some p => .ok p
  else .ok given

/-- `ParseStackReference` (`backend.go:571-619`) -/
def parse (e : Env) (s : Str) : Except Refusal Ref :=
  match parseName s with
  | none => .error .parts
  | some q =>
    match ownerOf e q.owner with
    | .error r => .error r
    | .ok o =>
      match projectOf e q.project with
      | .error r => .error r
      | .ok p => if isName q.name then .ok ⟨o, p, q.name⟩ else .error .name

/-- Whether the owner is left out (`stack.go:55-66`) -/
def ownerElided (e : Env) (owner : Str) : Bool :=
  match e.defaultOrg with
  | some (c :: cs) => owner = c :: cs
  | _ => match e.user with
    | some u => owner = u
    | none => false

/-- `cloudBackendReference.String` (`stack.go:50-71`) -/
def shown (e : Env) (r : Ref) : Str :=
  if e.project = some r.project then
    if ownerElided e r.owner then r.name else r.owner ++ '/' :: r.name
  else r.owner ++ '/' :: (r.project ++ '/' :: r.name)

end Pulumi.CloudRef
