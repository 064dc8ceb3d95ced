import Verif.Snapshot.Model
import Verif.Urn.Model
/-!
# URNs as the engine reads them, and renaming

`sdk/go/common/resource/urn.go`, `pkg/resource/deploy/providers/reference.go`, `RenameStack`
(`pkg/resource/edit/operations.go:100-162`) and `pulumi state rename` (`pkg/cmd/pulumi/state_rename.go`). Paths are relative
to `/repo/`.

`none` is a crash: a failed assertion, or an index that is out of range. `strings.Split` with the separator `::` is Python's
`str.split`, so it is `splitSep` of the Python SDK's model.
-/
namespace Pulumi.Rename
open Pulumi.Urn (Text splitSep splitChar rfindSep? sep urnPrefix)
open Pulumi.Snapshot (State Provider Ref Env Snap OpType IntegrityErr verify)

/-! ## `urn.go` -/

/-- `NewURN` (56-70) -/
def newURN (stack proj parentType baseType name : Text) : Text :=
  let typ := if parentType ≠ [] then parentType ++ '$' :: baseType else baseType
  urnPrefix ++ stack ++ sep ++ proj ++ sep ++ typ ++ sep ++ name

/-- `IsValid` (73-78) -/
def isValid (u : Text) : Bool := urnPrefix.isPrefixOf u && decide ((splitSep u).length = 4)

/-- `URNName` (81-85) -/
def urnName (u : Text) : Option Text := if urnPrefix.isPrefixOf u then some (u.drop urnPrefix.length) else none

/-- `strings.Split(urn.URNName(), URNNameDelimiter)[i]` -/
def part (u : Text) (i : Nat) : Option Text :=
  match urnName u with
  | none => none
  | some s => (splitSep s)[i]?

/-- `Stack` (88-90) -/
def stackOf (u : Text) : Option Text := part u 0
/-- `Project` (93-95) -/
def projectOf (u : Text) : Option Text := part u 1
/-- `QualifiedType` (98-100) -/
def qualifiedType (u : Text) : Option Text := part u 2
/-- `Name` (111-113) -/
def nameOf (u : Text) : Option Text := part u 3

/-- `Type` (103-108) -/
def typeOf (u : Text) : Option Text := (part u 2).map (fun q => (splitChar '$' q).getLastD [])

/-- `Rename` (116-125) -/
def rename (u newName : Text) : Option Text :=
  match stackOf u, projectOf u, qualifiedType u with
  | some s, some p, some q => some (newURN s p [] q newName)
  | _, _, _ => none

/-! ## Type tokens (`sdk/go/common/tokens/tokens.go`) -/

/-- `Type.Module` (230-235); with exactly one colon the assertion of line 192 fails -/
def typeModule (t : Text) : Option Text :=
  match splitChar ':' t with
  | [] => some []
  | [_] => some []
  | [_, _] => none
  | a :: b :: _ => some (a ++ ':' :: b)

/-- `Type.Name` (237-242); with exactly one colon the assertion of line 198 fails -/
def typeName (t : Text) : Option Text :=
  match splitChar ':' t with
  | [] => some t
  | [_] => some t
  | [_, _] => none
  | a :: b :: _ => some (t.drop (a.length + b.length + 2))

/-- `"pulumi:providers"` -/
def providersModule : Text := "pulumi:providers".toList

/-! ## `reference.go` -/

/-- `IsProviderType` (36-42) -/
def isProviderType (t : Text) : Bool :=
  if (splitChar ':' t).length ≤ 2 then false
  else decide (typeModule t = some providersModule) && decide (typeName t ≠ some [])

/-- `validateURN` (60-72) -/
def validateURN (u : Text) : Option Bool :=
  if !isValid u then some false
  else
    match typeOf u with
    | none => none
    | some t =>
      match typeModule t with
      | none => none
      | some m =>
        if m ≠ providersModule then some false
        else (typeName t).map (fun n => decide (n ≠ []))

/-- `Reference.String` (90-96) -/
def refString (urn id : Text) : Text := if urn = [] ∧ id = [] then [] else urn ++ sep ++ id

/-- `ParseReference` (140-152): a URN and an ID, or an error -/
def parseReference (s : Text) : Option (Option (Text × Text)) :=
  match rfindSep? s with
  | none => some none
  | some i =>
    match validateURN (s.take i) with
    | none => none
    | some false => some none
    | some true => some (some (s.take i, s.drop (i + 2)))

/-- The real functions behind what the integrity check asks of types and URNs. A URN that crashes the check is not valid
here. -/
def goEnv : Env := ⟨fun t => isProviderType t.toList, fun u => decide (validateURN u.toList = some true)⟩

/-! ## `RenameStack` (operations.go:100-162) -/

/-- `"pulumi:pulumi:Stack"` -/
def stackType : Text := "pulumi:pulumi:Stack".toList

/-- `rewriteUrn` (104-117) -/
def rewriteText (newName newProject u : Text) : Option Text :=
  match projectOf u, qualifiedType u with
  | some p, some q =>
    let project := if newProject ≠ [] then newProject else p
    if q = stackType then some (newURN newName project [] q (project ++ '-' :: newName))
    else
      match nameOf u with
      | some n => some (newURN newName project [] q n)
      | none => none
  | _, _ => none

def rewriteUrn (newName newProject u : String) : Option String :=
  (rewriteText newName.toList newProject.toList u.toList).map String.ofList

def rewriteAll (newName newProject : String) : List String → Option (List String)
  | [] => some []
  | u :: us =>
    match rewriteUrn newName newProject u, rewriteAll newName newProject us with
    | some v, some vs => some (v :: vs)
    | _, _ => none

/-- lines 132-136 -/
def rewritePropDeps (newName newProject : String) : List (String × List String) → Option (List (String × List String))
  | [] => some []
  | (k, us) :: rest =>
    match rewriteAll newName newProject us, rewritePropDeps newName newProject rest with
    | some vs, some rest => some ((k, vs) :: rest)
    | _, _ => none

/-- lines 138-146 -/
def rewriteProvider (newName newProject : String) : Provider → Option Provider
  | .none => some .none
  | .malformed _ => none
  | .ref r =>
    match rewriteUrn newName newProject r.urn with
    | none => none
    | some v => if validateURN v.toList = some true then some (.ref ⟨v, r.id⟩) else none

/-- lines 124-126 -/
def rewriteParent (newName newProject parent : String) : Option String :=
  if parent ≠ "" then rewriteUrn newName newProject parent else some parent

/-- `rewriteState` (119-147); aliases stay as they are -/
def rewriteState (newName newProject : String) (s : State) : Option State :=
  match rewriteUrn newName newProject s.urn, rewriteParent newName newProject s.parent,
    rewriteAll newName newProject s.deps, rewritePropDeps newName newProject s.propDeps,
    rewriteProvider newName newProject s.provider with
  | some urn, some parent, some deps, some propDeps, some provider =>
    some { s with urn, parent, deps, propDeps, provider }
  | _, _, _, _, _ => none

/-- lines 153-155 -/
def rewriteStates (newName newProject : String) : List State → Option (List State)
  | [] => some []
  | s :: ss =>
    match rewriteState newName newProject s, rewriteStates newName newProject ss with
    | some t, some ts => some (t :: ts)
    | _, _ => none

/-- lines 157-159 -/
def rewriteOps (newName newProject : String) : List (State × OpType) → Option (List (State × OpType))
  | [] => some []
  | (s, op) :: ss =>
    match rewriteState newName newProject s, rewriteOps newName newProject ss with
    | some t, some ts => some ((t, op) :: ts)
    | _, _ => none

/-- `RenameStack` (102-162) of a checkpoint read from a file: no two of its states share memory -/
def renameStack (newName newProject : String) (snap : Snap) : Option (Except IntegrityErr Snap) :=
  match verify goEnv snap with
  | .error e => some (.error e)
  | .ok _ =>
    match rewriteStates newName newProject snap.resources, rewriteOps newName newProject snap.ops with
    | some resources, some ops => some (.ok ⟨resources, ops⟩)
    | _, _ => none

/-! ## `pulumi state rename` (state_rename.go) -/

/-- `updateDependencies` (30-41) -/
def updateDependencies (old new : String) (deps : List String) : List String :=
  deps.map (fun d => if d = old then new else d)

inductive RenameErr where
  /-- lines 68-70 -/
  | invalidUrn
  /-- lines 74-77 -/
  | noResource
  /-- lines 84-87 -/
  | taken
deriving DecidableEq, Repr

/-- lines 92-102 for one of the resources -/
def updateReferences (old new : String) (s : State) : State :=
  if s.urn ≠ new then
    { s with deps := updateDependencies old new s.deps
             propDeps := s.propDeps.map (fun kv => (kv.1, updateDependencies old new kv.2)) }
  else s

/-- the command (72-105), on the resources of the checkpoint; it looks at nothing else -/
def renameResource (rs : List State) (urn newName : String) : Option (Except RenameErr (List State)) :=
  if !isValid urn.toList then some (.error .invalidUrn)
  else if rs.countP (fun s => s.urn = urn) ≠ 1 then some (.error .noResource)
  else
    match rename urn.toList newName.toList with
    | none => none
    | some new =>
      let new := String.ofList new
      if rs.any (fun s => s.urn = new) then some (.error .taken)
      else some (.ok ((rs.map (fun s => if s.urn = urn then { s with urn := new } else s)).map (updateReferences urn new)))

/-- `totalStateEdit` (`pkg/cmd/pulumi/state.go:145-196`) around a rename: what is saved, or an error. An edit that breaks an
intact checkpoint fails the assertion of line 177, and nothing is saved. -/
def stateRename (snap : Snap) (urn newName : String) : Option (Except RenameErr Snap) :=
  match renameResource snap.resources urn newName with
  | none => none
  | some (.error e) => some (.error e)
  | some (.ok rs) =>
    match verify goEnv snap, verify goEnv ⟨rs, snap.ops⟩ with
    | .ok _, .error _ => none
    | _, _ => some (.ok ⟨rs, snap.ops⟩)

end Pulumi.Rename
