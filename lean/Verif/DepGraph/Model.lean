import Verif.Snapshot.Model
/-!
# Who needs whom among the resources of a checkpoint, and what is deleted when

`pkg/resource/graph/dependency_graph.go` (the dependency graph), the parts of
`pkg/resource/deploy/step_generator.go` that choose and schedule deletions, `pkg/resource/edit/operations.go` (edits of a
checkpoint by hand) and `pkg/cmd/pulumi/destroy.go:326-350` (what `--exclude-protected` spares). Paths are relative to
`/repo/`.

A `*resource.State` of the list is its position in it. `none` is a crash: a failed assertion, a missing entry that is
dereferenced, or a loop that does not end.
-/
namespace Pulumi.DepGraph
open Pulumi.Snapshot (State Provider Ref)

/-! ## `DependingOn` (dependency_graph.go:18-78) -/

/-- `isDependent` (34-54); a provider that does not parse fails the assertion of line 48 -/
def isDependent (res : State) (ignore : String → Bool) (children : Bool) (set : List String) (c : State) : Option Bool :=
  if ignore c.urn then some false
  else if children && decide (c.parent = res.urn) then some true
  else if c.deps.any (fun d => decide (d ∈ set)) then some true
  else
    match c.provider with
    | .none => some false
    | .malformed _ => none
    | .ref r => some (decide (r.urn ∈ set))

/-- lines 69-75, from position `i` on; the set is a list -/
def dependingOnFrom (res : State) (ignore : String → Bool) (children : Bool) :
    Nat → List State → List String → Option (List Nat)
  | _, [], _ => some []
  | i, c :: cs, set =>
    match isDependent res ignore children set c with
    | none => none
    | some true => (dependingOnFrom res ignore children (i + 1) cs (c.urn :: set)).map (i :: ·)
    | some false => dependingOnFrom res ignore children (i + 1) cs set

/-- `DependingOn` (23-78); a resource that is not in the graph fails the assertion of line 31 -/
def dependingOn (rs : List State) (i : Nat) (ignore : String → Bool) (children : Bool) : Option (List Nat) :=
  match rs[i]? with
  | none => none
  | some res => dependingOnFrom res ignore children (i + 1) (rs.drop (i + 1)) [res.urn]

/-! ## `NewDependencyGraph` (187-206) -/

/-- `urnIndex[urn]` (194-197) once the first states have been entered: the last of them with the URN, or 0, the zero value of
a missing entry -/
def lastIndex (urn : String) : List State → Nat → Nat → Nat
  | [], _, found => found
  | s :: ss, i, found => lastIndex urn ss (i + 1) (if s.urn = urn then i else found)

/-- lines 198-202: the URNs whose children the state becomes, one for each turn of the loop. A loop that takes more turns
than there are states comes back to one of them, and does not end: `fuel` bounds the turns. -/
def climb (seen : List State) : Nat → String → Option (List String)
  | 0, _ => none
  | fuel + 1, parent =>
    if parent = "" then some []
    else
      match seen[lastIndex parent seen 0 0]? with
      | none => none
      | some p => (climb seen fuel p.parent).map (parent :: ·)

/-- The ancestors of the state at position `i` -/
def ancestors (rs : List State) (i : Nat) : Option (List String) :=
  match rs[i]? with
  | none => none
  | some s => climb (rs.take (i + 1)) (rs.length + 2) s.parent

/-- `childrenOf` (192-203), as the ancestors of every state -/
def ancestorsOf (rs : List State) : Nat → Option (List (List String))
  | 0 => some []
  | n + 1 =>
    match ancestorsOf rs n with
    | none => none
    | some l =>
      match ancestors rs n with
      | none => none
      | some a => some (l ++ [a])

/-- `NewDependencyGraph` (190-206) -/
def newGraph (rs : List State) : Option (List (List String)) := ancestorsOf rs rs.length

/-- `childrenOf[urn]`; a state that has the URN more than once among its ancestors is repeated in the code -/
def childrenOf (g : List (List String)) (urn : String) : List Nat :=
  (List.range g.length).filter (fun i => decide (urn ∈ (g[i]?).getD []))

/-! ## `DependenciesOf` (80-124) -/

/-- `dependentUrns` (85-94) -/
def dependentUrns (s : State) : Option (List String) :=
  match s.provider with
  | .none => some s.deps
  | .malformed _ => none
  | .ref r => some (s.deps ++ [r.urn])

/-- one turn of the loop (98-121) for the candidate at position `c` -/
def dependenciesAt (g : List (List String)) (i : Nat) (s : State) (urns : List String) (c : Nat) (t : State) : List Nat :=
  (if t.urn ∈ urns then c :: (if t.custom then [] else (childrenOf g t.urn).filter (fun k => decide (k < i))) else []) ++
  (if t.urn = s.parent then [c] else [])

/-- `DependenciesOf` (82-124), as a list of positions -/
def dependenciesOf (rs : List State) (g : List (List String)) (i : Nat) : Option (List Nat) :=
  match rs[i]? with
  | none => none
  | some s =>
    match dependentUrns s with
    | none => none
    | some urns => some ((List.range i).reverse.flatMap (fun c =>
        match rs[c]? with
        | none => []
        | some t => dependenciesAt g i s urns c t))

/-! ## `ScheduleDeletes` (step_generator.go:1181-1242) -/

/-- lines 1209-1220: which of the condemned have no condemned dependency -/
def ready (rs : List State) (g : List (List String)) (condemned : List Nat) : List Nat → Option (List Nat)
  | [] => some []
  | i :: is =>
    match dependenciesOf rs g i with
    | none => none
    | some ds =>
      match ready rs g condemned is with
      | none => none
      | some l => some (if ds.any (fun d => decide (d ∈ condemned)) then l else i :: l)

/-- lines 1206-1228, before the list is turned around. The set of the condemned is walked in whatever order Go chooses, each
time anew: the order is `order`. A round in which nothing is ready would be repeated for ever: `fuel` bounds the rounds. -/
def rounds (rs : List State) (g : List (List String)) (order : List Nat → List Nat) : Nat → List Nat → Option (List (List Nat))
  | fuel, condemned =>
    if condemned = [] then some []
    else
      match fuel with
      | 0 => none
      | fuel + 1 =>
        match ready rs g condemned (order condemned) with
        | none => none
        | some steps =>
          (rounds rs g order fuel (condemned.filter (fun i => decide (i ∉ steps)))).map (steps :: ·)

/-- `ScheduleDeletes` (1181-1242). A step is the position of the state it deletes. -/
def scheduleDeletes (rs : List State) (g : List (List String)) (order : List Nat → List Nat) (trust : Bool)
    (steps : List Nat) : Option (List (List Nat)) :=
  if trust then (rounds rs g order steps.length steps).map List.reverse
  else some (steps.map (fun i => [i]))

/-! ## `GenerateDeletes` (905-1044) and `GeneratePendingDeletes` (1140-1155) -/

/-- What the step generator has seen of the program when the deletions are generated (46-70) -/
structure Seen where
  sames : List String
  updates : List String
  replaces : List String
  reads : List String
  aliased : List String
  urns : List String
  pendingDeletes : List Nat
deriving Repr

/-- A deletion: of a state that was superseded (931), of one the program no longer has (940), or of one that was deleted
before and only has to leave the list (942). -/
inductive Deletion where
  | replaced (i : Nat)
  | gone (i : Nat)
  | removed (i : Nat)
deriving DecidableEq, Repr

def Deletion.pos : Deletion → Nat
  | .replaced i => i
  | .gone i => i
  | .removed i => i

/-- lines 913-945 for one state -/
def deletionOf (seen : Seen) (i : Nat) (s : State) : Option Deletion :=
  if s.delete then
    if i ∈ seen.pendingDeletes then none else some (.replaced i)
  else if s.urn ∈ seen.sames ∨ s.urn ∈ seen.updates ∨ s.urn ∈ seen.replaces ∨ s.urn ∈ seen.reads ∨ s.urn ∈ seen.aliased then
    none
  else if s.pendingReplacement then some (.removed i)
  else some (.gone i)

/-- lines 909-948: the list is walked backwards -/
def deletions (seen : Seen) (rs : List State) : List Deletion :=
  (List.range rs.length).reverse.filterMap (fun i =>
    match rs[i]? with
    | none => none
    | some s => deletionOf seen i s)

/-- `GeneratePendingDeletes` (1140-1155) -/
def pendingDeletes (rs : List State) : List Nat :=
  (List.range rs.length).reverse.filter (fun i =>
    match rs[i]? with
    | none => false
    | some s => s.delete)

/-! ### Targets -/

/-- `buildResourceMap` (deployment.go:291-312): the state that `olds` has for the URN -/
def oldOf (rs : List State) (urn : String) : Option Nat :=
  (List.range rs.length).find? (fun i =>
    match rs[i]? with
    | none => false
    | some s => !s.delete && decide (s.urn = urn))

/-- the loop of `getTargetDependents` (1060-1076). Every turn takes a state from the frontier. `fuel` bounds the turns. -/
def explore (rs : List State) : Nat → List Nat → List String → Option (List String)
  | _, [], targets => some targets
  | 0, _ :: _, _ => none
  | fuel + 1, i :: frontier, targets =>
    match rs[i]? with
    | none => none
    | some s =>
      if s.urn ∈ targets then explore rs fuel frontier targets
      else
        match dependingOn rs i (fun u => decide (u ∈ s.urn :: targets)) true with
        | none => none
        | some deps => explore rs fuel (frontier ++ deps) (s.urn :: targets)

/-- lines 1050-1055 -/
def frontierOf (rs : List State) (targets : List String) : List Nat :=
  (List.range rs.length).filter (fun i =>
    match rs[i]? with
    | none => false
    | some s => decide (s.urn ∈ targets))

/-- `getTargetDependents` (1048-1079); a state enters the frontier once for every state explored before it, and once as a
target -/
def targetDependents (rs : List State) (targets : List String) : Option (List String) :=
  explore rs (rs.length * (rs.length + 1)) (frontierOf rs targets) []

/-- What the provider of a resource says of a change to some of its inputs: whether it calls for a replacement
(`prov.Diff`, 1672-1676), or an error (also from 1664-1668). The keys are those whose value is not known. -/
abbrev Differ := Nat → List String → Except String Bool

/-- the keys of `r.Inputs` that depend on a URN in the set (1646-1656); `inputs` are the keys of `r.Inputs` -/
def unknownKeys (inputs : List String) (s : State) (set : List String) : List String :=
  inputs.filter (fun k => s.propDeps.any (fun kv => decide (kv.1 = k) && kv.2.any (fun d => decide (d ∈ set))))

/-- `requiresReplacement` (1636-1681); the keys it returns only go into events -/
def requiresReplacement (inputs : Nat → List String) (differ : Differ) (set : List String) (i : Nat) (s : State) :
    Except String Bool :=
  if !s.custom || s.external then .ok false
  else
    let byInputs := if unknownKeys (inputs i) s set = [] then .ok false else differ i (unknownKeys (inputs i) s set)
    match s.provider with
    | .none => byInputs
    | .malformed m => .error m
    | .ref r => if r.urn ∈ set then .ok true else byInputs

/-- lines 1701-1709 -/
def replacementsFrom (rs : List State) (inputs : Nat → List String) (differ : Differ) :
    List Nat → List String → Option (Except String (List Nat))
  | [], _ => some (.ok [])
  | i :: is, set =>
    match rs[i]? with
    | none => none
    | some s =>
      match requiresReplacement inputs differ set i s with
      | .error e => some (.error e)
      | .ok false => replacementsFrom rs inputs differ is set
      | .ok true =>
        match replacementsFrom rs inputs differ is (s.urn :: set) with
        | none => none
        | some (.error e) => some (.error e)
        | some (.ok l) => some (.ok (i :: l))

/-- `calculateDependentReplacements` (1611-1713) -/
def dependentReplacements (rs : List State) (seen : Seen) (inputs : Nat → List String) (differ : Differ) (root : Nat) :
    Option (Except String (List Nat)) :=
  match rs[root]? with
  | none => none
  | some s =>
    match dependingOn rs root (fun u => decide (u ∈ seen.urns)) false with
    | none => none
    | some ds => replacementsFrom rs inputs differ ds [s.urn]

/-- the loop of `determineAllowedResourcesToDeleteFromTargets` (1099-1124) over the targets; the order of the targets
decides which error is returned -/
def allowedFrom (rs : List State) (seen : Seen) (inputs : Nat → List String) (differ : Differ) :
    List String → Option (Except String (List String))
  | [] => some (.ok [])
  | t :: ts =>
    match oldOf rs t with
    | none => allowedFrom rs seen inputs differ ts
    | some i =>
      match dependentReplacements rs seen inputs differ i with
      | none => none
      | some (.error e) => some (.error e)
      | some (.ok deps) =>
        match allowedFrom rs seen inputs differ ts with
        | none => none
        | some (.error e) => some (.error e)
        | some (.ok l) => some (.ok (t :: deps.filterMap (fun d => (rs[d]?).map (·.urn)) ++ l))

/-- How a generation of deletions ends: an error, a bail-out after reporting what was not specified, or the deletions,
with whether something that was not specified has been reported (`sawError`). -/
inductive Generated where
  | error (e : String)
  | bail
  | deletes (l : List Deletion) (sawError : Bool)
deriving DecidableEq, Repr

/-- the URN of the state a deletion deletes (`step.URN()`) -/
def Deletion.urn (rs : List State) (d : Deletion) : String := ((rs[d.pos]?).map (·.urn)).getD ""

/-- The end of `GenerateDeletes` (1014-1043) -/
def checkTargets (rs : List State) (targets : List String) (targetDependents preview : Bool) (dels : List Deletion) :
    Generated :=
  let unspecified := dels.any (fun d => !decide (d.urn rs ∈ targets) && !targetDependents)
  if unspecified && !preview then .bail else .deletes dels unspecified

/-- `GenerateDeletes` (905-1044), without an update plan (951-987). No targets means that everything is a target. -/
def generateDeletes (rs : List State) (seen : Seen) (inputs : Nat → List String) (differ : Differ)
    (targetDeps preview : Bool) : Option (List String) → Option Generated
  | none => some (.deletes (deletions seen rs) false)
  | some targets =>
    match targetDependents rs targets with
    | none => none
    | some ts =>
      match allowedFrom rs seen inputs differ ts with
      | none => none
      | some (.error e) => some (.error e)
      | some (.ok allowed) =>
        some (checkTargets rs targets targetDeps preview
          ((deletions seen rs).filter (fun d => decide (d.urn rs ∈ allowed))))

/-! ## `DeleteResource` (edit/operations.go:33-76) -/

inductive EditErr where
  | isProtected
  | hasDependents (l : List Nat)
deriving DecidableEq, Repr

def deleteResource (rs : List State) (i : Nat) : Option (Except EditErr (List State)) :=
  match rs[i]? with
  | none => none
  | some s =>
    if s.protect then some (.error .isProtected)
    else
      match newGraph rs, dependingOn rs i (fun _ => false) false with
      | some _, some [] =>
        match (List.range rs.length).filter (fun k => decide ((rs[k]?).map (·.parent) = some s.urn)) with
        | [] => some (.ok (rs.eraseIdx i))
        | cs => some (.error (.hasDependents cs))
      | some _, some ds => some (.error (.hasDependents ds))
      | _, _ => none

/-- `LocateResource` (85-99) -/
def locateResource (rs : List State) (urn : String) : List Nat :=
  (List.range rs.length).filter (fun i => decide ((rs[i]?).map (·.urn) = some urn))

/-- the choice of `locateStackResource` (`pkg/cmd/pulumi/state.go:57-107`) that needs no terminal -/
inductive Located where
  | missing
  | ambiguous (l : List Nat)
  | found (i : Nat)
deriving DecidableEq, Repr

def locate (rs : List State) (urn : String) : Located :=
  match locateResource rs urn with
  | [] => .missing
  | [i] => .found i
  | l => .ambiguous l

/-! ## `TransitiveDependenciesOf` (dependency_graph.go:126-185) and `seperateProtected` (destroy.go:326-341) -/

/-- What `markAsDependency` changes: the URNs marked, and those of providers in use. -/
structure Marks where
  marked : List String
  providers : List String
deriving Repr

/-- `urns[urn]` (134-137): the last state with the URN -/
def nodeOf (rs : List State) (urn : String) : Option Nat :=
  (List.range rs.length).reverse.find? (fun i => decide ((rs[i]?).map (·.urn) = some urn))

mutual
/-- `markAsDependency` (163-185) at one state. The recursion is not cut short at marked states: dependencies that form a
cycle never end, which `fuel` bounds. -/
def mark (rs : List State) : Nat → String → Marks → Option Marks
  | 0, _, _ => none
  | fuel + 1, urn, m =>
    match nodeOf rs urn with
    | none => none
    | some i =>
      match rs[i]? with
      | none => none
      | some s =>
        match s.provider with
        | .malformed _ => none
        | .none => markRest rs fuel s ⟨urn :: m.marked, m.providers⟩
        | .ref r => markRest rs fuel s ⟨urn :: m.marked, r.urn :: m.providers⟩
/-- lines 172-183: the dependencies, and then the parent unless it is marked or missing -/
def markRest (rs : List State) : Nat → State → Marks → Option Marks
  | 0, _, _ => none
  | fuel + 1, s, m =>
    match markAll rs fuel s.deps m with
    | none => none
    | some m => if (nodeOf rs s.parent).isSome && !decide (s.parent ∈ m.marked) then mark rs fuel s.parent m else some m
/-- lines 172-174 -/
def markAll (rs : List State) : Nat → List String → Marks → Option Marks
  | 0, _, _ => none
  | _ + 1, [], m => some m
  | fuel + 1, d :: ds, m =>
    match mark rs fuel d m with
    | none => none
    | some m => markAll rs fuel ds m
end

/-- lines 144-148: the URNs are walked in whatever order Go chooses, and a provider that comes into use after its turn is
not looked at again -/
def markProviders (rs : List State) (fuel : Nat) : List String → Marks → Option Marks
  | [], m => some m
  | u :: us, m =>
    if u ∈ m.providers then
      match mark rs fuel u m with
      | none => none
      | some m => markProviders rs fuel us m
    else markProviders rs fuel us m

/-- `TransitiveDependenciesOf` (131-160), as positions; `order` is the order in which the URNs are walked -/
def transitiveDependenciesOf (rs : List State) (fuel : Nat) (order : List String) (i : Nat) : Option (List Nat) :=
  match rs[i]? with
  | none => none
  | some s =>
    match mark rs fuel s.urn ⟨[], []⟩ with
    | none => none
    | some m =>
      match markProviders rs fuel order m with
      | none => none
      | some m => some ((List.range rs.length).filter (fun k =>
          decide (k ≠ i) && m.marked.any (fun u => decide (nodeOf rs u = some k))))

/-- `seperateProtected` (destroy.go:333-348): the positions that are spared; Go may walk the URNs in another order for every
protected resource -/
def sparedFrom (rs : List State) (fuel : Nat) (order : Nat → List String) : List Nat → Option (List Nat)
  | [] => some []
  | i :: is =>
    match rs[i]? with
    | none => none
    | some s =>
      if s.protect then
        match transitiveDependenciesOf rs fuel (order i) i, sparedFrom rs fuel order is with
        | some l, some l' => some (i :: l ++ l')
        | _, _ => none
      else sparedFrom rs fuel order is

/-- `seperateProtected` (333-348) of a whole stack -/
def spared (rs : List State) (fuel : Nat) (order : Nat → List String) : Option (List Nat) :=
  sparedFrom rs fuel order (List.range rs.length)

/-- `handleExcludeProtected` (351-366): the URNs of the others, which become the targets; their order, which is that of a Go
map, does not matter -/
def excludeProtected (rs : List State) (fuel : Nat) (order : Nat → List String) : Option (List String) :=
  match spared rs fuel order with
  | none => none
  | some sp => some (((List.range rs.length).filter (fun i => decide (i ∉ sp))).filterMap
      (fun i => (rs[i]?).map (·.urn)))

end Pulumi.DepGraph
