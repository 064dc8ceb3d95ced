/-!
# Dependency declaration and expansion

Models `runtime/resource_cycle_breaker.py` (whole file) and the dependency expansion of
`runtime/resource.py:767-825` (`_add_dependency`, `_expand_dependencies`) together with the part of
`prepare_resource` that assembles the dependency sets (`runtime/resource.py:167-182`).

Resources are identified by a natural number standing for Python object identity.
-/
namespace Pulumi.Deps

/-- Object identity of a `Resource`. -/
abbrev ResId := Nat

/-- The `_direct_computed_dependencies` attribute of every resource
(`resource_cycle_breaker.py:21,39-40`): a finite association list from a resource to its set of direct
dependencies; a resource without the attribute has the empty set (`getattr(..., set())`).
Python sets are represented by lists whose order is irrelevant to every theorem. -/
abbrev Graph := List (ResId × List ResId)

/-- `_deps` (`resource_cycle_breaker.py:39-40`). -/
def deps (g : Graph) (r : ResId) : List ResId :=
  match g with
  | [] => []
  | (k, ds) :: g => if k = r then ds else deps g r

/-- `_add_dep` (`resource_cycle_breaker.py:43-46`): `setattr(from, P, _deps(from) | {to})`. -/
def addDep (g : Graph) (fromR toR : ResId) : Graph :=
  match g with
  | [] => [(fromR, [toR])]
  | (k, ds) :: g =>
    if k = fromR then (k, if toR ∈ ds then ds else ds ++ [toR]) :: g
    else (k, ds) :: addDep g fromR toR

/-- State of one `_with_transitive_deps` enumeration (`resource_cycle_breaker.py:59-70`): the shared
mutable `visited` set and the sequence of values yielded so far. -/
structure Walk where
  visited : List ResId
  yielded : List ResId
deriving DecidableEq

/-- `_with_transitive_deps(r, visited)` (`resource_cycle_breaker.py:59-70`). `fuel` bounds the recursion
depth and `none` means "recursion deeper than fuel"; `reachable_isSome` in `Lemmas` shows that the fuel used
below is never exhausted, i.e. that the recursion of the code terminates. -/
def walk (g : Graph) : Nat → ResId → Walk → Option Walk
  | 0, _, _ => none
  | fuel + 1, r, w =>
    -- line 62-63: `if r in visited: return`
    if r ∈ w.visited then some w
    else
      -- line 65-66: `visited.add(r); yield r`, then line 68-70: `for x in _deps(r): for y in recurse(x): yield y`
      (deps g r).foldlM (fun w x => walk g fuel x w)
        { visited := r :: w.visited, yielded := w.yielded ++ [r] }

/-- All nodes that own dependencies; every recursion of `walk` that enters the loop body visits one of
them or a node without dependencies. -/
def keys (g : Graph) : List ResId := g.map (·.1)

/-- The recursion budget handed to `walk`: number of nodes with dependencies, plus two. -/
def budget (g : Graph) : Nat := (keys g).length + 2

/-- `_reachable` (`resource_cycle_breaker.py:49-56`): enumerate and compare. `none` would mean
non-termination of the enumeration; `Lemmas.reachable_isSome` excludes it. The Python generator stops at the
first hit; whether there is a hit is the same. -/
def reachable? (g : Graph) (fromR toR : ResId) : Option Bool :=
  (walk g (budget g) fromR { visited := [], yielded := [] }).map fun w => w.yielded.any (· == toR)

/-- `declare_dependency` (`resource_cycle_breaker.py:24-36`); the result is the new graph and the returned
boolean, or `none` if the reachability test did not terminate. -/
def declare? (g : Graph) (fromR toR : ResId) : Option (Graph × Bool) :=
  match reachable? g toR fromR with
  | none => none
  | some true => some (g, false)
  | some false => some (addDep g fromR toR, true)

/-- A history of `declare_dependency` calls, from the empty graph or any other. -/
def declareAll? (g : Graph) : List (ResId × ResId) → Option (Graph × List Bool)
  | [] => some (g, [])
  | (a, b) :: h =>
    match declare? g a b with
    | none => none
    | some (g', r) =>
      match declareAll? g' h with
      | none => none
      | some (g'', rs) => some (g'', r :: rs)

/-! ## Expansion of components -/

/-- What `_add_dependency` distinguishes (`runtime/resource.py:802`): custom resources (including dependency
placeholders), local components and remote components. -/
inductive Kind where
  | custom | localComponent | remoteComponent
deriving DecidableEq

/-- A resource with its children (`Resource._childResources`). The parent of a resource is fixed by its
constructor, so the children relation is a finite tree. `urn` is the result of `await res.urn.future()`:
`none` when the URN is not known. -/
inductive Res where
  | mk (id : ResId) (kind : Kind) (urn : Option String) (children : List Res)

def Res.id : Res → ResId | .mk i _ _ _ => i
def Res.kind : Res → Kind | .mk _ k _ _ => k
def Res.urn : Res → Option String | .mk _ _ u _ => u
def Res.children : Res → List Res | .mk _ _ _ c => c

/-- Shared state during an expansion: the global dependency graph and the `deps: Set[str]` being built. -/
structure Expand where
  graph : Graph
  urns : List String
deriving DecidableEq

/-- Python `set.add`. -/
def setAdd (s : List String) (u : String) : List String := if u ∈ s then s else s ++ [u]

/-- Lines 809-811: `urn = await res.urn.future(); if urn: deps.add(urn)` — `None` and the empty string are
falsy. -/
def addUrn (urns : List String) (u : Option String) : List String :=
  match u with
  | none => urns
  | some u => if u = "" then urns else setAdd urns u

/-- Lines 807-811 of `_add_dependency`: the non-component case. -/
def addLeaf (st : Expand) (r : Res) (fromR : Option ResId) : Option Expand :=
  match fromR with
  | none => some { st with urns := addUrn st.urns r.urn }
  | some f =>
    match declare? st.graph f r.id with
    | none => none
    | some (g, true) => some { graph := g, urns := addUrn st.urns r.urn }
    | some (g, false) => some { st with graph := g }

mutual
/-- `_add_dependency` (`runtime/resource.py:767-811`). The awaits of the code are the points at which other
registrations may run; between them only this function's own calls touch `urns`. The model runs one
expansion without interference on `graph`; interference with the graph is covered by quantifying over the
initial graph and by `declareAll?` over arbitrary histories. -/
def addDependency (st : Expand) (r : Res) (fromR : Option ResId) : Option Expand :=
  match r with
  | Res.mk _ .localComponent _ cs => addDependencies st cs fromR
  | .mk i k u cs => addLeaf st (.mk i k u cs) fromR

/-- The loops at `runtime/resource.py:803-804` and `822-823` (`_expand_dependencies`). -/
def addDependencies (st : Expand) (rs : List Res) (fromR : Option ResId) : Option Expand :=
  match rs with
  | [] => some st
  | r :: rs =>
    match addDependency st r fromR with
    | none => none
    | some st' => addDependencies st' rs fromR
end

/-- `_expand_dependencies` (`runtime/resource.py:814-825`). -/
def expandDependencies (g : Graph) (rs : List Res) (fromR : Option ResId) : Option Expand :=
  addDependencies { graph := g, urns := [] } rs fromR

/-- Python set union `a |= b` on lists. -/
def setUnion (a b : List String) : List String := b.foldl setAdd a

/-- Result of the dependency part of `prepare_resource`. -/
structure Prepared where
  graph : Graph
  dependencies : List String
  propertyDependencies : List (String × List String)

/-- `runtime/resource.py:167-172`: starting from the explicit URNs, expand the resources of each property,
adding them to the total and recording them under the property name. -/
def prepareDeps (g : Graph) (explicitUrns : List String) (self : ResId)
    (props : List (String × List Res)) : Option Prepared :=
  match props with
  | [] => some { graph := g, dependencies := explicitUrns, propertyDependencies := [] }
  | (k, rs) :: props =>
    match expandDependencies g rs (some self) with
    | none => none
    | some e =>
      match prepareDeps e.graph (setUnion explicitUrns e.urns) self props with
      | none => none
      | some p => some { p with propertyDependencies := (k, e.urns) :: p.propertyDependencies }

/-- The alias loop of `prepare_resource` (`runtime/resource.py:178-182`): append unless already present. -/
def dedupAliases (acc : List (Option String)) : List (Option String) → List (Option String)
  | [] => acc
  | a :: as => if a ∈ acc then dedupAliases acc as else dedupAliases (acc ++ [a]) as

end Pulumi.Deps
