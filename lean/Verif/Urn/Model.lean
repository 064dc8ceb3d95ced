/-!
# URNs, provider references and aliases

Models `urn.py:23-41` (`_parse_urn`), `resource.py:81-167` (`inherited_child_alias`, `urn_type_and_name`,
`all_aliases`), `resource.py:188-291` (`Alias`, `collapse_alias_to_urn`), `resource.py:1237-1278`
(`create_urn`, `_parse_resource_reference`) and the construction of provider references at
`runtime/resource.py:150-152,162-165`.

A Python string is the list of its code points. The functions of the code are written over `Output`s; the
model is the function that the `apply`/`all` calls run on the resolved values (that `apply` and `all` run the
function on the resolved values, and how they propagate known/secret/dependencies, is `Pulumi.Output`).
-/
namespace Pulumi.Urn

/-- A Python `str`: its sequence of code points. -/
abbrev Text := List Char

/-- Exceptions raised by the modelled functions. -/
inductive Err where
  /-- `ValueError("Cannot parse URN: ...")` (`urn.py:41`) or `ValueError: substring not found`. -/
  | value
  /-- `IndexError: list index out of range`. -/
  | index
  /-- `Exception("No valid 'name' passed in for alias.")` (`resource.py:283`). -/
  | aliasName
  /-- `Exception("No valid 'type_' passed in for alias.")` (`resource.py:286`). -/
  | aliasType
deriving DecidableEq, Repr

/-- Put a character in front of the first piece. -/
def consHead (c : Char) : List Text → List Text
  | [] => [[c]]
  | p :: ps => (c :: p) :: ps

/-- `s.split("::")`: leftmost, non-overlapping occurrences. -/
def splitSep : Text → List Text
  | [] => [[]]
  | [c] => [[c]]
  | c :: d :: s =>
    if c = ':' ∧ d = ':' then [] :: splitSep s
    else consHead c (splitSep (d :: s))

/-- `s.split(sep)` for a separator of one character. -/
def splitChar (sep : Char) : Text → List Text
  | [] => [[]]
  | c :: s => if c = sep then [] :: splitChar sep s else consHead c (splitChar sep s)

/-- `s.rfind("::")`, `none` for `-1`. -/
def rfindSep? : Text → Option Nat
  | [] => none
  | c :: s =>
    match rfindSep? s with
    | some i => some (i + 1)
    | none => if c = ':' ∧ s.head? = some ':' then some 0 else none

/-- `u[u.rfind("::") + 2 :]`; when there is no separator `rfind` is `-1` and the slice is `u[1:]`. -/
def afterLastSep (u : Text) : Text :=
  match rfindSep? u with
  | some i => u.drop (i + 2)
  | none => u.drop 1

/-- `u[0 : u.rfind("::")]`; when there is no separator the slice is `u[0:-1]`. -/
def beforeLastSep (u : Text) : Text :=
  match rfindSep? u with
  | some i => u.take i
  | none => u.dropLast

/-- `_UrnParts` (`urn.py:18-20`). -/
structure Parts where
  urnName : Text
  typ : Text
  pkgName : Text
  modName : Text
  typName : Text
deriving DecidableEq, Repr

/-- `l[i] if len(l) > i else ""`. -/
def getOr (l : List Text) (i : Nat) : Text := l.getD i []

/-- `_parse_urn` (`urn.py:23-41`). `urn_parts[2]` raises when there are fewer than three parts and every
exception is turned into a `ValueError`. -/
def parseUrn (urn : Text) : Except Err Parts :=
  let parts := splitSep urn
  let name := getOr parts 3
  match parts[2]? with
  | none => .error .value
  | some qualified =>
    let typ := (splitChar '$' qualified).getLastD []
    let tp := splitChar ':' typ
    .ok { urnName := name, typ := typ, pkgName := getOr tp 0, modName := getOr tp 1, typName := getOr tp 2 }

/-- `urn_type_and_name` (`resource.py:112-115`); returns (name, type), as the code does. -/
def urnTypeAndName (urn : Text) : Except Err (Text × Text) :=
  let parts := splitSep urn
  match parts[2]? with
  | none => .error .index
  | some qualified =>
    match parts[3]? with
    | none => .error .index
    | some name => .ok (name, (splitChar '$' qualified).getLastD [])

/-- The constants `"::"` and `"urn:pulumi:"`. -/
def sep : Text := [':', ':']
def urnPrefix : Text := ['u', 'r', 'n', ':', 'p', 'u', 'l', 'u', 'm', 'i', ':']

/-- The ambient `get_stack()` and `get_project()` (`runtime/settings.py:155-185`). -/
structure Ambient where
  stack : Text
  project : Text
deriving DecidableEq, Repr

/-- `create_urn` (`resource.py:1237-1268`) on resolved values. `parent` is the URN of the parent (the `urn` of
a resource, or the given string). -/
def createUrn (amb : Ambient) (name type_ : Text) (parent project stack : Option Text) : Text :=
  let parentPrefix :=
    match parent with
    | some u => beforeLastSep u ++ ['$']
    | none =>
      let stack := stack.getD amb.stack
      let project := project.getD amb.project
      urnPrefix ++ stack ++ sep ++ project ++ sep
  parentPrefix ++ type_ ++ sep ++ name

/-- Provider references, `f"{provider_urn}::{provider_id}"` (`runtime/resource.py:152,164`). -/
def makeRef (urn id : Text) : Text := urn ++ sep ++ id

/-- `_parse_resource_reference` (`resource.py:1271-1278`); `rindex` raises when there is no separator. -/
def parseRef (ref : Text) : Except Err (Text × Text) :=
  match rfindSep? ref with
  | none => .error .value
  | some i => .ok (ref.take i, ref.drop (i + 2))

/-- `inherited_child_alias` (`resource.py:81-108`) on resolved values. -/
def inheritedChildAlias (amb : Ambient) (childName parentName parentAlias childType : Text) : Text :=
  let aliasName :=
    if parentName.isPrefixOf childName then afterLastSep parentAlias ++ childName.drop parentName.length
    else childName
  createUrn amb aliasName childType (some parentAlias) none none

/-- A field of an `Alias` (`resource.py:242-259`): left at `...`, or given (possibly `None`). -/
inductive Field (α : Type) where
  | unset
  | given (a : α)
deriving DecidableEq, Repr

/-- `x if x is not ... else default`. -/
def Field.getD {α : Type} (f : Field α) (d : α) : α :=
  match f with
  | .unset => d
  | .given a => a

/-- `Alias` (`resource.py:188-259`); a parent is represented by its URN. -/
structure Alias where
  name : Field (Option Text) := .unset
  type_ : Field (Option Text) := .unset
  parent : Field (Option Text) := .unset
  stack : Field (Option Text) := .unset
  project : Field (Option Text) := .unset
deriving DecidableEq, Repr

/-- `Union[Alias, str]`. -/
inductive AliasInput where
  | urn (u : Text)
  | alias (a : Alias)
deriving DecidableEq, Repr

/-- `collapse_alias_to_urn` (`resource.py:262-291`) on resolved values. -/
def collapseAlias (amb : Ambient) (a : AliasInput) (defaultName defaultType : Text)
    (defaultParent : Option Text) : Except Err Text :=
  match a with
  | .urn u => .ok u
  | .alias a =>
    let name := a.name.getD (some defaultName)
    let type_ := a.type_.getD (some defaultType)
    let parent := a.parent.getD defaultParent
    let project := a.project.getD (some amb.project)
    let stack := a.stack.getD (some amb.stack)
    match name with
    | none => .error .aliasName
    | some name =>
      match type_ with
      | none => .error .aliasType
      | some type_ => .ok (createUrn amb name type_ parent project stack)

/-- What `all_aliases` uses of a parent resource: `_name`, `urn` and `_aliases`. -/
structure Parent where
  name : Text
  urn : Text
  aliases : List (Except Err Text)

/-- `Output.apply` on a settled value: a failed Output stays failed. -/
def applyOut {α β : Type} (x : Except Err α) (f : α → Except Err β) : Except Err β :=
  match x with
  | .error e => .error e
  | .ok a => f a

/-- `inherited_alias_for_child_urn` (`resource.py:149-159`), for a resolved child alias. -/
def inheritedForChildUrn (amb : Ambient) (p : Parent) (pa : Except Err Text) (caUrn : Text) : Except Err Text :=
  match urnTypeAndName caUrn with
  | .error e => .error e
  | .ok (name, typ) => applyOut pa fun pa => .ok (inheritedChildAlias amb name p.name pa typ)

/-- The aliases contributed by one parent alias (`resource.py:138-165`). When the child's name does not start
with the parent's name the code does not look at the parent alias to compute the name, but `create_urn` does
look at it, so a failed parent alias always gives a failed alias. In the loop over child aliases
`child_alias_urn.apply` comes first: its failure is reported before that of the parent alias. -/
def aliasesForParentAlias (amb : Ambient) (childAliases : List AliasInput) (childName childType : Text)
    (p : Parent) (pa : Except Err Text) : List (Except Err Text) :=
  applyOut pa (fun pa => .ok (inheritedChildAlias amb childName p.name pa childType)) ::
    childAliases.map fun ca =>
      applyOut (collapseAlias amb ca childName childType (some p.urn)) (inheritedForChildUrn amb p pa)

/-- `all_aliases` (`resource.py:118-167`). Each element of the result is a settled `Output[str]`. -/
def allAliases (amb : Ambient) (childAliases : Option (List AliasInput)) (childName childType : Text)
    (parent : Option Parent) : List (Except Err Text) :=
  let cas := childAliases.getD []
  let own := cas.map fun ca => collapseAlias amb ca childName childType (parent.map (·.urn))
  match parent with
  | none => own
  | some p => own ++ p.aliases.flatMap (aliasesForParentAlias amb cas childName childType p)

end Pulumi.Urn
