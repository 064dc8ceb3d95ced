import Verif.Options.Model
/-! # Specification of merging -/
namespace Pulumi.Options

/-- The value is absent (`none`) or a list with these elements. -/
inductive ListAt (h : Heap) : Val → Option (List Val) → Prop
  | none : ListAt h .none none
  | list {a xs} : h[a]? = some (.list xs) → ListAt h (.ref a) (some xs)

/-- The dependencies in a `depends_on` option, in order: nothing, one resource, a list or a tuple, or something that
resolves to one of these (`later`). -/
inductive DependsAt (h : Heap) : Val → Bool → List Val → Prop
  | none : DependsAt h .none false []
  | one {n} : DependsAt h (.obj n) false [.obj n]
  | list {a xs} : h[a]? = some (.list xs) → DependsAt h (.ref a) false xs
  | tuple {a xs} : h[a]? = some (.tuple xs) → DependsAt h (.ref a) false xs
  | later {v xs} : v ≠ .none → DependsAt h v false xs → DependsAt h (.out v) true xs

/-- The providers in a `providers` option, in order: nothing, a list, or the values of a dict. -/
inductive ProvidersAt (h : Heap) : Val → List Val → Prop
  | none : ProvidersAt h .none []
  | list {a xs} : h[a]? = some (.list xs) → ProvidersAt h (.ref a) xs
  | dict {a kvs} : h[a]? = some (.dict kvs) → ProvidersAt h (.ref a) (kvs.map (·.2))

/-- The value is a provider. -/
def IsProvider (pkg : Nat → Option String) (v : Val) : Prop := ∃ n s, v = .obj n ∧ pkg n = some s

/-- The value is a provider for this package. -/
def ProviderFor (pkg : Nat → Option String) (v : Val) (s : String) : Prop := ∃ n, v = .obj n ∧ pkg n = some s

/-- Options that do not hold a collection. -/
inductive Scalar where
  | parent | protect | provider | deleteBeforeReplace | version | pluginDownloadUrl | customTimeouts | id | import_ | urn
  | retainOnDelete

/-- Options that hold a list. -/
inductive Coll where
  | ignoreChanges | replaceOnChanges | aliases | additionalSecretOutputs | transformations

def Opts.scalar (o : Opts) : Scalar → Val
  | .parent => o.parent
  | .protect => o.protect
  | .provider => o.provider
  | .deleteBeforeReplace => o.deleteBeforeReplace
  | .version => o.version
  | .pluginDownloadUrl => o.pluginDownloadUrl
  | .customTimeouts => o.customTimeouts
  | .id => o.id
  | .import_ => o.import_
  | .urn => o.urn
  | .retainOnDelete => o.retainOnDelete

def Opts.coll (o : Opts) : Coll → Val
  | .ignoreChanges => o.ignoreChanges
  | .replaceOnChanges => o.replaceOnChanges
  | .aliases => o.aliases
  | .additionalSecretOutputs => o.additionalSecretOutputs
  | .transformations => o.transformations

/-- What a program can see of an option bag. `providers` is the list of the providers, whatever form the option has. -/
structure Seen where
  scalar : Scalar → Val
  coll : Coll → Option (List Val)
  later : Bool
  dependsOn : List Val
  providers : List Val

/-- The argument of `merge` has these contents: `None` is the empty bag. -/
inductive Sees (pkg : Nat → Option String) (h : Heap) : Val → Seen → Prop
  | none : Sees pkg h .none ⟨fun _ => .none, fun _ => .none, false, [], []⟩
  | opts {a o s} : h[a]? = some (.opts o) → (∀ f, o.scalar f = s.scalar f) → (∀ f, ListAt h (o.coll f) (s.coll f)) →
      DependsAt h o.dependsOn s.later s.dependsOn → ProvidersAt h o.providers s.providers →
      (∀ p ∈ s.providers, IsProvider pkg p) → Sees pkg h (.ref a) s

/-- Concatenation, where absent is empty but two absent lists give an absent one. -/
def joined : Option (List Val) → Option (List Val) → Option (List Val)
  | none, none => none
  | a, b => some (a.getD [] ++ b.getD [])

end Pulumi.Options
