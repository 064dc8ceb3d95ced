import Verif.Register.Model
import Verif.Wire.Spec
import Verif.Deps.Spec
/-! # Specification of requests to register and read resources -/
namespace Pulumi.Register
open Pulumi.Wire (Env PV W ResId)

/-- An entry of `depends_on` stands for the resource: it is the resource, or gives it later, or is an Output that depends on
it. In a preview the value of an unknown Output is not there. -/
inductive Gives (dry : Bool) : Item → ResId → Prop
  | resource {r} : Gives dry (.resource r) r
  | future {v r} : Gives dry v r → Gives dry (.future v) r
  | coroutine {i v r} : Gives dry v r → Gives dry (.coroutine i v) r
  | outputOn {rs known v r} : r ∈ rs → Gives dry (.output rs known v) r
  | output {rs known v r} : (dry = true → known = true) → Gives dry v r → Gives dry (.output rs known v) r

/-- The entries of a value of `depends_on`. -/
def Value.Has : Value → Item → Prop
  | .seq xs, x => x ∈ xs
  | .one y, x => x = y

/-- The `depends_on` option asks for a dependency on the resource. -/
inductive AsksFor (dry : Bool) : DependsOn → ResId → Prop
  | now {v x r} : v.Has x → Gives dry x r → AsksFor dry (.now v) r
  | future {v x r} : v.Has x → Gives dry x r → AsksFor dry (.future v) r
  | coroutine {i v x r} : v.Has x → Gives dry x r → AsksFor dry (.coroutine i v) r
  | outputOn {rs v r} : r ∈ rs → AsksFor dry (.output rs v) r
  | output {rs v x r} : v.Has x → Gives dry x r → AsksFor dry (.output rs (some v)) r

/-- The entry comes to a resource or to nothing, without an exception, and has no coroutine in it. -/
inductive Item.Good (dry : Bool) : Item → Prop
  | none : Good dry .none
  | resource {r} : Good dry (.resource r)
  | future {v} : Good dry v → Good dry (.future v)
  | unknown {rs v} : dry = true → Good dry (.output rs false v)
  | output {rs known v} : Good dry v → Good dry (.output rs known v)

/-- The same of all entries of a `depends_on`. -/
def DependsOn.Good (dry : Bool) : DependsOn → Prop
  | .none => True
  | .now v => ∀ x, v.Has x → x.Good dry
  | .future v => ∀ x, v.Has x → x.Good dry
  | .coroutine _ _ => False
  | .failing _ => False
  | .output _ .none => True
  | .output _ (some v) => ∀ x, v.Has x → x.Good dry

/-- What the text field of a request has for an optional string. -/
def Text (field : String) (given : Option String) : Prop := (∀ s, given = some s → field = s) ∧ (given = none → field = "")

/-- What the flag of a request has for an optional flag. -/
def Flag (field : Bool) (given : Option Bool) : Prop := field = true ↔ given = some true

/-- The parent that is sent: the one given; if there is none, the root resource, except for the stack itself. -/
inductive ParentIs (c : Ctx) (ty : String) : Option ResId → String → Prop
  | given {p u} : Text u (c.env.info p).urn.value → ParentIs c ty (some p) u
  | root {p u} : ty ≠ "pulumi:pulumi:Stack" → c.root = some p → Text u (c.env.info p).urn.value → ParentIs c ty none u
  | noRoot : ty ≠ "pulumi:pulumi:Stack" → c.root = none → ParentIs c ty none ""
  | stack : ty = "pulumi:pulumi:Stack" → ParentIs c ty none ""

/-- The timeouts that are sent. -/
inductive TimeoutsAre : Timeouts → Option TimeoutsMsg → Prop
  | none : TimeoutsAre .none none
  | object {c u d m} : Text m.create c → Text m.update u → Text m.delete d → TimeoutsAre (.object c u d) (some m)
  | dict {kvs : List (String × Option String)} {m} : Text m.create (kvs.lookup "create").join → Text m.update (kvs.lookup "update").join →
      Text m.delete (kvs.lookup "delete").join → TimeoutsAre (.dict kvs) (some m)

/-- What a registration sends besides properties, dependencies and translated names. -/
structure Carries (c : Ctx) (r : Res) (o : Opts) (req : Request) : Prop where
  type_ : req.type_ = r.ty
  name : req.name = r.name
  custom : req.custom = r.custom
  remote : req.remote = r.remote
  parent : ParentIs c r.ty o.parent req.parent
  protect : Flag req.protect o.protect
  retainOnDelete : Flag req.retainOnDelete o.retainOnDelete
  /-- whether to delete before replacing is said only if the option is set -/
  replace : (req.deleteBeforeReplaceDefined = true ↔ o.deleteBeforeReplace ≠ none) ∧
    Flag req.deleteBeforeReplace o.deleteBeforeReplace
  version : Text req.version o.version
  url : Text req.pluginDownloadURL o.url
  importId : Text req.importId o.importId
  timeouts : TimeoutsAre o.customTimeouts req.customTimeouts
  /-- the aliases: all of them, each once, in order of their first occurrence -/
  aliases : req.aliases.Nodup ∧ (∀ a, some a ∈ r.aliases ↔ a ∈ req.aliases) ∧ (none ∉ r.aliases) ∧
    req.aliases.Pairwise fun a b => r.aliases.idxOf (some a) < r.aliases.idxOf (some b)
  /-- the engine is told what this SDK understands -/
  features : req.acceptSecrets = true ∧ req.supportsPartialValues = true ∧
    (req.acceptResources = true ↔ c.var.toUpper ≠ "TRUE" ∧ c.var.toUpper ≠ "1")
  /-- the provider, for a custom resource -/
  provider : Text req.provider (if r.custom then o.provider.map (Invoke.providerRef c.providers) else none)
  /-- all providers, for a remote component -/
  providers : ∀ k ref, req.providers.lookup k = some ref ↔ r.remote = true ∧
    ∃ p, (Construct.convertProviders o.provider o.providers).lookup k = some p ∧ ref = Invoke.providerRef c.providers p

/-- The class's names: every Pulumi name, none of them empty, belongs to one Python name. -/
def WellNamed (r : Res) : Prop :=
  (∀ k n, (k, n) ∈ r.annotations ++ r.properties → n ≠ "" ∧ k ≠ "") ∧
    ∀ k k' n, (k, n) ∈ r.annotations ++ r.properties → (k', n) ∈ r.annotations ++ r.properties → k = k'

/-- The value is a text, or gives it later, or is a known Output of it that is not secret. -/
inductive IsText : PV → String → Prop
  | str {s} : IsText (.str s) s
  | awaitable {v s} : IsText v s → IsText (.awaitable v) s
  | output {rs v s} : IsText v s → IsText (.output rs true false v) s

end Pulumi.Register
