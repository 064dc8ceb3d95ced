import Verif.Wire.Spec
import Verif.Dynamic.Model

/-!
# Specification of dynamic providers
-/

namespace Pulumi.Dynamic

open Pulumi.Wire (PV W Env UserKey)

/-- A dict of properties: distinct keys, not the reserved signature key. -/
def GoodOuts (o : Dict) : Prop := (o.map (·.1)).Nodup ∧ Wire.sigKey ∉ o.map (·.1)

/-- Given dicts of properties, the provider gives dicts of properties, and it does not change the entry `"__provider"` of
the dicts that it is given. It may do anything else. -/
structure Behaves (p : Provider) : Prop where
  create : ∀ {d r d'}, GoodOuts d → p.create d = .ok (r, d') →
    d'.lookup "__provider" = d.lookup "__provider" ∧ ∀ o, r.outs = some o → GoodOuts o
  update : ∀ {id o n r n'}, GoodOuts o → GoodOuts n → p.update id o n = .ok (r, n') →
    n'.lookup "__provider" = n.lookup "__provider" ∧ ∀ o, r.outs = some o → GoodOuts o
  read : ∀ {id d r d'}, GoodOuts d → p.read id d = .ok (r, d') →
    d'.lookup "__provider" = d.lookup "__provider" ∧ ∀ o, r.outs = some o → GoodOuts o

/-- The properties of a request carry the pickled provider `c`. -/
structure Carries (s : Struct) (c : String) : Prop where
  distinct : (s.map (·.1)).Nodup
  ordinary : s.lookup Wire.sigKey = none
  code : s.lookup "__provider" = some (.str c)

/-- `Lives env load c id s`: the engine has a resource with the id `id` and the properties `s` in its state, and the
pickled provider of the last program that created or updated it is `c`. It was created by `Create`, updated any number
of times by `Update` with what programs declared, and refreshed any number of times by `Read`. -/
inductive Lives (env : Env) (load : String → Option Provider) : (c id : String) → Struct → Prop
  | created {props c id s} : Carries props c → create env load props = .ok (id, s) → Lives env load c id s
  | updated {c id s news c' s'} : Lives env load c id s → Carries news c' → update env load id s news = .ok s' →
      Lives env load c' id s'
  | refreshed {c id s id' s'} : Lives env load c id s → read env load id s = .ok (id', s') → Lives env load c id' s'

/-- Data as the engine sends it: nulls, booleans, numbers, strings (also the unknown marker), lists, and objects with
distinct user keys. -/
inductive PlainW : W → Prop
  | null : PlainW .null
  | bool (b) : PlainW (.bool b)
  | num (n) : PlainW (.num n)
  | str (s) : PlainW (.str s)
  | list {xs} : (∀ x ∈ xs, PlainW x) → PlainW (.list xs)
  | struct {kvs : Struct} : (kvs.map (·.1)).Nodup → (∀ kv ∈ kvs, UserKey kv.1) → (∀ kv ∈ kvs, PlainW kv.2) →
      PlainW (.struct kvs)

/-- `w` is null -/
def isNull : W → Bool
  | .null => true
  | _ => false

mutual
/-- The data without the null entries of its objects. -/
def dropNulls : W → W
  | .list xs => .list (dropNullsList xs)
  | .struct kvs => .struct (dropNullsKvs kvs)
  | w => w
def dropNullsList : List W → List W
  | [] => []
  | x :: xs => dropNulls x :: dropNullsList xs
def dropNullsKvs : Struct → Struct
  | [] => []
  | (k, x) :: kvs => if isNull x then dropNullsKvs kvs else (k, dropNulls x) :: dropNullsKvs kvs
end

/-- Whoever reads the properties `s` (the program, or a provider) gets the dict `o`. -/
def Says (s : Struct) (o : Dict) : Prop :=
  ∀ (env' : Env) (keep ki : Bool), Wire.deserializeProperties env' keep ki s = .ok (.dict o)

/-- Whoever reads `s` gets the entries of `o` that are not `None`, and the pickled provider `c` as `"__provider"`,
whatever `o` says about that key. -/
def Reports (s : Struct) (o : Dict) (c : String) : Prop :=
  ∃ o', Says s o' ∧ (o'.map (·.1)).Nodup ∧ o'.lookup "__provider" = some (.str c) ∧
    ∀ k, k ≠ "__provider" → o'.lookup k = (Wire.dropNonesKvs o).lookup k

end Pulumi.Dynamic
