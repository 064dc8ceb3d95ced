import Verif.Conf.Model
import Verif.Output.Aggregates

/-!
# What configuration means

Histories of calls, and what they say about explicitly set values, without dictionaries or addresses.
-/
namespace Pulumi.Conf
open Pulumi.Async Pulumi.Output

/-- A call made in some context, or the start of a task. -/
inductive Op where
  | set (ctx : Nat) (k : String) (v : Val)
  | setAll (ctx : Nat) (config : Dict) (secrets : Option (List String))
  | fork (ctx new : Nat)

/-- The latest first. -/
abbrev History := List Op

/-- The state after a history. -/
def after : History → State
  | [] => .init
  | .set c k v :: before => setConfig (after before) c k v
  | .setAll c m ss :: before => setAllConfig (after before) c m ss
  | .fork c c' :: before => fork (after before) c c'

/-- Which configuration a context uses: 0 for the one that exists from the start, `n` for the one that the `n`-th call
brought in. A new task uses its creator's. -/
def uses : History → Nat → Nat
  | [], _ => 0
  | .set .. :: before, c => uses before c
  | .setAll c' _ _ :: before, c => if c = c' then before.length + 1 else uses before c
  | .fork c1 c2 :: before, c => if c = c2 then uses before c1 else uses before c

/-- What a mapping, given as pairs of which later ones win, has for a key. -/
def Dict.value (m : Dict) (k : String) : Option Val := m.reverse.lookup k

/-- What was last written for `k` in configuration `b`. -/
def written : History → Nat → String → Option Val
  | [], _, _ => none
  | .set c k' v :: before, b, k => if uses before c = b ∧ k' = k then some v else written before b k
  | .setAll _ m _ :: before, b, k => if b = before.length + 1 then Dict.value m k else written before b k
  | .fork .. :: before, b, k => written before b k

/-- The secret keys a context sees: those last set there or in its creator before it started. -/
def secretsSeen : History → Nat → List String
  | [], _ => []
  | .set .. :: before, c => secretsSeen before c
  | .setAll c' _ (some ks) :: before, c => if c = c' then ks else secretsSeen before c
  | .setAll _ _ none :: before, c => secretsSeen before c
  | .fork c1 c2 :: before, c => if c = c2 then secretsSeen before c1 else secretsSeen before c

/-- The value of a key, by precedence: explicit, its own environment variable, the entry of PULUMI_CONFIG, None. -/
inductive Resolves (py : Py) (env : Environ) (explicit : Option Val) (k : String) : Val → Prop
  | explicit {v} : explicit = some v → Resolves py env explicit k v
  | own {s} : explicit = none → env (envKey k) = some s → Resolves py env explicit k (.str s)
  | map {t kvs v} : explicit = none → env (envKey k) = none → env "PULUMI_CONFIG" = some t → py.loads t = some (.dict kvs) →
      kvs.lookup k = some v → Resolves py env explicit k v
  | unset {t kvs} : explicit = none → env (envKey k) = none → env "PULUMI_CONFIG" = some t →
      py.loads t = some (.dict kvs) → kvs.lookup k = none → Resolves py env explicit k .none
  | null {t} : explicit = none → env (envKey k) = none → env "PULUMI_CONFIG" = some t → py.loads t = some .none →
      Resolves py env explicit k .none
  | noMap : explicit = none → env (envKey k) = none → env "PULUMI_CONFIG" = none → Resolves py env explicit k .none

/-- PULUMI_CONFIG is absent or a JSON object or null. -/
def GoodEnv (py : Py) (env : Environ) : Prop :=
  ∀ t, env "PULUMI_CONFIG" = some t → py.loads t = some .none ∨ ∃ kvs, py.loads t = some (.dict kvs)

/-- Letters and digits of ASCII. -/
def AsciiAlnum (c : Char) : Prop := ('A' ≤ c ∧ c ≤ 'Z') ∨ ('0' ≤ c ∧ c ≤ '9') ∨ ('a' ≤ c ∧ c ≤ 'z')

/-- Characters that an environment variable for a key does not tell apart: equal ones, the two cases of a letter, and any
two that are neither ASCII letters nor digits. -/
def Confused (a b : Char) : Prop :=
  a = b ∨ (('a' ≤ a ∧ a ≤ 'z') ∧ b.toNat + 32 = a.toNat) ∨ (('a' ≤ b ∧ b ≤ 'z') ∧ a.toNat + 32 = b.toNat) ∨
    (¬ AsciiAlnum a ∧ ¬ AsciiAlnum b)

/-- How a character of a key appears in its environment variable. -/
inductive Appears : Char → Char → Prop
  | same {c} : ('A' ≤ c ∧ c ≤ 'Z') ∨ ('0' ≤ c ∧ c ≤ '9') → Appears c c
  | upper {c r} : 'a' ≤ c → c ≤ 'z' → r.toNat + 32 = c.toNat → Appears c r
  | other {c} : ¬ AsciiAlnum c → Appears c '_'

/-- How a value that is not None reads as a bool, an int, ...; `none` when it does not. -/
inductive Reads (py : Py) : Kind → Val → Option Val → Prop
  | str {v} : Reads py .str v (some v)
  | yes {s} : s = "true" ∨ s = "True" → Reads py .bool (.str s) (some (.bool true))
  | no {s} : s = "false" ∨ s = "False" → Reads py .bool (.str s) (some (.bool false))
  | notBool {v} : (∀ s, v = .str s → s ≠ "true" ∧ s ≠ "True" ∧ s ≠ "false" ∧ s ≠ "False") → Reads py .bool v none
  | int {v} : Reads py .int v (py.int v)
  | float {v} : Reads py .float v (py.float v)
  | object {s} : Reads py .object (.str s) (py.loads s)
  | notObject {v} : (∀ s, v ≠ .str s) → Reads py .object v none

/-- Values that JSON can express. -/
inductive Json : Val → Prop
  | none : Json .none
  | bool {b} : Json (.bool b)
  | int {i} : Json (.int i)
  | str {s} : Json (.str s)
  | list {xs} : (∀ x ∈ xs, Json x) → Json (.list xs)
  | dict {kvs} : (∀ p ∈ kvs, Json p.2) → Json (.dict kvs)

end Pulumi.Conf
