import Verif.Output.Model
/-!
# What outputs mean

Independent of how `output.py` computes them: an `Output` that has settled shows a value, whether it is known,
whether it is secret and which resources it depends on.
-/
namespace Pulumi.Output
open Pulumi.Async

/-- What a settled `Output` shows to its consumers. -/
structure View where
  value : Val
  known : Bool
  secret : Bool
  deps : Nat → Prop

/-- A future holds a set with exactly the given members. -/
def HoldsSet (r : Option Res) (s : Nat → Prop) : Prop :=
  ∃ ids, r = some (.ok (.resSet ids)) ∧ ∀ x, x ∈ ids ↔ s x

/-- The output `o` has settled successfully and shows `w`. -/
structure Shows (σ : Store) (o : OutRef) (w : View) : Prop where
  value : σ o.value = some (.ok w.value)
  known : σ o.known = some (.ok (.bool w.known))
  secret : σ o.secret = some (.ok (.bool w.secret))
  deps : HoldsSet (σ o.resources) w.deps

/-- Not an output or an awaitable. -/
def Plain : Val → Prop
  | .out _ | .fut _ => False
  | _ => True

/-- No dependencies. -/
def noDeps : Nat → Prop := fun _ => False

/-- A plain value is known unless it contains the unknown marker, is not secret and depends on nothing. -/
def View.ofPlain (v : Val) : View :=
  { value := v, known := !containsUnknowns v, secret := false, deps := noDeps }

/-- What an `Input` (plain value, awaitable or output) amounts to. -/
inductive Yields (σ : Store) : Val → View → Prop
  | plain {v} : Plain v → Yields σ v (.ofPlain v)
  | awaitable {f v} : σ f = some (.ok v) → Yields σ (.fut f) (.ofPlain v)
  | output {o w} : Shows σ o w → Yields σ (.out o) w

/-- The view of something that depends on an output showing `w` and then turned out to be `w'`: the value of
`w'`, known only if `w'` is, secret if either is, depending on everything either depends on. -/
def View.after (w w' : View) : View :=
  { value := w'.value, known := w'.known && !containsUnknowns w'.value,
    secret := w'.secret || w.secret, deps := fun r => w.deps r ∨ w'.deps r }

/-- Every execution in `d` of the callback `f` on `v` returns an input that amounts to `w`. -/
def Denotes (d : Config) (f : Val → Sync Val) (v : Val) (w : View) : Prop :=
  ∀ t n r n', Ran d t n (f v) r n' → ∃ x, r = .ok x ∧ Yields d.futs x w

/-- Every execution in `d` of the callback `f` on `v` raises `e`. -/
def Fails (d : Config) (f : Val → Sync Val) (v : Val) (e : Exc) : Prop :=
  ∀ t n r n', Ran d t n (f v) r n' → r = .error e

/-- A future has been resolved, successfully or not. -/
def Done (r : Option Res) : Prop := ∃ x, r = some x

/-- All four futures of the output have been resolved. -/
structure Settles (σ : Store) (o : OutRef) : Prop where
  value : Done (σ o.value)
  known : Done (σ o.known)
  secret : Done (σ o.secret)
  resources : Done (σ o.resources)

/-- A task that invoked its callback with exactly these arguments, in this order. -/
def Invoked (d : Config) (t : TaskId) (args : List Val) : Prop := ∃ T, d.tasks t = some T ∧ T.calls = args

/-- `o` is an `Output` object: it was created by the constructor. -/
def IsOutput (d : Config) (o : OutRef) : Prop := ∃ t n n' r v k s, Ran d t n (mkOutput r v k s) (.ok o) n'

/-! ## Aggregates and deep unwrapping -/

/-- Two lists of the same length, related member by member. -/
inductive All2 {α β : Type} (R : α → β → Prop) : List α → List β → Prop
  | nil : All2 R [] []
  | cons {a b as bs} : R a b → All2 R as bs → All2 R (a :: as) (b :: bs)

/-- The view of a container built from members showing `ws`: known if all are, secret if any is, depending on
everything any depends on. -/
def View.aggregate (ws : List View) (wrap : List Val → Val) : View :=
  { value := wrap (ws.map (·.value)),
    known := ws.all (·.known) && !containsUnknowns (wrap (ws.map (·.value))),
    secret := ws.any (·.secret),
    deps := fun r => ∃ w ∈ ws, w.deps r }

/-- A dict with the given keys and values, in order. -/
def mkDict (keys : List String) (vs : List Val) : Val := .dict (keys.zip vs)

/-- Values that `from_input` does not look inside. -/
def Prompt : Val → Prop
  | .out _ | .fut _ | .input .. | .list (_ :: _) | .dict (_ :: _) => False
  | _ => True

/-- Deep unwrapping: `Unwraps dry σ n v w` says that replacing every output and awaitable nested in lists, dicts and
input classes by its value, to nesting depth less than `n`, turns `v` into what `w` shows. In a preview
(`dry`) an output that is not known is replaced by the unknown marker. -/
inductive Unwraps (dry : Bool) (σ : Store) : Nat → Val → View → Prop
  | prompt {n v} : Prompt v → Unwraps dry σ (n + 1) v (.ofPlain v)
  | awaitable {n f v w} : σ f = some (.ok v) →
      Unwraps dry σ n v w →
      Unwraps dry σ (n + 1) (.fut f) ((View.ofPlain v).after w)
  | output {n o w0 w} : Shows σ o w0 →
      Unwraps dry σ n (if dry && !w0.known && !containsUnknowns w0.value then .unknown else w0.value) w →
      Unwraps dry σ (n + 1) (.out o) (w0.after w)
  | list {n x xs ws} : (x :: xs).length = ws.length →
      (∀ v w, (v, w) ∈ (x :: xs).zip ws → Unwraps dry σ n v w) →
      Unwraps dry σ (n + 1) (.list (x :: xs)) (.aggregate ws .list)
  | dict {n kv kvs ws} : (kv :: kvs).length = ws.length →
      (∀ k v w, ((k, v), w) ∈ (kv :: kvs).zip ws → Unwraps dry σ n v w) →
      Unwraps dry σ (n + 1) (.dict (kv :: kvs)) (.aggregate ws (mkDict ((kv :: kvs).map (·.1))))
  /-- an input class with at least one field, all known (or during an update) -/
  | input {n cls kv kvs ws} : (kv :: kvs).length = ws.length →
      (∀ k v w, ((k, v), w) ∈ (kv :: kvs).zip ws → Unwraps dry σ n v w) →
      (dry = false ∨ (View.aggregate ws (mkDict ((kv :: kvs).map (·.1)))).known = true) →
      Unwraps dry σ (n + 1) (.input cls (kv :: kvs))
        ((View.aggregate ws (mkDict ((kv :: kvs).map (·.1)))).after
          (.ofPlain (.input cls (((kv :: kvs).map (·.1)).zip (ws.map (·.value))))))
  /-- an input class with an unknown field during a preview -/
  | inputUnknown {n cls kv kvs ws} : (kv :: kvs).length = ws.length →
      (∀ k v w, ((k, v), w) ∈ (kv :: kvs).zip ws → Unwraps dry σ n v w) →
      dry = true → (View.aggregate ws (mkDict ((kv :: kvs).map (·.1)))).known = false →
      Unwraps dry σ (n + 1) (.input cls (kv :: kvs))
        { View.aggregate ws (mkDict ((kv :: kvs).map (·.1))) with value := .none, known := false }

/-- No output or awaitable nested in lists, dicts and input classes. -/
inductive NoInputs : Val → Prop
  | prompt {v} : Prompt v → NoInputs v
  | list {xs} : (∀ x ∈ xs, NoInputs x) → NoInputs (.list xs)
  | dict {kvs} : (∀ p ∈ kvs, NoInputs p.2) → NoInputs (.dict kvs)
  | input {cls kvs} : (∀ p ∈ kvs, NoInputs p.2) → NoInputs (.input cls kvs)

end Pulumi.Output
