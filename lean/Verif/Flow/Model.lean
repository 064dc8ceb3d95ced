import Verif.Output.Model
/-!
# Programs that compute with outputs

A program that uses `Output.from_input`, `apply`, `Output.all`, `Output.secret`, `Output.unsecret` and lifted access on
the outputs of resources, written as an expression, and the synchronous code of `output.py` that it runs. The functions
called are those of `Verif/Output/Model.lean`, each with its own citation. Paths are relative to
`/repo/sdk/python/lib/pulumi/`.

Simplifications: callbacks do not raise and do not return awaitables; plain values are data (no outputs, awaitables or
input classes inside).
-/
namespace Pulumi.Flow
open Pulumi.Async Pulumi.Output

/-- Expressions of type `Output`. Callbacks are arbitrary functions. -/
inductive Expr where
  /-- `Output.from_input(v)` -/
  | value (v : Val)
  /-- the property `p` of resource `r` (`runtime/rpc.py:724-783` makes it an `Output`) -/
  | prop (r : Nat) (p : String)
  /-- `e.apply(f)` where `f` returns a plain value -/
  | map (e : Expr) (f : Val → Val)
  /-- `e.apply(f)` where `f` returns an output -/
  | bind (e : Expr) (f : Val → Expr)
  /-- `Output.all(*es)` -/
  | all (es : List Expr)
  /-- `e.a` or `e[k]`, lifted access (`output.py:235-261`) -/
  | item (e : Expr) (get : Val → Val)
  /-- `Output.secret(e)` -/
  | secret (e : Expr)
  /-- `Output.unsecret(e)` -/
  | unsecret (e : Expr)

mutual
/-- The calls that an expression makes, innermost first: `from_input` (`output.py:273-324`), `apply` (137-233), `all`
(400-480), `secret` (371-385), `unsecret` (358-368), `__getattr__` and `__getitem__` (235-261). `src r p` is the Output of
property `p` of resource `r`. -/
def Expr.run (dry : Bool) (fuel : Nat) (src : Nat → String → OutRef) : Expr → Sync OutRef
  | .value v => fromInput dry fuel v
  | .prop r p => .pure (src r p)
  | .map e f => (e.run dry fuel src).bind fun o => Output.apply dry o (fun v => .pure (f v))
  | .bind e f => (e.run dry fuel src).bind fun o =>
      Output.apply dry o (fun v => ((f v).run dry fuel src).bind fun r => .pure (.out r))
  | .all es => (Expr.runList dry fuel src es).bind fun os => outputAll dry fuel (os.map .out) []
  | .item e get => (e.run dry fuel src).bind fun o => lifted dry o (fun v => .ok (get v))
  | .secret e => (e.run dry fuel src).bind fun o => Output.secret dry fuel (.out o)
  | .unsecret e => (e.run dry fuel src).bind fun o => Output.unsecret o
/-- The arguments of a call, from left to right. -/
def Expr.runList (dry : Bool) (fuel : Nat) (src : Nat → String → OutRef) : List Expr → Sync (List OutRef)
  | [] => .pure []
  | e :: es => (e.run dry fuel src).bind fun o => (Expr.runList dry fuel src es).bind fun os => .pure (o :: os)
end

end Pulumi.Flow
