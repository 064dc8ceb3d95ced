import Verif.Async.Model
/-!
# `output.py`

`Output`, `apply`, `all`, `from_input`, `secret`, `unsecret`, `concat`, lifted access and the internal joins, as
synchronous code that starts tasks of the event loop model. Paths are relative to
`/repo/sdk/python/lib/pulumi/`.

Conventions: a `Prog` is an `async def` body, a `Sync` is plain code. `dry` is `runtime.is_dry_run()`, constant during a program.
-/
namespace Pulumi.Output
open Pulumi.Async

/-- Python truthiness, as used by `and`, `or`, `if`, `all` and `any` on awaited flags. -/
def truthy : Val → Bool
  | .none => false
  | .bool b => b
  | .int i => i != 0
  | .str s => s != ""
  | .list xs => !xs.isEmpty
  | .dict kvs => !kvs.isEmpty
  | .resSet ids => !ids.isEmpty
  | .unknown | .input .. | .resource _ | .fut _ | .out _ => true

mutual
/-- `runtime/rpc.py:976-989` `contains_unknowns` on values without shared or cyclic containers: looks inside
dicts and lists only. (Sharing and cycles: `Verif/Graph`.) -/
def containsUnknowns : Val → Bool
  | .unknown => true
  | .list xs => containsUnknownsList xs
  | .dict kvs => containsUnknownsDict kvs
  | _ => false
def containsUnknownsList : List Val → Bool
  | [] => false
  | x :: xs => containsUnknowns x || containsUnknownsList xs
def containsUnknownsDict : List (String × Val) → Bool
  | [] => false
  | (_, x) :: xs => containsUnknowns x || containsUnknownsDict xs
end

/-- `a | b` on sets; `none` is a `TypeError`. -/
def setUnion : Val → Val → Option Val
  | .resSet a, .resSet b => some (.resSet (a ++ b))
  | _, _ => none

/-- `await f` with separate continuations for a result and an exception. -/
def awaitE (f : FutId) (onExc : Exc → Prog) (k : Val → Prog) : Prog :=
  .await f fun r => match r with
    | .ok v => k v
    | .exn e => onExc e

/-- `await f` where an exception leaves the coroutine. -/
def await' (f : FutId) (k : Val → Prog) : Prog := awaitE f .raise k

/-- `output.py:98-99` `is_value_known`: `await is_known and not contains_unknowns(await future)`. -/
def isValueKnown (known value : FutId) : Prog :=
  await' known fun k =>
    if truthy k then await' value fun v => .ret (.bool (!containsUnknowns v)) else .ret k

/-- `output.py:88-114` `Output.__init__` given futures. -/
def mkOutput (resources value known secret : FutId) : Sync OutRef :=
  .spawn (isValueKnown known value) fun tk =>
    .pure { resources, value, known := .result tk, secret }

/-- `f = asyncio.Future(); f.set_result(v)` -/
def resolved (v : Val) : Sync FutId := .spawn (.ret v) fun t => .pure (.result t)

/-- `output.py:120-127` `Output.future(with_unknowns)`; the body of `get_value`. -/
def getValue (o : OutRef) (withUnknowns : Bool) : Prog :=
  await' o.value fun v => .ret (if !withUnknowns && containsUnknowns v then .none else v)

/-! ## apply -/

/-- The `finally` block of `run` (`output.py:222-230`), then `exit`. Slots 0, 1, 2 are `result_resources`,
`result_is_known`, `result_is_secret`; `suppress(InvalidStateError)` ignores failed writes. -/
def finish (resources : Val) (exit : Prog) : Prog :=
  .set 0 (.ok resources) fun _ =>
  .set 1 (.ok (.bool false)) fun _ =>
  .set 2 (.ok (.bool false)) fun _ => exit

/-- `future.set_result(v)` inside the `try` block: `InvalidStateError` if already set. -/
def setResult (resources : Val) (i : Nat) (v : Val) (k : Prog) : Prog :=
  .set i (.ok v) fun ok => if ok then k else finish resources (.raise "InvalidStateError")

/-- `await f` inside the `try` block. -/
def awaitF (resources : Val) (f : FutId) (k : Val → Prog) : Prog :=
  awaitE f (fun e => finish resources (.raise e)) k

/-- `output.py:195-221`: what happens with the value returned by the callback. -/
def afterCall (resources secret : Val) : Except Exc Val → Prog
  | .error e => finish resources (.raise e)
  -- 198-207: an Output
  | .ok (.out o') =>
    awaitF resources o'.resources fun rs' =>
      match setUnion resources rs' with
      | none => finish resources (.raise "TypeError")
      | some u =>
        setResult resources 0 u <|
        awaitF resources o'.known fun k' => setResult resources 1 k' <|
        awaitF resources o'.secret fun s' =>
          setResult resources 2 (if truthy s' then s' else secret) <|
          .spawn (getValue o' true) fun tv =>
            awaitF resources (.result tv) fun v => finish resources (.ret v)
  -- 210-215: an awaitable
  | .ok (.fut f) =>
    setResult resources 0 resources <| setResult resources 1 (.bool true) <| setResult resources 2 secret <|
      awaitF resources f fun v => finish resources (.ret v)
  -- 218-221: a plain value
  | .ok v =>
    setResult resources 0 resources <| setResult resources 1 (.bool true) <| setResult resources 2 secret <|
      finish resources (.ret v)

/-- The callback is invoked with `v` (`output.py:195`). -/
def invoke (resources secret v : Val) (f : Val → Sync Val) : Prog :=
  .call v ((f v).run (afterCall resources secret))

/-- `output.py:163-230`, coroutine `run` of `apply`. `resources` is the empty set until the first await is over. -/
def applyRun (dry : Bool) (o : OutRef) (f : Val → Sync Val) (runWithUnknowns : Bool) : Prog :=
  awaitF (.resSet []) o.resources fun rs =>
  awaitF rs o.known fun known =>
  awaitF rs o.secret fun secret =>
  awaitF rs o.value fun value =>
    if dry then
      if truthy known || runWithUnknowns then
        if !truthy known && runWithUnknowns && !containsUnknowns value then invoke rs secret .unknown f
        else invoke rs secret value f
      else
        setResult rs 0 rs <| setResult rs 1 (.bool false) <| setResult rs 2 secret <|
          finish rs (.ret .none)
    else invoke rs secret value f

/-- `output.py:137-233` `Output.apply`. -/
def apply (dry : Bool) (o : OutRef) (f : Val → Sync Val) (runWithUnknowns : Bool := false) : Sync OutRef :=
  .spawn (applyRun dry o f runWithUnknowns) fun t =>
    mkOutput (.slot t 0) (.result t) (.slot t 1) (.slot t 2)

/-! ## all and from_input -/

/-- `[f(x) for x in xs]` for synchronous code. -/
def mapS {α β : Type} (f : α → Sync β) : List α → Sync (List β)
  | [] => .pure []
  | x :: xs => (f x).bind fun y => (mapS f xs).bind fun ys => .pure (y :: ys)

/-- The elements of a gathered list. -/
def asList : Val → List Val
  | .list vs => vs
  | _ => []

/-- `output.py:422-425` `is_known`: `all(await gather(...))`. -/
def allKnown (os : List OutRef) : Prog :=
  .gather (os.map (·.known)) fun r => match r with
    | .ok v => .ret (.bool ((asList v).all truthy))
    | .exn e => .raise e

/-- `output.py:429-432` `is_secret`: `any(await gather(...))`. -/
def anySecret (os : List OutRef) : Prog :=
  .gather (os.map (·.secret)) fun r => match r with
    | .ok v => .ret (.bool ((asList v).any truthy))
    | .exn e => .raise e

/-- `reduce(lambda acc, r: acc.union(r), rs, set())`; `none` is a `TypeError`. -/
def unionAll : List Val → Option (List Nat)
  | [] => some []
  | .resSet a :: vs => (unionAll vs).map (a ++ ·)
  | _ :: _ => none

/-- `output.py:434-438` `get_resources`. -/
def allResources (os : List OutRef) : Prog :=
  .gather (os.map (·.resources)) fun r => match r with
    | .ok v => match unionAll (asList v) with
      | some ids => .ret (.resSet ids)
      | none => .raise "TypeError"
    | .exn e => .raise e

/-- Start `o.future(with_unknowns=True)` for each output, in order, then continue. -/
def spawnValues : List OutRef → (List FutId → Prog) → Prog
  | [], k => k []
  | o :: os, k => .spawn (getValue o true) fun t => spawnValues os fun fs => k (.result t :: fs)

/-- Return the gathered list, rebuilt by `wrap`. -/
def wrapResult (wrap : List Val → Val) : Res → Prog
  | .ok v => .ret (wrap (asList v))
  | .exn e => .raise e

/-- `output.py:441-451` `gather_futures` and `629-631` `_gather_from_dict`. `wrap` rebuilds the list or the dict
(`dict(zip(keys, results))`). -/
def gatherValues (os : List OutRef) (wrap : List Val → Val) : Prog :=
  spawnValues os fun fs => .gather fs (wrapResult wrap)

/-- `output.py:466-480` (end of `all`): the four aggregates. -/
def combine (os : List OutRef) (wrap : List Val → Val) : Sync OutRef :=
  .spawn (gatherValues os wrap) fun tv =>
  .spawn (allResources os) fun tr =>
  .spawn (allKnown os) fun tk =>
  .spawn (anySecret os) fun ts =>
    mkOutput (.result tr) (.result tv) (.result tk) (.result ts)

/-- `output.py:273-324` `Output.from_input`, following nested inputs to depth `fuel` (the code has no bound; where
the nesting is deeper the model raises). Simplifications: dict keys are strings; constructing an input class
from its unwrapped fields gives an instance with these fields. -/
def fromInput (dry : Bool) : Nat → Val → Sync OutRef
  | 0, _ => .raise "RecursionError"
  | n + 1, .out o => apply dry o (fun v => (fromInput dry n v).bind fun r => .pure (.out r)) true
  -- 289-295: `Output.all(**val.__dict__).apply(lambda d: typ(**d))`; with no fields `Output.all()` is a list and `typ(**[])` fails
  | n + 1, .input cls fields =>
    (mapS (fun kv => fromInput dry n kv.2) fields).bind fun os =>
    (combine os (fun vs => if fields.isEmpty then .list vs else .dict ((fields.map (·.1)).zip vs))).bind fun o =>
    apply dry o (fun d => match d with
      | .dict kvs => .pure (.input cls kvs)
      | _ => .raise "TypeError") false
  -- 298-304: non-empty dict or list
  | n + 1, .dict (kv :: kvs) =>
    (mapS (fun kv => fromInput dry n kv.2) (kv :: kvs)).bind fun os =>
    combine os (fun vs => .dict (((kv :: kvs).map (·.1)).zip vs))
  | n + 1, .list (x :: xs) =>
    (mapS (fromInput dry n) (x :: xs)).bind fun os => combine os .list
  -- 314-319: awaitable
  | n + 1, .fut f =>
    (resolved (.bool true)).bind fun fk => (resolved (.bool false)).bind fun fs =>
    (resolved (.resSet [])).bind fun fr =>
    (mkOutput fr f fk fs).bind fun o =>
    apply dry o (fun v => (fromInput dry n v).bind fun r => .pure (.out r)) true
  -- 322-324: prompt value
  | _ + 1, v =>
    (resolved (.bool true)).bind fun fk => (resolved (.bool false)).bind fun fs =>
    (resolved v).bind fun fv => (resolved (.resSet [])).bind fun fr =>
    mkOutput fr fv fk fs

/-- `output.py:400-480` `Output.all(*args, **kwargs)`. -/
def outputAll (dry : Bool) (fuel : Nat) (args : List Val) (kwargs : List (String × Val)) : Sync OutRef :=
  if !args.isEmpty && !kwargs.isEmpty then .raise "ValueError"
  else if !kwargs.isEmpty then
    (mapS (fun kv => fromInput dry fuel kv.2) kwargs).bind fun os =>
    combine os (fun vs => .dict ((kwargs.map (·.1)).zip vs))
  else (mapS (fromInput dry fuel) args).bind fun os => combine os .list

/-- `output.py:327-355` `Output._from_input_shallow`. -/
def fromInputShallow : Val → Sync OutRef
  | .out o => .pure o
  | .fut f =>
    (resolved (.bool true)).bind fun fk => (resolved (.bool false)).bind fun fs =>
    (resolved (.resSet [])).bind fun fr => mkOutput fr f fk fs
  | v =>
    (resolved (.bool true)).bind fun fk => (resolved (.bool false)).bind fun fs =>
    (resolved v).bind fun fv => (resolved (.resSet [])).bind fun fr => mkOutput fr fv fk fs

/-- `output.py:358-368` `Output.unsecret`. -/
def unsecret (o : OutRef) : Sync OutRef :=
  (resolved (.bool false)).bind fun fs => mkOutput o.resources o.value o.known fs

/-- `output.py:371-385` `Output.secret`. -/
def secret (dry : Bool) (fuel : Nat) (v : Val) : Sync OutRef :=
  (fromInput dry fuel v).bind fun o =>
  (resolved (.bool true)).bind fun fs => mkOutput o.resources o.value o.known fs

/-- `"".join(vs)`; `none` is a `TypeError` (an element is not a string). -/
def joinStrs : List Val → Option String
  | [] => some ""
  | .str s :: vs => (joinStrs vs).map (s ++ ·)
  | _ :: _ => none

/-- `output.py:483-499` `Output.concat`. -/
def concat (dry : Bool) (fuel : Nat) (args : List Val) : Sync OutRef :=
  (mapS (fromInput dry fuel) args).bind fun os =>
  (outputAll dry fuel (os.map .out) []).bind fun o =>
  apply dry o (fun v => match v with
    | .list vs => match joinStrs vs with
      | some s => .pure (.str s)
      | none => .raise "TypeError"
    | _ => .raise "TypeError") false

/-- `output.py:235-261` `__getattr__` / `__getitem__`: lifted access. `get` is the attribute or item access on the
underlying value. -/
def lifted (dry : Bool) (o : OutRef) (get : Val → Except Exc Val) : Sync OutRef :=
  apply dry o (fun v => match v with
    | .unknown => .pure .unknown
    | v => match get v with
      | .ok w => .pure w
      | .error e => .raise e) true

/-! ## Internal joins -/

/-- `output.py:536-548` `_map_output`. -/
def mapOutput (o : OutRef) (transform : Val → Except Exc Val) : Sync OutRef :=
  .spawn (.spawn (getValue o false) fun tv => await' (.result tv) fun v =>
      match v with
      | .none => .ret .unknown
      | v => match transform v with | .ok w => .ret w | .error e => .raise e) fun tf =>
    mkOutput o.resources (.result tf) o.known o.secret

/-- `output.py:560-567`: the conditional expression returned by the inner `fut` of `_map2_output`. -/
def joinValues (transform : Val → Val → Except Exc Val) (v1 v2 : Val) : Prog :=
  match v1, v2 with
  | .none, _ => .ret .unknown
  | _, .none => .ret .unknown
  | v1, v2 => match transform v1 v2 with | .ok w => .ret w | .error e => .raise e

/-- `output.py:551-578` `_map2_output`. `o1.is_known() and o2.is_known()` is evaluated on the awaitables, which are
truthy objects, so it is `o2.is_known()`; `o2.is_secret() or o2.is_secret()` is `o2.is_secret()`. -/
def map2Output (o1 o2 : OutRef) (transform : Val → Val → Except Exc Val) : Sync OutRef :=
  .spawn (await' o1.resources fun r1 => await' o2.resources fun r2 =>
      match setUnion r1 r2 with
      | some u => .ret u
      | none => .raise "TypeError") fun tr =>
  .spawn (.spawn (getValue o1 false) fun t1 => await' (.result t1) fun v1 =>
      .spawn (getValue o2 false) fun t2 => await' (.result t2) fun v2 =>
      joinValues transform v1 v2) fun tf =>
    mkOutput (.result tr) (.result tf) o2.known o2.secret

/-- `output.py:530-533` `_is_prompt`. -/
def isPrompt : Val → Bool
  | .fut _ | .out _ => false
  | _ => true

/-- `output.py:581-595` `_map_input`. -/
def mapInput (i : Val) (transform : Val → Except Exc Val) : Sync Val :=
  match i with
  | .fut f => .spawn (await' f fun v => match transform v with | .ok w => .ret w | .error e => .raise e) fun t =>
      .pure (.fut (.result t))
  | .out o => (mapOutput o transform).bind fun r => .pure (.out r)
  | v => match transform v with | .ok w => .pure w | .error e => .raise e

/-- `output.py:598-626` `_map2_input`. -/
def map2Input (i1 i2 : Val) (transform : Val → Val → Except Exc Val) : Sync Val :=
  if isPrompt i1 then mapInput i2 (fun v2 => transform i1 v2)
  else if isPrompt i2 then mapInput i1 (fun v1 => transform v1 i2)
  else match i1, i2 with
    | .fut a1, .fut a2 =>
      .spawn (await' a1 fun v1 => await' a2 fun v2 =>
        match transform v1 v2 with | .ok w => .ret w | .error e => .raise e) fun t => .pure (.fut (.result t))
    | _, _ =>
      (fromInputShallow i1).bind fun o1 => (fromInputShallow i2).bind fun o2 =>
      (map2Output o1 o2 transform).bind fun r => .pure (.out r)

end Pulumi.Output
