import Verif.Mocks.Model
import Verif.Urn.Spec
import Verif.Wire.Spec
/-!
# Specification of the mock monitor
-/
namespace Pulumi.Mocks
open Pulumi.Wire (PV W Env)
open Pulumi.Urn (Text)

/-- What the program asks of a resource: who its parent is, what it is, and its properties on the wire. -/
structure Asked where
  parent : Text
  typ : Text
  name : Text
  provider : Text
  resourceId : Text
  custom : Option Bool
  props : List (String × W)

/-- The resource a request is about. Registering the root stack is not about a resource of the program. -/
def Request.asked : Request → Option Asked
  | .register q =>
    if q.type_ = "pulumi:pulumi:Stack".toList then none
    else some ⟨q.parent, q.type_, q.name, q.provider, q.importId, some q.custom, q.object⟩
  | .read q => some ⟨q.parent, q.type_, q.name, q.provider, q.id, none, q.properties⟩
  | .invoke _ => none

/-- Among the calls `seen`, the mocks were called for the resource `x` (with its properties, deserialised) and
returned `id` and `state`. -/
def Gave (s : Setup) (seen : List Seen) (x : Asked) (id : Option String) (state : List (String × PV)) : Prop :=
  ∃ inputs, Wire.deserializeProperties s.env false false x.props = .ok inputs ∧
    ∃ before after, seen = before ++
        .resource ⟨x.typ, x.name, inputs, x.provider, x.resourceId, x.custom⟩ :: after ∧
      s.mocks.newResource before ⟨x.typ, x.name, inputs, x.provider, x.resourceId, x.custom⟩ = .ok (id, state)

/-- The answer `r` to a registration or read of `x` is made from what the mocks returned: `id` (a read's answer
carries none) and the wire form of `state`. -/
structure Conveys (s : Setup) (x : Asked) (id : Option String) (state : List (String × PV))
    (r : ResourceResponse) : Prop where
  urn : makeUrn s.amb x.parent x.typ x.name = .ok r.urn
  id : x.custom ≠ none → r.id = id.getD ""
  object : serialize s.env state = .ok r.object

/-- An answer that gives a resource of the program the URN `u`. -/
def Gives (u : Text) (x : Request × Response) : Prop :=
  x.1.asked ≠ none ∧ ∃ r, x.2 = .resource r ∧ r.urn = u

/-- The call `pulumi:pulumi:getResource` with the argument `urn`. -/
def lookupRequest (u : Text) (provider : Text) : InvokeRequest :=
  { tok := "pulumi:pulumi:getResource".toList, args := [("urn", .str (String.ofList u))], provider := provider }

/-- The call of the mocks that a request leads to: one for a resource of the program that can be given a URN (a read
finds out later that it cannot) and whose properties can be read, one for a call other than a lookup, none for the
root stack. -/
inductive Calls (s : Setup) : Request → Option Seen → Prop
  | register {q : RegisterRequest} {u : Text} {inputs : PV} : q.type_ ≠ "pulumi:pulumi:Stack".toList →
      makeUrn s.amb q.parent q.type_ q.name = .ok u →
      Wire.deserializeProperties s.env false false q.object = .ok inputs →
      Calls s (.register q)
        (some (.resource ⟨q.type_, q.name, inputs, q.provider, q.importId, some q.custom⟩))
  | stack {q : RegisterRequest} : q.type_ = "pulumi:pulumi:Stack".toList → Calls s (.register q) none
  | orphan {q : RegisterRequest} {e : Err} : makeUrn s.amb q.parent q.type_ q.name = .error e →
      Calls s (.register q) none
  | unreadable {q : RegisterRequest} {e : Wire.Err} :
      Wire.deserializeProperties s.env false false q.object = .error e → Calls s (.register q) none
  | read {q : ReadRequest} {inputs : PV} :
      Wire.deserializeProperties s.env false false q.properties = .ok inputs →
      Calls s (.read q) (some (.resource ⟨q.type_, q.name, inputs, q.provider, q.id, none⟩))
  | unreadableRead {q : ReadRequest} {e : Wire.Err} :
      Wire.deserializeProperties s.env false false q.properties = .error e → Calls s (.read q) none
  | call {q : InvokeRequest} {args : PV} : q.tok ≠ "pulumi:pulumi:getResource".toList →
      Wire.deserializeProperties s.env false false q.args = .ok args →
      Calls s (.invoke q) (some (.call ⟨q.tok, args, q.provider⟩))
  | lookup {q : InvokeRequest} : q.tok = "pulumi:pulumi:getResource".toList → Calls s (.invoke q) none
  | unreadableCall {q : InvokeRequest} {e : Wire.Err} :
      Wire.deserializeProperties s.env false false q.args = .error e → Calls s (.invoke q) none

/-- The states that the mocks return are dicts: their keys are distinct. None of them is the reserved key. -/
def Setup.Dicts (s : Setup) : Prop :=
  ∀ seen a id state, s.mocks.newResource seen a = .ok (id, state) →
    (state.map (·.1)).Nodup ∧ Wire.sigKey ∉ state.map (·.1)

/-- The URN of the last resource of a chain of (type, name) pairs, outermost first, each one registered with the
previous one as its parent, the first one without parent. -/
def mockChain (amb : Urn.Ambient) : Text → List (Text × Text) → Except Err Text
  | parent, [] => .ok parent
  | parent, (t, n) :: rest =>
    match makeUrn amb parent t n with
    | .ok u => mockChain amb u rest
    | .error e => .error e

/-- An Output occurs in the value. -/
inductive HasOutput : PV → Prop
  | here {rs k s v} : HasOutput (.output rs k s v)
  | list {xs x} : x ∈ xs → HasOutput x → HasOutput (.list xs)
  | dict {kvs : List (String × PV)} {k x} : (k, x) ∈ kvs → HasOutput x → HasOutput (.dict kvs)
  | assetArchive {kvs : List (String × PV)} {k x} : (k, x) ∈ kvs → HasOutput x → HasOutput (.assetArchive kvs)
  | awaitable {v} : HasOutput v → HasOutput (.awaitable v)
  | inputObj {c} {kvs : List (String × PV)} {k x} : (k, x) ∈ kvs → HasOutput x → HasOutput (.inputObj c kvs)

/-- No dict or input object in the value has an entry with the reserved key, inside Outputs and awaitables too. -/
inductive NoReserved : PV → Prop
  | none : NoReserved .none
  | bool (b) : NoReserved (.bool b)
  | num (n) : NoReserved (.num n)
  | str (s) : NoReserved (.str s)
  | list {xs} : (∀ x ∈ xs, NoReserved x) → NoReserved (.list xs)
  | dict {kvs : List (String × PV)} : (∀ kv ∈ kvs, kv.1 ≠ Wire.sigKey) → (∀ kv ∈ kvs, NoReserved kv.2) →
      NoReserved (.dict kvs)
  | unknown : NoReserved .unknown
  | resource (r) : NoReserved (.resource r)
  | asset (k s) : NoReserved (.asset k s)
  | archive (k s) : NoReserved (.archive k s)
  | assetArchive {kvs : List (String × PV)} : (∀ kv ∈ kvs, kv.1 ≠ Wire.sigKey) →
      (∀ kv ∈ kvs, NoReserved kv.2) → NoReserved (.assetArchive kvs)
  | oddAsset : NoReserved .oddAsset
  | awaitable {v} : NoReserved v → NoReserved (.awaitable v)
  | failing (e) : NoReserved (.failing e)
  | output {v} (rs k s) : NoReserved v → NoReserved (.output rs k s v)
  | inputObj {kvs : List (String × PV)} (c) : (∀ kv ∈ kvs, kv.1 ≠ Wire.sigKey) → (∀ kv ∈ kvs, NoReserved kv.2) →
      NoReserved (.inputObj c kvs)
  | illegal : NoReserved .illegal

end Pulumi.Mocks
