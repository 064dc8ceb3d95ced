import Verif.Engine.SentValue
import Verif.Wire.Theorems
/-! # What the engine reads (C129) -/
namespace Pulumi.Engine

open Wire (Env PV ResId Ty W ser serializeProperties toWire Mentions sampleEnv)

/-! ## C129 -/

/-- **C129.** Every value that a program may pass is sent, and the engine reads it as what the program means by it. -/
theorem engine_reads {env : Env} {o : Opts} (ho : Reads o) {keep : Bool}
    (hk : (keep && env.outputValues) = true → o.keepOutputValues = true) {t : Ty} {v : PV} (h : Sendable env t v) :
    ∃ x d w e, ser env keep t v = .ok (x, d) ∧ toWire x = some w ∧ unmarshal o w = .ok (some e) ∧
      Means env (keep && env.outputValues) t v e := by
  obtain ⟨x, d, w, e, a, b, c, m, _⟩ := sent ho h keep hk
  exact ⟨x, d, w, e, a, b, c, m⟩

/-- **C129**, for a request: the engine reads exactly the inputs that do not mean null, each under its name and as what
the program means by it. -/
theorem request_read {env : Env} {o : Opts} (ho : Reads o) {typ : Option String} {keep : Bool}
    (hk : (keep && env.outputValues) = true → o.keepOutputValues = true) {inputs : List (String × PV)}
    (hn : (inputs.map fun kv => env.topKey typ kv.1).Nodup)
    (h : ∀ kv ∈ inputs, Sendable env (env.topTy typ kv.1) kv.2) :
    ∃ P es ms, serializeProperties env typ keep inputs = .ok P ∧ unmarshalKvs o P.fields = .ok es ∧
      ms.length = inputs.length ∧
      (∀ p ∈ inputs.zip ms, Means env (keep && env.outputValues) (env.topTy typ p.1.1) p.1.2 p.2) ∧
      es = ((inputs.zip ms).filter fun p => !p.2.isNull).map fun p => (env.topKey typ p.1.1, p.2) := by
  have := request_read_aux (env := env) ho hk (typ := typ) (acc := ⟨[], []⟩) (accs := []) rfl (by simpa using hn) h
  simpa [serializeProperties] using this

/-- **C129**: what a value means is determined, so there is one thing that the engine may read it as. -/
theorem means_unique {env : Env} {ov : Bool} {t : Ty} {v : PV} {e e' : EV} (h : Means env ov t v e)
    (h' : Means env ov t v e') : e = e' := unique h e' h'

/-- **C129**, negation: a string that is one of the reserved ones is read as an unknown value, whichever of the seven it
is; the program knows about one of them only. -/
theorem reserved_read_as_unknown {env : Env} {o : Opts} (ho : Reads o) (keep : Bool) (t : Ty) {s : String}
    (hs : s ∈ reserved) : ∃ e, ser env keep t (.str s) = .ok (.str s, []) ∧ toWire (.str s) = some (.str s) ∧
      unmarshal o (.str s) = .ok (some (.computed e)) := by
  have : ∃ e, sentinel s = some e := by
    simp only [reserved, List.mem_cons, List.not_mem_nil, or_false] at hs
    rcases hs with rfl | rfl | rfl | rfl | rfl | rfl | rfl <;> exact ⟨_, rfl⟩
  obtain ⟨e, he⟩ := this
  exact ⟨e, rfl, rfl, by simp [unmarshal, unmarshalStr, he, ho.keepUnknowns, ho.rejectUnknowns]⟩

/-- **C129**, negation: an Output that is secret and not known is read as an unknown value that is not secret, when
output values are not sent. -/
theorem unknown_secret_read_as_public {env : Env} {o : Opts} (ho : Reads o) (t : Ty) (rs : List ResId) :
    ∃ d, ser env false t (.output rs false true .unknown) = .ok (.str Wire.UNKNOWN, d) ∧
      unmarshal o (.str Wire.UNKNOWN) = .ok (some (.computed (.str ""))) :=
  ⟨rs, by simp [ser, Wire.hasUnknown, Wire.finishOutput, bind, Except.bind, pure, Except.pure],
    unmarshalStr_unknown ho⟩

/-- **C129**, negation: a resource whose id is secret cannot be passed: the engine refuses the reference. -/
theorem secret_id_refused {env : Env} {o : Opts} (ho : Reads o) (keep : Bool) (t : Ty) {n : Nat} {u s : String}
    (hr : env.resourceRefs = true) (hes : env.secrets = true) (hc : (env.res n).custom = true)
    (hk : (env.res n).urn.known = true) (hs : (env.res n).urn.secret = false)
    (hu : (env.res n).urn.value = some u) (hru : u ∉ reserved) (hik : (env.res n).id.known = true)
    (his : (env.res n).id.secret = true) (hiv : (env.res n).id.value = some s) (hrs : s ∉ reserved) :
    ∃ x d w, ser env keep t (.resource (.decl n)) = .ok (x, d) ∧ toWire x = some w ∧
      unmarshal o w = .error .malformed := by
  refine ⟨.dict [(Wire.sigKey, .str Wire.resourceSig), ("urn", .str u), ("id", Wire.secretDict (.str s))],
    (Wire.serStrOut env (env.res n).urn).2 ++ (Wire.serStrOut env (env.res n).id).2, _, ?_, rfl, ?_⟩
  · simp [ser, Wire.serResource, hr, Env.info, hc, Wire.serStrOut, Wire.finishOutput, hk, hs, hu, hik, his, hiv, hes]
  · refine (unmarshal_refCustom ho hru (unmarshal_secret ho (unmarshal_sig o hrs))).trans ?_
    rfl

/-- **C129**, negation: a resource whose URN is not known cannot be passed either. -/
theorem unknown_urn_refused {env : Env} {o : Opts} (ho : Reads o) (keep : Bool) (t : Ty) {n : Nat}
    (hr : env.resourceRefs = true) (hc : (env.res n).custom = false) (hk : (env.res n).urn.known = false) :
    ∃ x d w, ser env keep t (.resource (.decl n)) = .ok (x, d) ∧ toWire x = some w ∧
      unmarshal o w = .error .malformed := by
  refine ⟨.dict [(Wire.sigKey, .str Wire.resourceSig), ("urn", .str Wire.UNKNOWN)],
    (Wire.serStrOut env (env.res n).urn).2, _, ?_, rfl, ?_⟩
  · simp [ser, Wire.serResource, hr, Env.info, hc, Wire.serStrOut, Wire.finishOutput, hk]
  · have h : unmarshalKvs o [(Wire.sigKey, .str Wire.resourceSig), ("urn", .str Wire.UNKNOWN)] =
        .ok [(sigKey, .str resourceSig), ("urn", .computed (.str ""))] :=
      unmarshalKvs_cons ho (unmarshal_sig o (by decide)) (unmarshalKvs_one ho (unmarshalStr_unknown ho))
    refine (unmarshal_struct h).trans ?_
    rfl

/-! ### Instances -/

/-- The options for a request meet the hypothesis. -/
theorem reads_reading (remote : Bool) : Reads (reading remote) := ⟨rfl, rfl, rfl, rfl, rfl, rfl, rfl⟩

/-- An input with a secret Output, an unknown one, a resource, an archive and a null. -/
def sampleInputs : List (String × PV) :=
  [("password", .output [.decl 0] true true (.list [.str "hunter2", .none])), ("later", .output [.decl 1] false false .unknown),
   ("bucket", .resource (.decl 0)), ("nothing", .none),
   ("code", .assetArchive [("index.js", .asset .text "x"), ("lib", .archive .file "./lib")])]

theorem depends_sample {v x : PV} {rs pd : List ResId} (h : ser sampleEnv true .any v = .ok (x, rs ++ pd))
    (hx : Wire.expandUrns sampleEnv (Wire.valueResources sampleEnv rs pd) = ["urn:pulumi:s::p::t:m:T::a"]) (u : String)
    (hu : DependsOn sampleEnv v u) : u ∉ reserved := by
  have := (mem_sortedUrns fun r => Wire.dependencies_exact h r).2 hu
  rw [sortedUrns, List.mem_mergeSort, hx, List.mem_singleton] at this
  subst this
  decide

theorem sampleInputs_sendable : ∀ kv ∈ sampleInputs, Sendable sampleEnv .any kv.2 := by
  intro kv hkv
  simp only [sampleInputs, List.mem_cons, List.not_mem_nil, or_false] at hkv
  rcases hkv with rfl | rfl | rfl | rfl | rfl
  · refine .output (.untypedList ?_) (fun _ h => ?_) ?_
    · intro x hx
      simp only [List.mem_cons, List.not_mem_nil, or_false] at hx
      rcases hx with rfl | rfl
      · exact .str (by decide)
      · exact .none
    · have := (Wire.hasUnknown_iff (.list [.str "hunter2", .none])).2 h
      simp [Wire.hasUnknown, Wire.hasUnknownList] at this
    · exact depends_sample (show ser sampleEnv true .any (.output [.decl 0] true true (.list [.str "hunter2", .none])) =
        .ok (_, [.decl 0] ++ []) from rfl) rfl
  · refine .output .unknown (by simp) ?_
    exact depends_sample (show ser sampleEnv true .any (.output [.decl 1] false false .unknown) =
      .ok (_, [.decl 1] ++ []) from rfl) rfl
  · exact .resource rfl rfl rfl rfl (by decide) (fun _ => ⟨rfl, "id0", rfl, by decide⟩)
  · exact .none
  · refine .assetArchive (by decide) (by decide) ?_ ?_ <;> intro kv hkv <;>
      simp only [List.mem_cons, List.not_mem_nil, or_false] at hkv
    · rcases hkv with rfl | rfl
      · exact .asset ..
      · exact .archive ..
    · rcases hkv with rfl | rfl
      · exact .asset _ (by decide)
      · exact .archive _ (by decide)

/-- Non-trivial instance: the request is read. -/
example : ∃ P es, serializeProperties sampleEnv none false sampleInputs = .ok P ∧
    unmarshalKvs (reading false) P.fields = .ok es ∧ es.map (·.1) = ["password", "later", "bucket", "code"] ∧
    es.lookup "bucket" = some (.ref "urn:pulumi:s::p::t:m:T::a" (.known "id0") "") ∧
    es.lookup "later" = some (.computed (.str "")) ∧
    es.lookup "password" = some (.secret (.array [.str "hunter2", .null])) := by
  obtain ⟨P, es, ms, h1, h2, h3, h4, h5⟩ := request_read (reads_reading false) (env := sampleEnv) (typ := none)
    (keep := false) (inputs := sampleInputs) (by simp) (by decide) sampleInputs_sendable
  refine ⟨P, es, h1, h2, ?_⟩
  cases h1; cases h2; exact ⟨rfl, rfl, rfl, rfl⟩

/-- With output values, the secret Output stays an Output of the resource it depends on. -/
example : ∃ x d w ds, ser sampleEnv true .any (.output [.decl 0] true true (.list [.str "hunter2", .none])) = .ok (x, d) ∧
    toWire x = some w ∧
    unmarshal (reading true) w = .ok (some (.output (.array [.str "hunter2", .null]) true true ds)) ∧
    (∀ u, u ∈ ds ↔ DependsOn sampleEnv (.output [.decl 0] true true (.list [.str "hunter2", .none])) u) := by
  obtain ⟨x, d, w, e, h1, h2, h3, h4⟩ := engine_reads (reads_reading true) (keep := true) (by simp [reading])
    (sampleInputs_sendable ("password", _) (List.mem_cons_self ..))
  cases h4 with
  | @output _ _ _ _ _ e ds hm _ _ _ hds =>
    have : e = .array [.str "hunter2", .null] := by
      refine means_unique (hm rfl) (.untypedList rfl ?_)
      intro p hp
      simp only [List.zip_cons_cons, List.zip_nil_right, List.mem_cons, List.not_mem_nil, or_false] at hp
      rcases hp with rfl | rfl
      · exact .str _
      · exact .none
    subst this
    exact ⟨x, d, w, ds, h1, h2, h3, hds⟩

/-- A resource whose id is secret. -/
def secretIdEnv : Env :=
  { sampleEnv with
    res := fun _ =>
      { custom := true
        urn := { resources := [.decl 0], known := true, secret := false, value := some "urn:pulumi:s::p::t:m:T::a" }
        id := { resources := [.decl 0], known := true, secret := true, value := some "id0" } } }

example : ∃ x d w, ser secretIdEnv false .any (.resource (.decl 0)) = .ok (x, d) ∧ toWire x = some w ∧
    unmarshal (reading false) w = .error .malformed :=
  secret_id_refused (reads_reading false) false .any (n := 0) (s := "id0") rfl rfl rfl rfl rfl rfl (by decide) rfl rfl rfl (by decide)

/-- A component whose URN is not known, as when its registration failed. -/
def unknownUrnEnv : Env :=
  { sampleEnv with
    res := fun _ =>
      { custom := false
        urn := { resources := [], known := false, secret := false, value := none }
        id := { resources := [], known := false, secret := false, value := none } } }

example : ∃ x d w, ser unknownUrnEnv false .any (.resource (.decl 0)) = .ok (x, d) ∧ toWire x = some w ∧
    unmarshal (reading false) w = .error .malformed :=
  unknown_urn_refused (reads_reading false) false .any (n := 0) rfl rfl rfl

end Pulumi.Engine
