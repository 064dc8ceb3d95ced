import Verif.Register.Lemmas
import Verif.Resolve.Theorems
/-!
# Requests to register and read resources: the properties (C62-C65)
-/
namespace Pulumi.Register
open Pulumi.Wire (Env PV W ResId)

variable {c : Ctx} {g : Deps.Graph} {used : Used} {r : Res} {o : Opts} {req : Request} {p : Prepared}

/-- The parts of a successful preparation. -/
theorem prepare_ok (h : prepare c g used r o = .ok p) :
    ∃ explicit e P d, resolveDependsOn c.env.dryRun used o.dependsOn = .ok (explicit, p.used) ∧
      Deps.expandDependencies g (explicit.map c.tree) (some r.self) = some e ∧
      Wire.serializeProperties (c.serEnv r.typ) r.typ r.remote r.props = .ok P ∧
      Deps.prepareDeps e.graph e.urns r.self (P.deps.map fun kd => (kd.1, kd.2.map c.tree)) = some d ∧
      p = { parent := parentUrn c r.ty o.parent, props := P.fields, dependencies := d.dependencies
            provider := providerOf c r.custom o, providers := providersOf c r.remote o
            propertyDependencies := d.propertyDependencies, aliases := Deps.dedupAliases [] r.aliases
            graph := d.graph, used := p.used } := by
  unfold prepare at h
  split at h
  · cases h
  · rename_i explicit used' h1
    split at h
    · cases h
    · rename_i e h2
      split at h
      · cases h
      · rename_i P h3
        split at h
        · cases h
        · rename_i d h4
          cases h
          exact ⟨explicit, e, P, d, h1, h2, h3, h4, rfl⟩

theorem register_ok (h : register c g used r o = .ok (req, p)) :
    ∃ t as, prepare c g used r o = .ok p ∧ timeoutsOf o.customTimeouts = .ok t ∧ strings p.aliases = .ok as ∧
      req = message c r o p t as := by
  unfold register at h
  split at h
  · cases h
  · rename_i p' h1
    split at h
    · cases h
    · rename_i t h2
      split at h
      · cases h
      · rename_i as h3
        cases h
        exact ⟨t, as, h1, h2, h3, rfl⟩

/-! ## C62: the engine is asked for what the options say -/

/-- **C62** A registration carries type, name, kind, parent, provider or providers, and every option, as they were given. -/
theorem request_carries (h : register c g used r o = .ok (req, p)) : Carries c r o req := by
  obtain ⟨t, as, hp, ht, ha, rfl⟩ := register_ok h
  obtain ⟨explicit, e, P, d, h1, h2, h3, h4, h5⟩ := prepare_ok hp
  rw [h5] at ha ⊢
  obtain ⟨a1, a2, a3⟩ := Deps.aliases_unique_ordered r.aliases
  simp only at ha
  have ha' := strings_ok ha
  rw [ha'] at a1 a2 a3
  refine
    { type_ := rfl, name := rfl, custom := rfl, remote := rfl, parent := parent_spec .., protect := flag_getD _
      retainOnDelete := flag_getD _, replace := ⟨?_, flag_getD _⟩, version := text_getD _, url := text_getD _
      importId := text_getD _, timeouts := timeouts_spec ht, aliases := ⟨?_, ?_, ?_, ?_⟩, features := ⟨rfl, rfl, ?_⟩
      provider := text_getD _, providers := ?_ }
  · cases ho : o.deleteBeforeReplace <;> simp [message, ho]
  · simpa [message, List.Nodup, List.pairwise_map] using a1
  · intro a
    rw [← a2]
    simp [message]
  · rw [← a2]; simp
  · simpa [message, List.pairwise_map] using a3
  · simp [message, Invoke.acceptResources]
  · intro k ref
    simp only [message, providersOf]
    split
    · rename_i hr
      rw [lookup_map]
      rw [Option.map_eq_some_iff]
      exact ⟨fun ⟨q, h1, h2⟩ => ⟨hr, q, h1, h2.symm⟩, fun ⟨_, q, h1, h2⟩ => ⟨q, h1, h2.symm⟩⟩
    · rename_i hr
      simp [hr]

/-- **C62** Every argument is sent under its translated name, unless its serialised value is `None`. -/
theorem arguments_sent (h : register c g used r o = .ok (req, p))
    (hn : (r.props.map fun kv => (c.serEnv r.typ).topKey r.typ kv.1).Nodup) {k : String} {x : PV} (hx : (k, x) ∈ r.props) :
    ∃ v d, Wire.ser (c.serEnv r.typ) r.remote ((c.serEnv r.typ).topTy r.typ k) x = .ok (v, d) ∧
      (v ≠ .none → ∃ w, Wire.toWire v = some w ∧ req.object.lookup ((c.serEnv r.typ).topKey r.typ k) = some w) := by
  obtain ⟨t, as, hp, ht, ha, rfl⟩ := register_ok h
  obtain ⟨explicit, e, P, d, h1, h2, h3, h4, h5⟩ := prepare_ok hp
  obtain ⟨v, ds, q1, q2⟩ := Wire.serProps_entry h3 hn hx
  refine ⟨v, ds, q1, fun hv => ?_⟩
  obtain ⟨_, w, q3, q4⟩ := q2 hv
  exact ⟨w, q3, by rw [h5]; exact q4⟩

/-- **C62** A registration fails only for one of these reasons: something in `depends_on` raises, is no resource, or is a
coroutine; an argument cannot be serialised; the timeouts are malformed; or an alias is not known. -/
theorem registers (hd : o.dependsOn.Good c.env.dryRun)
    (hs : ∃ P, Wire.serializeProperties (c.serEnv r.typ) r.typ r.remote r.props = .ok P)
    (ht : o.customTimeouts = .none ∨ (∃ a b d, o.customTimeouts = .object a b d) ∨
      ∃ kvs, o.customTimeouts = .dict kvs ∧ ∀ k, kvs.lookup k ≠ some none)
    (ha : none ∉ r.aliases) : ∃ req p, register c g used r o = .ok (req, p) := by
  obtain ⟨all, h1⟩ := resolveDependsOn_good hd
  obtain ⟨e, h2, -⟩ := Deps.expand_complete g (all.map c.tree) r.self
  obtain ⟨P, h3⟩ := hs
  obtain ⟨d, h4, -⟩ := Deps.prepared_dependencies_complete r.self (P.deps.map fun kd => (kd.1, kd.2.map c.tree)) e.graph e.urns
  have ht' : ∃ t, timeoutsOf o.customTimeouts = .ok t := by
    rcases ht with ht | ⟨a, b, d, ht⟩ | ⟨kvs, ht, hk⟩
    · exact ⟨_, by rw [ht]; rfl⟩
    · exact ⟨_, by rw [ht]; rfl⟩
    · rw [ht]
      have key : ∀ k, ∃ v, timeoutEntry kvs k = .ok v := by
        intro k
        unfold timeoutEntry
        split
        · exact ⟨_, rfl⟩
        · rename_i hn; exact absurd hn (hk k)
        · exact ⟨_, rfl⟩
      obtain ⟨v1, k1⟩ := key "create"
      obtain ⟨v2, k2⟩ := key "update"
      obtain ⟨v3, k3⟩ := key "delete"
      exact ⟨_, by simp only [timeoutsOf, k1, k2, k3]; rfl⟩
  obtain ⟨t, ht'⟩ := ht'
  obtain ⟨as, ha'⟩ := strings_total (l := Deps.dedupAliases [] r.aliases) (by rw [Deps.mem_dedup]; simpa using ha)
  exact ⟨_, _, by simp only [register, prepare, h1, h2, h3, h4, ht', ha']; rfl⟩

/-! ## C63: names of properties in options -/

/-- **C63** for whole properties: an argument named in `ignore_changes` or `replace_on_changes` is sent under the very name
that the engine is told to ignore, or to replace on; for arguments nested in others see `path_not_translated`. -/
theorem named_inputs_partial (h : register c g used r o = .ok (req, p))
    (hn : (r.props.map fun kv => (c.serEnv r.typ).topKey r.typ kv.1).Nodup) {k : String} {x : PV} (hx : (k, x) ∈ r.props)
    {v : PV} {d : List ResId} (hv : Wire.ser (c.serEnv r.typ) r.remote ((c.serEnv r.typ).topTy r.typ k) x = .ok (v, d))
    (hne : v ≠ .none) :
    (∀ (ks : List String) (i : Nat), o.ignoreChanges = some ks → ks[i]? = some k → ∃ n w, req.ignoreChanges[i]? = some n ∧
      Wire.toWire v = some w ∧ req.object.lookup n = some w) ∧
    (∀ (ks : List String) (i : Nat), o.replaceOnChanges = some ks → ks[i]? = some k → ∃ n w, req.replaceOnChanges[i]? = some n ∧
      Wire.toWire v = some w ∧ req.object.lookup n = some w) := by
  obtain ⟨v', d', q1, q2⟩ := arguments_sent h hn hx
  rw [hv] at q1
  cases q1
  obtain ⟨w, q3, q4⟩ := q2 hne
  obtain ⟨t, as, hp, ht, ha, rfl⟩ := register_ok h
  have hname : (match r.typ with
      | some cls => c.env.pulumiName cls k
      | none => c.translateInput k) = (c.serEnv r.typ).topKey r.typ k := by
    cases r.typ <;> rfl
  constructor
  · intro ks i hks hi
    refine ⟨_, w, ?_, q3, q4⟩
    simp only [message, translateInputs, hks, Option.getD_some, List.getElem?_map, hi, Option.map_some]
    exact congrArg some hname
  · intro ks i hks hi
    refine ⟨_, w, ?_, q3, q4⟩
    simp only [message, translateInputs, hks, Option.getD_some, List.getElem?_map, hi, Option.map_some]
    exact congrArg some hname

/-- **C63** Nothing else is ignored or replaced on. -/
theorem named_inputs_only (h : register c g used r o = .ok (req, p)) :
    req.ignoreChanges.length = (o.ignoreChanges.getD []).length ∧
      req.replaceOnChanges.length = (o.replaceOnChanges.getD []).length ∧
      req.additionalSecretOutputs.length = (o.additionalSecretOutputs.getD []).length := by
  obtain ⟨t, as, hp, ht, ha, rfl⟩ := register_ok h
  simp [message, translateInputs, translateOutputs]

theorem updateNames_lookup (a b : List (String × String)) (k : String) :
    (updateNames a b).lookup k = (b.reverse.lookup k).or (a.lookup k) := by
  unfold updateNames
  induction b generalizing a with
  | nil => simp
  | cons kv b ih =>
    obtain ⟨k', n⟩ := kv
    rw [List.foldl_cons, ih, List.reverse_cons, List.lookup_append]
    by_cases hk : k = k'
    · subst hk
      rw [Wire.setKey_lookup_self]
      simp
    · rw [Wire.setKey_lookup_ne _ _ hk]
      have : (k == k') = false := by simpa using hk
      simp [List.lookup_cons, this]

theorem lookup_mem {α : Type} {l : List (String × α)} {k : String} {v : α} (h : l.lookup k = some v) : (k, v) ∈ l := by
  induction l with
  | nil => cases h
  | cons kv l ih =>
    obtain ⟨k', v'⟩ := kv
    rw [List.lookup_cons] at h
    split at h
    · rename_i hk
      cases h
      rw [eq_of_beq hk]
      exact List.mem_cons_self ..
    · exact List.mem_cons_of_mem _ (ih h)

theorem lookup_some_of_mem {α : Type} {l : List (String × α)} {k : String} {v : α} (h : (k, v) ∈ l) : ∃ v', l.lookup k = some v' := by
  induction l with
  | nil => cases h
  | cons kv l ih =>
    obtain ⟨k', v'⟩ := kv
    rw [List.lookup_cons]
    cases hk : k == k' with
    | true => exact ⟨v', rfl⟩
    | false =>
      rcases List.mem_cons.1 h with h | h
      · cases h; simp at hk
      · exact ih h

/-- **C63** With type information: an output property named in `additional_secret_outputs` is the one that the engine's
property of the sent name is read into. -/
theorem secret_outputs_named (hw : WellNamed r) {cls : String} (ht : r.typ = some cls)
    (h : register c g used r o = .ok (req, p)) {ks : List String} (hk : o.additionalSecretOutputs = some ks) {i : Nat} {k n : String}
    (hi : ks[i]? = some k) (hd : (k, n) ∈ r.annotations ++ r.properties) :
    ∃ n', req.additionalSecretOutputs[i]? = some n' ∧ (k, n') ∈ r.annotations ++ r.properties ∧ nameOr r.toPython n' = k := by
  obtain ⟨t, as, hp, hto, ha, rfl⟩ := register_ok h
  have h1 : ∃ n', r.toPulumi.lookup k = some n' ∧ (k, n') ∈ r.annotations ++ r.properties := by
    unfold Res.toPulumi
    simp only [updateNames_lookup]
    cases hl : r.properties.reverse.lookup k with
    | some n' => exact ⟨n', by simp, List.mem_append.2 (.inr (List.mem_reverse.1 (lookup_mem hl)))⟩
    | none =>
      rcases List.mem_append.1 hd with hd | hd
      · obtain ⟨n', hn⟩ := lookup_some_of_mem (List.mem_reverse.2 hd)
        exact ⟨n', by simp [hn], List.mem_append.2 (.inl (List.mem_reverse.1 (lookup_mem hn)))⟩
      · obtain ⟨n', hn⟩ := lookup_some_of_mem (List.mem_reverse.2 hd)
        rw [hl] at hn; cases hn
  obtain ⟨n', h2, h3⟩ := h1
  have hne := (hw.1 k n' h3).1
  have hkne := (hw.1 k n' h3).2
  refine ⟨n', ?_, h3, ?_⟩
  · simp only [message, translateOutputs, hk, Option.getD_some, List.getElem?_map, hi, Option.map_some, ht, nameOr, h2, if_neg hne]
  · have key : ∀ k', r.toPython.lookup n' = some k' → k' = k := by
      intro k' hk'
      unfold Res.toPython at hk'
      simp only [updateNames_lookup, List.lookup_nil, Option.or_none] at hk'
      have : (k', n') ∈ r.annotations ++ r.properties := by
        rw [Option.or_eq_some_iff] at hk'
        rcases hk' with hk' | ⟨-, hk'⟩
        · have := List.mem_reverse.1 (lookup_mem hk')
          simp only [List.mem_map, Prod.mk.injEq] at this
          obtain ⟨⟨a, b⟩, h5, rfl, rfl⟩ := this
          exact List.mem_append.2 (.inr h5)
        · have := List.mem_reverse.1 (lookup_mem hk')
          simp only [List.mem_map, Prod.mk.injEq] at this
          obtain ⟨⟨a, b⟩, h5, rfl, rfl⟩ := this
          exact List.mem_append.2 (.inl h5)
      exact hw.2 k' k n' this h3
    have hsome : ∃ k', r.toPython.lookup n' = some k' := by
      unfold Res.toPython
      simp only [updateNames_lookup, List.lookup_nil, Option.or_none]
      rcases List.mem_append.1 h3 with h3 | h3
      · obtain ⟨k', hk'⟩ := lookup_some_of_mem (l := (r.annotations.map fun kv => (kv.2, kv.1)).reverse) (k := n') (v := k)
          (List.mem_reverse.2 (List.mem_map.2 ⟨_, h3, rfl⟩))
        cases hl : List.lookup n' (r.properties.map fun kv => (kv.2, kv.1)).reverse with
        | some k'' => exact ⟨k'', by simp⟩
        | none => exact ⟨k', by simp [hk']⟩
      · obtain ⟨k', hk'⟩ := lookup_some_of_mem (l := (r.properties.map fun kv => (kv.2, kv.1)).reverse) (k := n') (v := k)
          (List.mem_reverse.2 (List.mem_map.2 ⟨_, h3, rfl⟩))
        exact ⟨k', by simp [hk']⟩
    obtain ⟨k', hk'⟩ := hsome
    have := key k' hk'
    subst this
    simp only [nameOr, hk', if_neg hkne]

/-- A property path: the part before the first dot or bracket is the name of a property. -/
def Path (entry root rest : String) : Prop := entry = root ++ rest ∧ (rest = "" ∨ rest.toList.head? = some '.' ∨ rest.toList.head? = some '[')

def pathRes : Res where
  self := 5
  ty := "t:m:T"
  name := "a"
  custom := true
  remote := false
  typ := none
  props := [("the_tags", .dict [("x", .num 1)])]
  aliases := []
  annotations := []
  properties := []

/-- Names are translated to camel case in the sample. -/
def sampleCtx : Ctx where
  env := Wire.sampleEnv
  translateInput := fun k => if k = "the_tags" then "theTags" else k
  providers := { urn := fun _ => some "p", id := fun _ => some "i" }
  tree := Wire.sampleEnv.treeOf
  root := some (.decl 1)
  var := ""

/-- **C63** does not hold below properties: the path `the_tags.x` is sent as it is, although the property is sent as
`theTags`, so that the engine finds nothing under this name. -/
theorem path_not_translated : ∃ req p, register sampleCtx [] [] pathRes { ignoreChanges := some ["the_tags", "the_tags.x"] } = .ok (req, p) ∧
    Path "the_tags.x" "the_tags" ".x" ∧ req.ignoreChanges = ["theTags", "the_tags.x"] ∧
    req.object.map (·.1) = ["theTags"] :=
  ⟨_, _, rfl, ⟨rfl, by decide⟩, rfl, rfl⟩

/-- Non-trivial instance of the theorems so far: several options, a dependency, a root resource as parent. -/
example : ∃ req p, register sampleCtx [] [] pathRes
      { ignoreChanges := some ["the_tags"], protect := some true, dependsOn := .now (.one (.resource (.decl 0)))
        customTimeouts := .dict [("create", some "5m")], version := some "1.2" } = .ok (req, p) ∧
    req.parent = "urn:pulumi:s::p::t:m:C::b" ∧ req.dependencies = ["urn:pulumi:s::p::t:m:T::a"] ∧ req.protect = true ∧
    req.customTimeouts = some ⟨"5m", "", ""⟩ ∧ req.version = "1.2" ∧ req.ignoreChanges = ["theTags"] :=
  ⟨_, _, rfl, rfl, rfl, rfl, rfl, rfl, rfl⟩

/-! ## C64: explicit dependencies -/

theorem mem_setKey {α : Type} {kvs : List (String × α)} {k k' : String} {v v' : α} (h : (k', v') ∈ Wire.setKey kvs k v) :
    (k', v') ∈ kvs ∨ v' = v := by
  induction kvs with
  | nil =>
    simp only [Wire.setKey, List.mem_singleton, Prod.mk.injEq] at h
    exact .inr h.2
  | cons kv kvs ih =>
    obtain ⟨k0, v0⟩ := kv
    rw [Wire.setKey] at h
    split at h
    · rcases List.mem_cons.1 h with h | h
      · cases h; exact .inr rfl
      · exact .inl (List.mem_cons_of_mem _ h)
    · rcases List.mem_cons.1 h with h | h
      · cases h; exact .inl (List.mem_cons_self ..)
      · rcases ih h with h | h
        · exact .inl (List.mem_cons_of_mem _ h)
        · exact .inr h

/-- Listed dependencies come from properties. -/
theorem deps_from_props {env : Env} {typ : Option String} {keep : Bool} {acc P : Wire.Props} {kvs : List (String × PV)}
    (h : Wire.serProps env typ keep acc kvs = .ok P) {k : String} {d : List ResId} (hd : (k, d) ∈ P.deps) :
    (k, d) ∈ acc.deps ∨ ∃ k0 x, (k0, x) ∈ kvs ∧ ∀ r ∈ d, Wire.Mentions env x r := by
  induction kvs generalizing acc with
  | nil => cases h; exact .inl hd
  | cons kv kvs ih =>
    obtain ⟨k0, x⟩ := kv
    obtain ⟨v, d', hv, hc⟩ := Wire.serProps_cons_ok h
    rcases hc with ⟨_, hc⟩ | ⟨_, w, _, hc⟩
    · rcases ih hc with h | ⟨k1, x1, h1, h2⟩
      · exact .inl h
      · exact .inr ⟨k1, x1, List.mem_cons_of_mem _ h1, h2⟩
    · rcases ih hc with h | ⟨k1, x1, h1, h2⟩
      · rcases mem_setKey h with h | rfl
        · exact .inl h
        · exact .inr ⟨k0, x, List.mem_cons_self .., fun r hr => (Wire.dependencies_exact hv r).1 hr⟩
      · exact .inr ⟨k1, x1, List.mem_cons_of_mem _ h1, h2⟩

/-- **C64**, without coroutines: every registration with the options lists the URNs of all resources that `depends_on` asks
for and of all that the arguments mention (components stand for their descendants), except for those that depend on this
resource already; and nothing else. Whether the options were used before makes no difference. -/
theorem dependencies_partial (hd : o.dependsOn.Good c.env.dryRun) (h : register c g used r o = .ok (req, p))
    (hn : (r.props.map fun kv => (c.serEnv r.typ).topKey r.typ kv.1).Nodup) :
    (∀ x, AsksFor c.env.dryRun o.dependsOn x → ∀ y, Deps.Frontier (c.tree x) y → ∀ u, Deps.HasUrn y u →
      u ∈ req.dependencies ∨ Deps.Reaches (Deps.Edge g) y.id r.self) ∧
    (∀ k v, (k, v) ∈ r.props → ∀ v' d, Wire.ser (c.serEnv r.typ) r.remote ((c.serEnv r.typ).topTy r.typ k) v = .ok (v', d) →
      v' ≠ .none → ∀ x, Wire.Mentions (c.serEnv r.typ) v x → ∀ y, Deps.Frontier (c.tree x) y → ∀ u, Deps.HasUrn y u →
      u ∈ req.dependencies ∨ Deps.Reaches (Deps.Edge g) y.id r.self) ∧
    (∀ u ∈ req.dependencies, ∃ x y, (AsksFor c.env.dryRun o.dependsOn x ∨ ∃ k v, (k, v) ∈ r.props ∧ Wire.Mentions (c.serEnv r.typ) v x) ∧
      Deps.Frontier (c.tree x) y ∧ Deps.HasUrn y u) ∧
    (∀ used', ∃ p', register c g used' r o = .ok (req, p')) := by
  obtain ⟨t, as, hp, ht, ha, hreq⟩ := register_ok h
  obtain ⟨explicit, e, P, d, h1, h2, h3, h4, h5⟩ := prepare_ok hp
  have hex := fun x => resolveDependsOn_spec h1 x
  obtain ⟨e', b1, b2⟩ := Deps.addDependencies_ok { graph := g, urns := [] } (explicit.map c.tree) (some r.self)
  have he : e' = e := by
    rw [Deps.expandDependencies, b1] at h2
    exact Option.some.inj h2
  subst he
  have hback : ∀ x y, Deps.Edge e'.graph x y → Deps.Edge g x y ∨ x = r.self := by
    intro x y hxy
    rcases b2.graphSound x y hxy with h | ⟨h, _⟩
    · exact .inl h
    · exact .inr (Option.some.inj h).symm
  obtain ⟨d', e1, e2, e3, e4, e5, -⟩ := Deps.prepared_dependencies_complete r.self
    (P.deps.map fun kd => (kd.1, kd.2.map c.tree)) e'.graph e'.urns
  have hd' : d' = d := by rw [e1] at h4; exact Option.some.inj h4
  subst hd'
  have hdeps : req.dependencies = d'.dependencies := by rw [hreq, h5]; rfl
  rw [hdeps]
  refine ⟨?_, ?_, ?_, ?_⟩
  · intro x hx y hy u hu
    rcases b2.complete_initial y ⟨c.tree x, List.mem_map.2 ⟨x, (hex x).2 hx, rfl⟩, hy⟩ with h | h
    · exact .inl (e2 u (h u hu))
    · exact .inr h
  · intro k v hv v' ds hs hne x hx y hy u hu
    obtain ⟨v1, d1, q1, q2⟩ := Wire.serProps_entry h3 hn hv
    rw [hs] at q1
    cases q1
    obtain ⟨q3, -⟩ := q2 hne
    have hm := lookup_mem q3
    rcases e3 _ (ds.map c.tree) (List.mem_map.2 ⟨_, hm, rfl⟩) (c.tree x)
      (List.mem_map.2 ⟨x, (Wire.dependencies_exact hs x).2 hx, rfl⟩) y hy u hu with h | h
    · exact .inl h
    · exact .inr (Deps.reaches_back hback h)
  · intro u hu
    rcases e4 u hu with h | ⟨k, us, h6, h7⟩
    · rcases b2.sound u h with h | ⟨y, ⟨q, hq, hy⟩, hu⟩
      · cases h
      · obtain ⟨x, hx, rfl⟩ := List.mem_map.1 hq
        exact ⟨x, y, .inl ((hex x).1 hx), hy, hu⟩
    · obtain ⟨-, rs, h8, h9⟩ := e5 k us h6
      obtain ⟨⟨k', ds⟩, h10, h11⟩ := List.mem_map.1 h8
      simp only [Prod.mk.injEq] at h11
      obtain ⟨rfl, rfl⟩ := h11
      obtain ⟨q, hq, y, hy, hu⟩ := h9 u h7
      obtain ⟨x, hx, rfl⟩ := List.mem_map.1 hq
      rcases deps_from_props h3 h10 with h12 | ⟨k0, v, h12, h13⟩
      · cases h12
      · exact ⟨x, y, .inr ⟨k0, v, h12, h13 x hx⟩, hy, hu⟩
  · intro used'
    obtain ⟨all, hall⟩ := resolveDependsOn_good hd
    rw [hall used] at h1
    simp only [Except.ok.injEq, Prod.mk.injEq] at h1
    obtain ⟨rfl, -⟩ := h1
    refine ⟨{ p with used := used' }, ?_⟩
    have hp' : prepare c g used' r o = .ok { p with used := used' } := by
      simp only [prepare, hall used', h2, h3, h4]
      rw [h5]
    have has : strings ({ p with used := used' } : Prepared).aliases = .ok as := ha
    simp only [register, hp', ht, has, hreq]
    rfl

/-- The list of one property. -/
theorem prepareDeps_lookup (self : Nat) : ∀ (props : List (String × List Deps.Res)) (g : Deps.Graph) (ex : List String) (d : Deps.Prepared),
    Deps.prepareDeps g ex self props = some d → ∀ k rs, props.lookup k = some rs →
    ∃ us, d.propertyDependencies.lookup k = some us ∧
      (∀ r ∈ rs, ∀ y, Deps.Frontier r y → ∀ u, Deps.HasUrn y u → u ∈ us ∨ Deps.Reaches (Deps.Edge g) y.id self) ∧
      (∀ u ∈ us, ∃ r ∈ rs, ∃ y, Deps.Frontier r y ∧ Deps.HasUrn y u) := by
  intro props
  induction props with
  | nil => intro g ex d _ k rs h; cases h
  | cons kv props ih =>
    intro g ex d h k rs hk
    obtain ⟨k0, rs0⟩ := kv
    obtain ⟨e, b1, b2⟩ := Deps.addDependencies_ok { graph := g, urns := [] } rs0 (some self)
    rw [Deps.prepareDeps, Deps.expandDependencies, b1] at h
    simp only at h
    split at h
    · cases h
    · rename_i d' hd'
      cases h
      rw [List.lookup_cons] at hk
      simp only [List.lookup_cons]
      split at hk
      · cases hk
        refine ⟨e.urns, rfl, ?_, ?_⟩
        · intro r hr y hy u hu
          rcases b2.complete_initial y ⟨r, hr, hy⟩ with h | h
          · exact .inl (h u hu)
          · exact .inr h
        · intro u hu
          rcases b2.sound u hu with h | ⟨y, ⟨q, hq, hy⟩, hu⟩
          · cases h
          · exact ⟨q, hq, y, hy, hu⟩
      · obtain ⟨us, h1, h2, h3⟩ := ih _ _ _ hd' k rs hk
        refine ⟨us, h1, ?_, h3⟩
        intro r hr y hy u hu
        rcases h2 r hr y hy u hu with h | h
        · exact .inl h
        · refine .inr (Deps.reaches_back ?_ h)
          intro x y hxy
          rcases b2.graphSound x y hxy with h | ⟨h, _⟩
          · exact .inl h
          · exact .inr (Option.some.inj h).symm

/-- **C64** The engine is told, for every argument that is sent, exactly the URNs of the resources that it mentions
(components stand for their descendants), except for those that depend on this resource already. -/
theorem property_dependencies (h : register c g used r o = .ok (req, p))
    (hn : (r.props.map fun kv => (c.serEnv r.typ).topKey r.typ kv.1).Nodup) {k : String} {x : PV} (hx : (k, x) ∈ r.props)
    {v : PV} {d : List ResId} (hv : Wire.ser (c.serEnv r.typ) r.remote ((c.serEnv r.typ).topTy r.typ k) x = .ok (v, d))
    (hne : v ≠ .none) :
    ∃ us, req.propertyDependencies.lookup ((c.serEnv r.typ).topKey r.typ k) = some us ∧
      (∀ m, Wire.Mentions (c.serEnv r.typ) x m → ∀ y, Deps.Frontier (c.tree m) y → ∀ u, Deps.HasUrn y u →
        u ∈ us ∨ Deps.Reaches (Deps.Edge g) y.id r.self) ∧
      (∀ u ∈ us, ∃ m y, Wire.Mentions (c.serEnv r.typ) x m ∧ Deps.Frontier (c.tree m) y ∧ Deps.HasUrn y u) := by
  obtain ⟨t, as, hp, ht, ha, hreq⟩ := register_ok h
  obtain ⟨explicit, e, P, d', h1, h2, h3, h4, h5⟩ := prepare_ok hp
  obtain ⟨e', b1, b2⟩ := Deps.addDependencies_ok { graph := g, urns := [] } (explicit.map c.tree) (some r.self)
  have he : e' = e := by
    rw [Deps.expandDependencies, b1] at h2
    exact Option.some.inj h2
  subst he
  have hback : ∀ x y, Deps.Edge e'.graph x y → Deps.Edge g x y ∨ x = r.self := by
    intro x y hxy
    rcases b2.graphSound x y hxy with h | ⟨h, _⟩
    · exact .inl h
    · exact .inr (Option.some.inj h).symm
  obtain ⟨v1, d1, q1, q2⟩ := Wire.serProps_entry h3 hn hx
  rw [hv] at q1
  cases q1
  obtain ⟨q3, -⟩ := q2 hne
  have hl : (P.deps.map fun kd => (kd.1, kd.2.map c.tree)).lookup ((c.serEnv r.typ).topKey r.typ k) = some (d.map c.tree) := by
    exact (lookup_map (List.map c.tree) P.deps _).trans (by rw [q3]; rfl)
  obtain ⟨us, u1, u2, u3⟩ := prepareDeps_lookup _ _ _ _ _ h4 _ _ hl
  refine ⟨us, by rw [hreq, h5]; exact u1, ?_, ?_⟩
  · intro m hm y hy u hu
    rcases u2 _ (List.mem_map.2 ⟨m, (Wire.dependencies_exact hv m).2 hm, rfl⟩) y hy u hu with h | h
    · exact .inl h
    · exact .inr (Deps.reaches_back hback h)
  · intro u hu
    obtain ⟨q, hq, y, hy, hu⟩ := u3 u hu
    obtain ⟨m, hm, rfl⟩ := List.mem_map.1 hq
    exact ⟨m, y, (Wire.dependencies_exact hv m).1 hm, hy, hu⟩

/-- **C64** Registering a resource records its dependencies on the resources that `depends_on` asks for, unless these depend on
it already, forgets nothing, and makes no cycle. -/
theorem dependencies_recorded (h : register c g used r o = .ok (req, p)) :
    (∀ x, AsksFor c.env.dryRun o.dependsOn x → ∀ y, Deps.Frontier (c.tree x) y →
      Deps.Edge p.graph r.self y.id ∨ Deps.Reaches (Deps.Edge g) y.id r.self) ∧
    (∀ a b, Deps.Edge g a b → Deps.Edge p.graph a b) ∧
    (Deps.Acyclic (Deps.Edge g) → Deps.Acyclic (Deps.Edge p.graph)) := by
  obtain ⟨t, as, hp, ht, ha, hreq⟩ := register_ok h
  obtain ⟨explicit, e, P, d, h1, h2, h3, h4, h5⟩ := prepare_ok hp
  have hex := fun x => resolveDependsOn_spec h1 x
  obtain ⟨e', b1, b2⟩ := Deps.addDependencies_ok { graph := g, urns := [] } (explicit.map c.tree) (some r.self)
  have he : e' = e := by
    rw [Deps.expandDependencies, b1] at h2
    exact Option.some.inj h2
  subst he
  obtain ⟨d', e1, -, -, -, -, -, -, e7⟩ := Deps.prepared_dependencies_complete r.self
    (P.deps.map fun kd => (kd.1, kd.2.map c.tree)) e'.graph e'.urns
  have hd' : d' = d := by rw [e1] at h4; exact Option.some.inj h4
  subst hd'
  have hg : p.graph = d'.graph := by rw [h5]
  have hmono : ∀ (props : List (String × List Deps.Res)) (g : Deps.Graph) (ex : List String) (d : Deps.Prepared),
      Deps.prepareDeps g ex r.self props = some d → ∀ a b, Deps.Edge g a b → Deps.Edge d.graph a b := by
    intro props
    induction props with
    | nil => intro g ex d h a b hab; cases h; exact hab
    | cons kv props ih =>
      intro g ex d h a b hab
      obtain ⟨e, b1, b2⟩ := Deps.addDependencies_ok { graph := g, urns := [] } kv.2 (some r.self)
      rw [Deps.prepareDeps, Deps.expandDependencies, b1] at h
      simp only at h
      split at h
      · cases h
      · rename_i d1 hd1
        cases h
        exact ih _ _ _ hd1 _ _ (b2.graphMono _ _ hab)
  rw [hg]
  refine ⟨?_, fun a b hab => hmono _ _ _ _ h4 _ _ (b2.graphMono _ _ hab), fun ha => e7 (b2.acyclic ha)⟩
  intro x hx y hy
  rcases b2.recorded y r.self ⟨c.tree x, List.mem_map.2 ⟨x, (hex x).2 hx, rfl⟩, hy⟩ rfl with h | h
  · exact .inl (hmono _ _ _ _ h4 _ _ h)
  · refine .inr (Deps.reaches_back ?_ h)
    intro x y hxy
    rcases b2.graphSound x y hxy with h | ⟨h, _⟩
    · exact .inl h
    · exact .inr (Option.some.inj h).symm

/-- **C64** does not hold for coroutines: a `depends_on` that is a coroutine makes every registration fail, since creating
the options has awaited it already. -/
theorem coroutine_fails {c : Ctx} {o : Opts} {i : Nat} {v : Value} (ho : o.dependsOn = .coroutine i v) (rs : List Res) :
    program c o rs = .ok (rs.map fun _ => .error .reused) := by
  have key : ∀ g used, i ∈ used → registrations c g used o rs = rs.map fun _ => .error .reused := by
    induction rs with
    | nil => intros; rfl
    | cons r rs ih =>
      intro g used hu
      have : register c g used r o = .error .reused := by
        simp [register, prepare, resolveDependsOn, ho, dependsOnList, awaitOnce, hu, Except.map]
      rw [registrations, this]
      simp only [List.map_cons, ih g used hu]
  simp only [program, ho, newOptions, List.not_mem_nil, if_false]
  rw [key [] [i] (by simp)]

/-- **C64** nor for a coroutine as an entry: it works for the first resource, and every later resource with the same options
fails. -/
theorem coroutine_entry_fails_later :
    ∃ req, program sampleCtx { dependsOn := .now (.seq [.coroutine 1 (.resource (.decl 0))]) } [pathRes, pathRes] =
      .ok [.ok req, .error .reused] ∧ req.dependencies = ["urn:pulumi:s::p::t:m:T::a"] := ⟨_, rfl, rfl⟩

/-- Non-trivial instance of `dependencies_partial`: a list with an Output, a future and a component. -/
example : (DependsOn.now (.seq [.output [.decl 0] true (.resource (.decl 1)), .future (.resource (.decl 2))])).Good false := by
  intro x hx
  simp only [Value.Has, List.mem_cons, List.not_mem_nil, or_false] at hx
  rcases hx with rfl | rfl
  · exact .output .resource
  · exact .future .resource

/-! ## C65: reading a resource by its id -/

theorem IsText.ser {v : PV} {s : String} (h : IsText v s) (env : Env) :
    Wire.hasUnknown v = false ∧ ∃ d, Wire.ser env false .any v = .ok (.str s, d) := by
  induction h with
  | str => exact ⟨by simp [Wire.hasUnknown], [], by simp [Wire.ser]⟩
  | awaitable _ ih =>
    obtain ⟨h1, d, h2⟩ := ih
    exact ⟨by simp [Wire.hasUnknown], d, by simpa [Wire.ser] using h2⟩
  | output _ ih =>
    obtain ⟨h1, d, h2⟩ := ih
    rename_i rs v s _
    refine ⟨by simp [Wire.hasUnknown], rs ++ d, ?_⟩
    simp only [Wire.ser, h1, Bool.false_eq_true, if_false, h2, Wire.finishOutput]
    rfl

/-- The id of a read resource after the monitor has answered. -/
theorem read_resolves_id {c : Resolve.Ctx} (hn : c.props.Nodup) (id : Resolve.RV) (inputs : List (String × W)) (resp : Resolve.Response) :
    Resolve.Resolved (Resolve.read c id (.ok inputs) (.ok (some resp)) []).2 .id id true false ∧
      Resolve.Resolved (Resolve.read c id (.ok inputs) (.ok (some resp)) []).2 .urn (.leaf (.str resp.urn)) true false := by
  have hfr := Resolve.headEntries_fresh true (.leaf (.str resp.urn)) id true
  have hhead := Resolve.head_run (custom := true) (urn := .leaf (.str resp.urn)) (id := id) (known := true)
  have hout := Resolve.resolveOutputs_run (c := c) hn (inputs := inputs) (outputs := resp.object) (deps := [])
    (fun n _ => hfr n)
  have hrun : Resolve.read c id (.ok inputs) (.ok (some resp)) [] =
      Resolve.resolveOutputs c.env c.legacyApply c.cls c.res inputs resp.object [] c.resolvers
        (Resolve.headEntries true (.leaf (.str resp.urn)) id true) := by
    rw [Resolve.bindM, Resolve.resolveOwn_ok (Resolve.Fresh.nil _)] at hhead
    simp only [List.nil_append, if_true] at hhead
    rw [Resolve.read, Resolve.bindM, Resolve.request_run hn]
    simp only [Resolve.bindM, Resolve.resolveOwn_ok (Resolve.Fresh.nil _), List.nil_append, hhead]
  rw [hrun, hout]
  cases h : Resolve.allProperties c.env c.legacyApply c.cls inputs resp.object with
  | error e => exact ⟨(Resolve.head_id ..).holds_own, (Resolve.head_urn ..).holds_own⟩
  | ok all =>
    have hfresh : ∀ t, (∀ n, t ≠ .prop n) → Resolve.Fresh
        (Resolve.propEntries c.env.dryRun c.res c.resolvers all (Resolve.translateDeps c.cls [])) t := by
      intro t ht x hx
      obtain ⟨n, _, h⟩ := Resolve.prop_targets x hx
      rw [h]
      exact (ht n).symm
    exact ⟨((Resolve.head_id ..).left (hfresh _ (by simp))).holds_own, ((Resolve.head_urn ..).left (hfresh _ (by simp))).holds_own⟩

/-- The parts of a successful read. -/
theorem read_ok {id : PV} {rr : ReadRequest} {v : PV} (h : read c g used r o id = .ok (rr, v)) :
    ∃ p d s, prepare c g used { r with custom := true, remote := false } o = .ok p ∧
      Wire.ser { c.env with transform := none } false .any id = .ok (v, d) ∧ stringField v = .ok s ∧
      rr = { type_ := r.ty, name := r.name, id := s, parent := p.parent.getD "", provider := p.provider.getD ""
             properties := p.props, dependencies := p.dependencies, version := o.version.getD ""
             pluginDownloadURL := o.url.getD "", acceptSecrets := true, acceptResources := Invoke.acceptResources c.var
             additionalSecretOutputs := translateOutputs c r o.additionalSecretOutputs } := by
  unfold read at h
  split at h
  · cases h
  · rename_i p h1
    split at h
    · cases h
    · rename_i v' d h2
      split at h
      · cases h
      · rename_i s h3
        cases h
        exact ⟨p, d, s, h1, h2, h3, rfl⟩

/-- **C65**, for a known id that is not secret: the engine is asked for the resource with this id, type, name and parent, and
when it has answered, the resource's `id` is known and is this id. -/
theorem read_id_partial {id : PV} {s : String} (hid : IsText id s) {rc : Resolve.Ctx} (hn : rc.props.Nodup)
    {monitor : ReadRequest → Except Resolve.Exc (Option Resolve.Response)}
    {rr : ReadRequest} {v : PV} (h : read c g used r o id = .ok (rr, v)) :
    (rr.id = s ∧ rr.type_ = r.ty ∧ rr.name = r.name ∧ ParentIs c r.ty o.parent rr.parent ∧
      Text rr.provider (o.provider.map (Invoke.providerRef c.providers)) ∧ Text rr.version o.version ∧ Text rr.pluginDownloadURL o.url) ∧
    ∀ resp, monitor rr = .ok (some resp) →
      Resolve.Resolved (doRead c rc g used r o id monitor []).2 .id (.leaf (.str s)) true false ∧
      Resolve.Resolved (doRead c rc g used r o id monitor []).2 .urn (.leaf (.str resp.urn)) true false := by
  obtain ⟨p, d, s', h1, h2, h3, h4⟩ := read_ok h
  obtain ⟨-, d', h5⟩ := hid.ser { c.env with transform := none }
  rw [h5] at h2
  cases h2
  cases h3
  obtain ⟨explicit, e, P, d, -, -, -, -, h6⟩ := prepare_ok h1
  refine ⟨?_, ?_⟩
  · rw [h4, h6]
    refine ⟨rfl, rfl, rfl, parent_spec .., ?_, text_getD _, text_getD _⟩
    simp only [providerOf, if_true]
    exact text_getD _
  · intro resp hm
    simp only [doRead, h, hm]
    exact read_resolves_id hn _ _ _

/-- **C65** A read is requested if the resource can be prepared. -/
theorem reads {id : PV} {s : String} (hid : IsText id s)
    (hd : o.dependsOn.Good c.env.dryRun) (hs : ∃ P, Wire.serializeProperties (c.serEnv r.typ) r.typ false r.props = .ok P) :
    ∃ rr v, read c g used r o id = .ok (rr, v) := by
  obtain ⟨all, h1⟩ := resolveDependsOn_good hd
  obtain ⟨e, h2, -⟩ := Deps.expand_complete g (all.map c.tree) r.self
  obtain ⟨P, h3⟩ := hs
  obtain ⟨d, h4, -⟩ := Deps.prepared_dependencies_complete r.self (P.deps.map fun kd => (kd.1, kd.2.map c.tree)) e.graph e.urns
  obtain ⟨-, d', h5⟩ := hid.ser { c.env with transform := none }
  exact ⟨_, _, by simp only [read, prepare, h1, h2, h3, h4, h5, stringField]; rfl⟩

/-- **C65** does not hold for an unknown id: the engine is asked for a resource whose id is the sentinel, and the resource's
`id` is then *known*, with the sentinel as its value, so that functions applied to it see the sentinel. -/
theorem read_unknown_id {rc : Resolve.Ctx} (hn : rc.props.Nodup) {rs : List ResId} {sec : Bool} {x : PV}
    {monitor : ReadRequest → Except Resolve.Exc (Option Resolve.Response)}
    {rr : ReadRequest} {v : PV} (h : read c g used r o (.output rs false sec x) = .ok (rr, v)) :
    rr.id = Wire.UNKNOWN ∧ ∀ resp, monitor rr = .ok (some resp) →
      Resolve.Resolved (doRead c rc g used r o (.output rs false sec x) monitor []).2 .id (.leaf (.str Wire.UNKNOWN)) true false := by
  obtain ⟨p, d, s', h1, h2, h3, h4⟩ := read_ok h
  have hv : v = .str Wire.UNKNOWN := Wire.unknown_sent_as_sentinel h2 (.inl rfl)
  subst hv
  cases h3
  refine ⟨by rw [h4], ?_⟩
  intro resp hm
  simp only [doRead, h, hm]
  exact (read_resolves_id hn _ _ _).1

/-- **C65** nor for an Output that holds `None`: the engine is asked for a resource with an empty id. -/
theorem read_none_id {rs : List ResId} {rr : ReadRequest} {v : PV}
    (h : read c g used r o (.output rs true false .none) = .ok (rr, v)) : rr.id = "" := by
  obtain ⟨p, d, s', h1, h2, h3, h4⟩ := read_ok h
  simp [Wire.ser, Wire.hasUnknown, Wire.finishOutput, bind, Except.bind, pure, Except.pure] at h2
  obtain ⟨rfl, -⟩ := h2
  cases h3
  rw [h4]

/-- **C65** nor for a secret id: if the engine supports secrets, the resource is never read. -/
theorem read_secret_id (hs : c.env.secrets = true) {s : String} {rs : List ResId} :
    ∀ res, read c g used r o (.output rs true true (.str s)) ≠ .ok res := by
  rintro ⟨rr, v⟩ h
  obtain ⟨p, d, s', h1, h2, h3, h4⟩ := read_ok h
  simp [Wire.ser, Wire.hasUnknown, Wire.finishOutput, hs, bind, Except.bind, pure, Except.pure] at h2
  obtain ⟨rfl, -⟩ := h2
  cases h3

/-- Non-trivial instance: reading with an id that is an Output. -/
example : ∃ rr v, read sampleCtx [] [] pathRes {} (.output [.decl 0] true false (.str "i-1")) = .ok (rr, v) ∧ rr.id = "i-1" ∧
    rr.parent = "urn:pulumi:s::p::t:m:C::b" := ⟨_, _, rfl, rfl, rfl⟩

/-! ## Checks when options are made -/

/-- **C62** Options whose `depends_on` is given at once are refused exactly if an entry is neither a resource nor something
to wait for. -/
theorem prompt_dependencies_checked (used : Used) (v : Value) :
    (newOptions used (.now v) = .error .notResource ↔ ∃ x, v.Has x ∧ (x = .none ∨ x = .other)) ∧
      (newOptions used (.now v) = .error .notResource ∨ newOptions used (.now v) = .ok used) := by
  have key : v.toList.any Item.wrong = true ↔ ∃ x, v.Has x ∧ (x = .none ∨ x = .other) := by
    rw [List.any_eq_true]
    refine exists_congr fun x => ?_
    rw [mem_toList]
    refine and_congr_right fun _ => ?_
    cases x <;> simp [Item.wrong]
  constructor
  · rw [← key, newOptions]
    split <;> simp_all
  · rw [newOptions]
    split <;> simp

/-! ## Outputs of a component or stack -/

/-- **C62** The outputs that a component registers are sent for its own URN, each under its own name, unless its value is
`None`. -/
theorem outputs_sent {res : ResId} {outputs : List (String × PV)} {urn : String} {fields : List (String × W)}
    (h : registerOutputs c res outputs = .ok (urn, fields)) (hn : (outputs.map (·.1)).Nodup) :
    Text urn (c.env.info res).urn.value ∧
    ∀ k x, (k, x) ∈ outputs → ∃ v d, Wire.ser { c.env with transform := none } false .any x = .ok (v, d) ∧
      (v ≠ .none → ∃ w, Wire.toWire v = some w ∧ fields.lookup k = some w) := by
  unfold registerOutputs at h
  split at h
  · cases h
  · rename_i P h1
    cases h
    refine ⟨text_getD _, fun k x hx => ?_⟩
    obtain ⟨v, d, q1, q2⟩ := Wire.serProps_entry h1 (by simpa [Wire.Env.topKey, Wire.Env.translate] using hn) hx
    refine ⟨v, d, q1, fun hv => ?_⟩
    obtain ⟨_, w, q3, q4⟩ := q2 hv
    exact ⟨w, q3, q4⟩

example : ∃ fields, registerOutputs sampleCtx (.decl 0) [("a", .str "x"), ("b_c", .num 2)] =
    .ok ("urn:pulumi:s::p::t:m:T::a", fields) ∧ fields = [("a", .str "x"), ("b_c", .num 2)] := ⟨_, rfl, rfl⟩

end Pulumi.Register
