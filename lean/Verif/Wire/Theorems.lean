import Verif.Wire.Props
/-!
# Theorems on the wire format (C13-C22)
-/
namespace Pulumi.Wire

/-- A sample environment for the examples: all features on, update, one custom resource `0` and one component `1`. -/
def sampleEnv : Env :=
  { secrets := true, resourceRefs := true, outputValues := true, dryRun := false
    res := fun n =>
      if n = 0 then
        { custom := true
          urn := { resources := [.decl 0], known := true, secret := false, value := some "urn:pulumi:s::p::t:m:T::a" }
          id := { resources := [.decl 0], known := true, secret := false, value := some "id0" } }
      else
        { custom := false
          urn := { resources := [.decl n], known := true, secret := false, value := some "urn:pulumi:s::p::t:m:C::b" }
          id := { resources := [], known := false, secret := false, value := none } }
    tree := fun n =>
      if n = 0 then .mk 0 .custom (some "urn:pulumi:s::p::t:m:T::a") []
      else .mk n .localComponent (some "urn:pulumi:s::p::t:m:C::b") [.mk 0 .custom (some "urn:pulumi:s::p::t:m:T::a") []]
    classes := fun _ => []
    transform := none
    providerPackage := fun _ _ => none
    resourceModule := fun _ _ _ => none }

/-! ## C13 -/

/-- **C13.** Take any value and replace the contents of the secret Outputs in it, at any depth, by anything else. When
the engine supports secrets, the two serialised values differ only inside secret wrappers and inside output values
that are marked secret (and, when output values are sent, in their dependency lists). -/
theorem secrets_hidden {env : Env} (hs : env.secrets = true) {v w : PV} (h : Same SecretPair v w) {keep : Bool} {ty : Ty}
    {x y : PV} {d e : List ResId} (hx : ser env keep ty v = .ok (x, d)) (hy : ser env keep ty w = .ok (y, e)) :
    WireSame BothSecret (keep = true ∧ env.outputValues = true) x y := by
  refine runs_same (A := keep = true ∧ env.outputValues = true) secretPair_onOutputs ?_ h keep ty x d y e
    (fun a b => ⟨a, b⟩) hx hy
  intro a b hab keep ty x d y e _ h1 h2
  cases hab with
  | mk r r' k v w =>
    obtain ⟨v', pd, _, _, rfl⟩ := ser_output_ok h1
    obtain ⟨w', pd', _, _, rfl⟩ := ser_output_ok h2
    exact outForm_secret hs

/-- **C13**, for one Output: a known secret is sent in a wrapper around the serialisation of its value. -/
theorem secret_wrapped {env : Env} (hs : env.secrets = true) {rs : List ResId} {v : PV} {ty : Ty} {x : PV}
    {d : List ResId} (hu : ¬ ContainsUnknown v) (hx : ser env false ty (.output rs true true v) = .ok (x, d)) :
    ∃ y e, ser env false ty v = .ok (y, e) ∧ x = .dict [(sigKey, .str secretSig), ("value", y)] := by
  obtain ⟨v', pd, h1, _, rfl⟩ := ser_output_ok hx
  rcases h1 with ⟨h, _⟩ | ⟨_, h⟩
  · exact absurd ((hasUnknown_iff v).1 h) hu
  · exact ⟨v', pd, h, by simp [outForm, finishOutput, hs, secretDict]⟩

/-- **C13**, for all the properties of a resource or call: the two structs that are sent differ only inside secret
wrappers and secret output values. -/
theorem secret_properties_hidden {env : Env} (hs : env.secrets = true) {inputs inputs' : List (String × PV)}
    (hk : inputs.map (·.1) = inputs'.map (·.1)) (h : ∀ p ∈ inputs.zip inputs', Same SecretPair p.1.2 p.2.2)
    {typ : Option String} {keep : Bool} {P P' : Props}
    (h1 : serializeProperties env typ keep inputs = .ok P) (h2 : serializeProperties env typ keep inputs' = .ok P') :
    ∃ x y, toWire (.dict x) = some (.struct P.fields) ∧ toWire (.dict y) = some (.struct P'.fields) ∧
      WireSame BothSecret (keep = true ∧ env.outputValues = true) (.dict x) (.dict y) := by
  have hB : ∀ v w, BothSecret v w → isNone v = isNone w := by
    rintro v w (⟨⟨_, rfl⟩, ⟨_, rfl⟩⟩ | ⟨⟨_, rfl, _⟩, ⟨_, rfl, _⟩⟩) <;> rfl
  have hruns : KSame (RunsSame env BothSecret (keep = true ∧ env.outputValues = true)) inputs inputs' := by
    refine ⟨hk, fun p hp => ?_⟩
    refine runs_same secretPair_onOutputs ?_ (h p hp)
    intro a b hab keep ty x d y e _ h1 h2
    cases hab with
    | mk r r' k v w =>
      obtain ⟨v', pd, _, _, rfl⟩ := ser_output_ok h1
      obtain ⟨w', pd', _, _, rfl⟩ := ser_output_ok h2
      exact outForm_secret hs
  obtain ⟨x, y, hx, hy, hxy⟩ := serProps_same hB (fun a b => ⟨a, b⟩) hruns (es := []) (es' := []) rfl rfl KSame.nil h1 h2
  exact ⟨x, y, by simp [toWire, hx], by simp [toWire, hy], .dict hxy.1 hxy.2⟩

/-- Non-trivial instance: a secret inside a dict inside a list, next to public data. -/
example :
    let v := fun s => PV.list [.str "public", .dict [("password", .output [] true true (.str s))]]
    Same SecretPair (v "a") (v "b") ∧
    ser sampleEnv false .any (v "a") = .ok (.list [.str "public", .dict [("password",
      .dict [(sigKey, .str secretSig), ("value", .str "a")])]], []) ∧
    ∃ x d, ser sampleEnv false .any (v "b") = .ok (x, d) := by
  refine ⟨.list rfl ?_, rfl, _, _, rfl⟩
  intro p hp
  simp at hp
  rcases hp with rfl | rfl
  · exact .refl _
  · refine .dict rfl ?_
    intro p hp
    simp at hp
    subst hp
    exact .base (.mk ..)

/-! ## C14 -/

/-- **C14.** An Output that is not known is sent as the sentinel, whatever its underlying value. -/
theorem unknown_sent_as_sentinel {env : Env} {keep : Bool} {ty : Ty} {rs : List ResId} {s : Bool} {v x : PV}
    {d : List ResId} (h : ser env keep ty (.output rs false s v) = .ok (x, d))
    (hk : keep = false ∨ env.outputValues = false) : x = .str UNKNOWN := by
  obtain ⟨v', pd, _, _, rfl⟩ := ser_output_ok h
  have : (keep && env.outputValues) = false := by rcases hk with h | h <;> simp [h]
  simp [outForm, this, finishOutput]

/-- **C14.** When output values are sent, an Output that is not known is sent without a value field. -/
theorem unknown_sent_without_value {env : Env} {ty : Ty} {rs : List ResId} {s : Bool} {v x : PV}
    {d : List ResId} (h : ser env true ty (.output rs false s v) = .ok (x, d)) (ho : env.outputValues = true) :
    ∃ kvs, x = .dict kvs ∧ kvs.lookup sigKey = some (.str outputSig) ∧ ∀ kv ∈ kvs, kv.1 ≠ "value" := by
  obtain ⟨v', pd, _, _, rfl⟩ := ser_output_ok h
  simp only [outForm, ho, Bool.and_true, if_true, outputValueDict]
  refine ⟨_, rfl, by cases s <;> simp, ?_⟩
  intro kv hkv
  have hne1 : sigKey ≠ "value" := by decide
  cases s <;> simp at hkv
  · rcases hkv with rfl | ⟨_, rfl⟩
    · exact hne1
    · simp
  · rcases hkv with rfl | rfl | ⟨_, rfl⟩
    · exact hne1
    · simp
    · simp

/-- **C14.** The unknown marker itself is sent as the sentinel. -/
theorem unknown_marker_sent (env : Env) (keep : Bool) (ty : Ty) : ser env keep ty .unknown = .ok (.str UNKNOWN, []) := rfl

/-- **C14.** At any depth: replace the underlying values of Outputs that are not known by anything; what is sent is
the same, up to the dependency lists of output values. -/
theorem unknown_values_hidden {env : Env} {v w : PV} (h : Same UnknownPair v w) {keep : Bool} {ty : Ty}
    {x y : PV} {d e : List ResId} (hx : ser env keep ty v = .ok (x, d)) (hy : ser env keep ty w = .ok (y, e)) :
    WireSame (fun _ _ => False) (keep = true ∧ env.outputValues = true) x y := by
  refine runs_same (A := keep = true ∧ env.outputValues = true) unknownPair_onOutputs ?_ h keep ty x d y e
    (fun a b => ⟨a, b⟩) hx hy
  intro a b hab keep ty x d y e hA h1 h2
  cases hab with
  | mk r r' s v w =>
    obtain ⟨v', pd, _, _, rfl⟩ := ser_output_ok h1
    obtain ⟨w', pd', _, _, rfl⟩ := ser_output_ok h2
    unfold outForm
    split
    · rename_i hko
      simp only [Bool.and_eq_true] at hko
      have h3 : ∀ us, outputValueDict false s v' us = outputValueDict false s w' us := fun _ => rfl
      rw [h3]
      exact outputValueDict_same (.refl _) (hA hko.1 hko.2) _ _
    · exact .refl _

/-- **C14**, when output values are not sent: exactly the same. -/
theorem unknown_values_irrelevant {env : Env} {v w : PV} (h : Same UnknownPair v w) {ty : Ty}
    {x y : PV} {d e : List ResId} (hx : ser env false ty v = .ok (x, d)) (hy : ser env false ty w = .ok (y, e)) :
    x = y := by
  have h1 := unknown_values_hidden h hx hy
  have h2 : (false = true ∧ env.outputValues = true) = False := by simp
  rw [h2] at h1
  exact wireSame_eq h1

/-- Non-trivial instance: an unknown in a dict, with two very different underlying values. -/
example :
    let v := fun u => PV.dict [("a", .num 1), ("b", .output [.decl 0] false true u)]
    Same UnknownPair (v (.str "x")) (v (.list [.num 3])) ∧
    ser sampleEnv false .any (v (.str "x")) = .ok (.dict [("a", .num 1), ("b", .str UNKNOWN)], [.decl 0]) ∧
    ser sampleEnv false .any (v (.list [.num 3])) = .ok (.dict [("a", .num 1), ("b", .str UNKNOWN)], [.decl 0]) := by
  refine ⟨.dict rfl ?_, rfl, rfl⟩
  intro p hp
  simp at hp
  rcases hp with rfl | rfl
  · exact .refl _
  · exact .base (.mk ..)

/-! ## C15 -/

/-- **C15.** The dependencies collected for a value are exactly the resources it mentions. -/
theorem dependencies_exact {env : Env} {keep : Bool} {ty : Ty} {v x : PV} {d : List ResId}
    (h : ser env keep ty v = .ok (x, d)) (r : ResId) : r ∈ d ↔ Mentions env v r :=
  deps_exact env v keep ty x d h r

/-- **C15**, for all properties: every property that is sent is listed with exactly the resources it mentions. -/
theorem property_dependencies_exact {env : Env} {typ : Option String} {keep : Bool} {inputs : List (String × PV)}
    {P : Props} (h : serializeProperties env typ keep inputs = .ok P)
    (hn : (inputs.map fun kv => env.topKey typ kv.1).Nodup) {k : String} {x : PV} (hm : (k, x) ∈ inputs)
    {w : W} (hs : P.fields.lookup (env.topKey typ k) = some w) :
    ∃ d, P.deps.lookup (env.topKey typ k) = some d ∧ ∀ r, r ∈ d ↔ Mentions env x r := by
  obtain ⟨v, d, hv, hrest⟩ := serProps_entry h hn hm
  by_cases hne : v = .none
  · exfalso
    subst hne
    -- a property that serialises to `None` is not sent
    have key : ∀ (kvs : List (String × PV)) (acc : Props), acc.fields.lookup (env.topKey typ k) = none →
        (kvs.map fun kv => env.topKey typ kv.1).Nodup → (k, x) ∈ kvs → serProps env typ keep acc kvs = .ok P →
        P.fields.lookup (env.topKey typ k) = none := by
      intro kvs
      induction kvs with
      | nil => intro _ _ _ hm; cases hm
      | cons kv kvs ih =>
        obtain ⟨k0, x0⟩ := kv
        intro acc ha hn hm h
        simp only [List.map_cons, List.nodup_cons] at hn
        obtain ⟨v', d', hv', hc⟩ := serProps_cons_ok h
        rcases List.mem_cons.1 hm with hh | hm
        · cases hh
          rw [hv] at hv'
          simp only [Except.ok.injEq, Prod.mk.injEq] at hv'
          rcases hc with ⟨_, hc⟩ | ⟨hne, _⟩
          · rw [(serProps_untouched hc (fun kv hkv hh => hn.1 (List.mem_map.2 ⟨kv, hkv, hh⟩))).2]
            exact ha
          · exact absurd hv'.1.symm hne
        · rcases hc with ⟨_, hc⟩ | ⟨_, w, _, hc⟩
          · exact ih _ ha hn.2 hm hc
          · refine ih _ ?_ hn.2 hm hc
            rw [setKey_lookup_ne]
            · exact ha
            · intro hh
              exact hn.1 (List.mem_map.2 ⟨(k, x), hm, hh⟩)
    rw [key inputs _ rfl hn hm h] at hs
    cases hs
  · obtain ⟨h1, _⟩ := hrest hne
    exact ⟨d, h1, fun r => deps_exact env x keep _ v d hv r⟩

/-- Non-trivial instance: a dependency through the value of an Output and through a referenced resource. -/
example : ∃ P, serializeProperties sampleEnv none false
      [("a", .list [.output [.decl 7] true false (.list [.resource (.decl 0)]), .resource (.decl 1)]), ("b", .num 2)] = .ok P ∧
    P.deps = [("a", [.decl 7, .decl 0, .decl 0, .decl 1]), ("b", [])] := ⟨_, rfl, rfl⟩

/-- A property that serialises to `None` is not sent, and the resource its Output depends on is not recorded. -/
theorem none_property_loses_dependency :
    ∃ P, serializeProperties sampleEnv none false [("a", .output [.decl 0] true false .none)] = .ok P ∧ P.fields = [] ∧
      P.deps = [] := ⟨_, rfl, rfl, rfl⟩

/-! ## C16 -/

/-- **C16.** Plain data that is serialised, sent and deserialised comes back as it was, without the `None`-valued
entries of its dicts. -/
theorem plain_round_trip {env env' : Env} (hk : ∀ k, env.translate k = k) {v : PV} (h : Plain v) (keep keep' : Bool) :
    ∃ w, ser env keep .any v = .ok (v, []) ∧ toWire v = some w ∧ des env' keep' w = .ok (dropNones v) := by
  obtain ⟨w, hw⟩ := toWire_plain h
  exact ⟨w, ser_plain hk h keep, hw, des_plain env' keep' h w hw⟩

/-- **C16.** Plain data without `None`-valued entries in its dicts comes back exactly as it was. -/
theorem plain_round_trip_exact {env env' : Env} (hk : ∀ k, env.translate k = k) {v : PV} (h : Plain v)
    (hn : NoNoneEntry v) (keep keep' : Bool) :
    ∃ x d w, ser env keep .any v = .ok (x, d) ∧ toWire x = some w ∧ des env' keep' w = .ok v := by
  obtain ⟨w, h1, h2, h3⟩ := plain_round_trip (env' := env') hk h keep keep'
  rw [dropNones_id hn] at h3
  exact ⟨v, [], w, h1, h2, h3⟩

/-- **C16**, for the properties of a resource or call. -/
theorem plain_properties_round_trip {env env' : Env} (hk : ∀ k, env.translate k = k) {inputs : List (String × PV)}
    (hn : (inputs.map (·.1)).Nodup) (hu : ∀ kv ∈ inputs, UserKey kv.1) (hp : ∀ kv ∈ inputs, Plain kv.2)
    (keep keep' ki : Bool) :
    ∃ P, serializeProperties env none keep inputs = .ok P ∧
      deserializeProperties env' keep' ki P.fields = .ok (dropNones (.dict inputs)) := by
  obtain ⟨P, h1, h2⟩ := serProps_plain hk keep (kvs := inputs) (pre := []) (acc := { fields := [], deps := [] }) rfl rfl
    (by simpa using hn) hp
  refine ⟨P, h1, ?_⟩
  rw [List.nil_append] at h2
  have hsub : ∀ kv ∈ nonNone inputs, kv ∈ inputs := fun kv h => (List.mem_filter.1 h).1
  rw [deserializeProperties, desStruct_plain (kvs := nonNone inputs) (fun kv h => hu kv (hsub kv h))
    (fun kv h w hw => des_plain env' keep' (hp kv (hsub kv h)) w hw) h2, dropNonesKvs_nonNone]
  rfl

/-- Non-trivial instance: nested data with a `None` entry. -/
example : Plain (.dict [("a", .list [.num 1, .none]), ("b", .dict [("c", .none), ("d", .str "x")])]) ∧
    dropNones (.dict [("a", .list [.num 1, .none]), ("b", .dict [("c", .none), ("d", .str "x")])]) =
      .dict [("a", .list [.num 1, .none]), ("b", .dict [("d", .str "x")])] ∧ (∀ k, sampleEnv.translate k = k) := by
  refine ⟨.dict (by decide) ?_ ?_, rfl, fun _ => rfl⟩
  · intro kv h
    simp at h
    rcases h with rfl | rfl <;> exact ⟨by decide, fun h => absurd h (by decide)⟩
  · intro kv h
    simp at h
    rcases h with rfl | rfl
    · refine .list ?_
      intro x hx
      simp at hx
      rcases hx with rfl | rfl
      · exact .num 1
      · exact .none
    · refine .dict (by decide) ?_ ?_
      · intro kv h
        simp at h
        rcases h with rfl | rfl <;> exact ⟨by decide, fun h => absurd h (by decide)⟩
      · intro kv h
        simp at h
        rcases h with rfl | rfl
        · exact .none
        · exact .str (by decide)

/-! ## C17 -/

/-- **C17.** A deserialised value has no marker inside: it is data without markers, or one marker around such data. -/
theorem secrets_bubble {env : Env} {keep : Bool} {w : W} {v : PV} (h : des env keep w = .ok v) :
    NoMarker v ∨ Secret v := by
  rcases des_bubbled env w keep v h with h | ⟨x, rfl, hx⟩
  · exact .inl h
  · exact .inr ⟨x, rfl, hx⟩

/-- **C17.** It is marked exactly when the wire value contained a secret wrapper that concerns the program. -/
theorem marked_iff {env : Env} {keep : Bool} {w : W} {v : PV} (h : des env keep w = .ok v) :
    Secret v ↔ HasSecret env w := by
  rw [← des_marked env w keep v h, (des_bubbled env w keep v h).secret_iff]

/-- **C17.** Deserialising and erasing the marker gives the same data (up to `None`-valued entries of objects) as
erasing the wrappers before deserialising; and one fails exactly when the other does. -/
theorem erase_then_read {env : Env} (w : W) (keep : Bool) (hk : env.dryRun = true ∨ keep = false) :
    (des env keep w).map (fun v => dropNones (unwrapSecret v)) =
      (des env keep (strip w)).map (fun v => dropNones (unwrapSecret v)) :=
  des_erase w keep hk

/-- Non-trivial instance: secrets at two depths. -/
example : des sampleEnv false (.struct [("a", .list [.num 1, .struct [(sigKey, .str secretSig), ("value", .str "x")]]),
      ("b", .bool true)]) =
    .ok (.dict [(sigKey, .str secretSig), ("value", .dict [("a", .list [.num 1, .str "x"]), ("b", .bool true)])]) ∧
    strip (.struct [("a", .list [.num 1, .struct [(sigKey, .str secretSig), ("value", .str "x")]]), ("b", .bool true)]) =
      .struct [("a", .list [.num 1, .str "x"]), ("b", .bool true)] := by
  constructor
  · simp [des, desStruct, desList, desKvs, collect, isInternal, bubbleList, bubbleDict, sigKey, secretSig, assetSig,
      archiveSig, Decoded.get, List.lookup, desStr, UNKNOWN, Except.map, bind, Except.bind, pure, Except.pure, isNone,
      wrapSecret, unwrapSecret, isRpcSecret, secretDict]
  · simp [strip, stripKvs, stripList, sigKey, secretSig, List.lookup]

/-- The equality of `erase_then_read` does not hold exactly: a secret null in an object leaves a `None` entry, a plain
null leaves none. -/
theorem secret_null_entry_kept :
    des sampleEnv false (.struct [("a", .struct [(sigKey, .str secretSig), ("value", .null)])]) =
        .ok (.dict [(sigKey, .str secretSig), ("value", .dict [("a", .none)])]) ∧
      des sampleEnv false (.struct [("a", .null)]) = .ok (.dict []) := by
  constructor
  · simp [des, desStruct, desKvs, collect, isInternal, bubbleDict, sigKey, secretSig, assetSig,
      archiveSig, Decoded.get, List.lookup, Except.map, isNone,
      wrapSecret, unwrapSecret, isRpcSecret, secretDict]
  · rfl

/-- A secret inside an output value is not pushed out of it: the Output is not secret and its value still contains the
marker dict. -/
theorem output_value_keeps_marker :
    des sampleEnv false (.struct [(sigKey, .str outputSig), ("value", .struct [(sigKey, .str secretSig), ("value", .num 1)])]) =
      .ok (.output [] true false (.dict [(sigKey, .str secretSig), ("value", .num 1)])) := by
  simp [des, desStruct, desKvs, bubbleDict, sigKey, secretSig, assetSig, outputSig, resourceSig,
      archiveSig, Decoded.get, List.lookup, Except.map, desOutputValue, outValue, outSecret, outUrns,
      wrapSecret, isRpcSecret, secretDict, bind, Except.bind, pure, Except.pure]

/-! ## C18 -/

/-- **C18.** Deserialisation acts position by position: what is found at a path of the deserialised value (without its
marker) is what is found by deserialising the wire value at that path. Below a secret wrapper `keep_unknowns` is off. -/
theorem read_at_path {env : Env} {keep : Bool} {w w' : W} {v : PV} {p : List Step} {b : Bool}
    (h : des env keep w = .ok v) (hw : WAt w p b w') :
    ∃ v', des env (keep && !b) w' = .ok v' ∧ (unwrapSecret v).at p = unwrapSecret v' :=
  des_at hw h

/-- **C18.** The sentinel is read as an unknown in preview, or when the caller keeps unknowns and there is no secret
wrapper around; otherwise as `None`. -/
theorem sentinel_at_path_partial {env : Env} {keep : Bool} {w : W} {v : PV} {p : List Step} {b : Bool}
    (h : des env keep w = .ok v) (hw : WAt w p b (.str UNKNOWN)) :
    (unwrapSecret v).at p = if env.dryRun = true ∨ (keep = true ∧ b = false) then .unknown else .none := by
  obtain ⟨v', h1, h2⟩ := des_at hw h
  rw [h2]
  rw [des] at h1
  cases h1
  cases env.dryRun <;> cases keep <;> cases b <;> rfl

/-- **C18.** Any other string is read as itself. -/
theorem string_at_path {env : Env} {keep : Bool} {w : W} {v : PV} {p : List Step} {b : Bool} {s : String}
    (h : des env keep w = .ok v) (hw : WAt w p b (.str s)) (hs : s ≠ UNKNOWN) : (unwrapSecret v).at p = .str s := by
  obtain ⟨v', h1, h2⟩ := des_at hw h
  rw [h2]
  rw [des, desStr_keep hs] at h1
  cases h1
  rfl

/-- **C18.** In an update, without `keep_unknowns`, there is no unknown anywhere in a deserialised value. -/
theorem no_unknowns_in_update {env : Env} (hd : env.dryRun = false) {w : W} {v : PV} (h : des env false w = .ok v) :
    Everywhere (fun x => x ≠ .unknown) v :=
  des_everywhere closed_ne_unknown w false v (by simp [hd]) h

/-- **C18.** The sentinel string itself never reaches the program (except as the path, text or URI of an asset). -/
theorem sentinel_never_visible {env : Env} {keep : Bool} {w : W} {v : PV} (h : des env keep w = .ok v) :
    Everywhere (fun x => x ≠ .str UNKNOWN) v :=
  des_everywhere closed_ne_sentinel w keep v (by simp) h

/-- **C18.** In preview `keep_unknowns` makes no difference. -/
theorem keep_irrelevant_in_preview {env : Env} (hd : env.dryRun = true) (keep : Bool) (w : W) :
    des env keep w = des env false w := des_dry hd w keep

/-- Non-trivial instance: the sentinel inside a list inside an object. -/
example : WAt (.struct [("a", .list [.num 1, .str UNKNOWN])]) [.key "a", .idx 1] false (.str UNKNOWN) ∧
    ∃ v, des sampleEnv true (.struct [("a", .list [.num 1, .str UNKNOWN])]) = .ok v := by
  refine ⟨.key (by simp) (by simp [List.lookup, sigKey]) (fun h => absurd h (by decide)) (w := .list [.num 1, .str UNKNOWN])
    (by simp [List.lookup]) (.idx rfl (.here _)), _, rfl⟩

/-- A caller that keeps unknowns loses those under a secret: they become `None`. -/
theorem unknown_under_secret_lost :
    des sampleEnv true (.struct [(sigKey, .str secretSig), ("value", .str UNKNOWN)]) = .ok (secretDict .none) ∧
      des sampleEnv true (.str UNKNOWN) = .ok .unknown := by
  constructor
  · simp [des, desStruct, desKvs, bubbleDict, sigKey, secretSig, assetSig, archiveSig, Decoded.get, List.lookup,
      Except.map, wrapSecret, isRpcSecret, secretDict, desStr, sampleEnv]
  · rfl

/-- An asset whose path is not known yet is read as an asset with the sentinel as its path. -/
theorem unknown_asset_path : des sampleEnv true (.struct [(sigKey, .str assetSig), ("path", .str UNKNOWN)]) =
    .ok (.asset .file UNKNOWN) := by
  simp [des, desStruct, desAsset, strField, sigKey, assetSig, List.lookup, Except.map, bubbleDict]

/-! ## C19 -/

/-- **C19.** The entries of a deserialised object are exactly the visible ones (all of them if internal properties were
requested) whose value is not `None`. -/
theorem object_entries {env : Env} {keep ki : Bool} {kvs : List (String × W)} {es : List (String × PV)}
    (hs : kvs.lookup sigKey = none) (h : deserializeProperties env keep ki kvs = .ok (.dict es)) (k : String) (v : PV) :
    (k, v) ∈ es ↔ (ki = true ∨ Visible k) ∧ v ≠ .none ∧ ∃ w, (k, w) ∈ kvs ∧ des env keep w = .ok v := by
  cases structCase h with
  | ordinary _ hc hv => cases hv; exact collect_mem hc k v
  | asset h => rw [hs] at h; cases h
  | archive h => rw [hs] at h; cases h
  | secret h => rw [hs] at h; cases h
  | reference h => rw [hs] at h; cases h
  | output h => rw [hs] at h; cases h

/-- **C19.** No dict or archive anywhere in a deserialised value has a key starting with two underscores, except
`__provider`. -/
theorem no_internal_keys {env : Env} {keep : Bool} {w : W} {v : PV} (h : des env keep w = .ok v) :
    Everywhere VisibleKeys v :=
  des_everywhere closed_visible w keep v (fun _ => by intro kvs h'; rcases h' with h' | h' <;> cases h') h

/-- **C19**, for the properties of a resource: the same, at the top and below. -/
theorem no_internal_properties {env : Env} {keep : Bool} {kvs : List (String × W)} {es : List (String × PV)}
    (hs : kvs.lookup sigKey = none) (h : deserializeProperties env keep false kvs = .ok (.dict es)) :
    Everywhere VisibleKeys (.dict es) := by
  have hc : ∀ k v, (k, v) ∈ es → Visible k ∧ Everywhere VisibleKeys v := by
    intro k v hm
    obtain ⟨hv, _, w, _, hd⟩ := (object_entries hs h k v).1 hm
    exact ⟨by simpa using hv, no_internal_keys hd⟩
  refine .mk ?_ ?_
  · intro kvs' h' kv hkv
    rcases h' with h' | h' <;> cases h'
    exact (hc kv.1 kv.2 hkv).1
  · intro c hcc
    simp only [children, List.mem_map] at hcc
    obtain ⟨⟨k, v⟩, hm, rfl⟩ := hcc
    exact (hc k v hm).2

/-- Non-trivial instance. -/
example : deserializeProperties sampleEnv false false
      [("__internal", .num 1), ("__provider", .str "p"), ("a", .struct [("__x", .num 2), ("b", .num 3)])] =
    .ok (.dict [("__provider", .str "p"), ("a", .dict [("b", .num 3)])]) := by rfl

/-- Internal properties are kept at the top only, even when requested. -/
theorem keep_internal_top_only : deserializeProperties sampleEnv false true
      [("__internal", .num 1), ("a", .struct [("__x", .num 2), ("b", .num 3)])] =
    .ok (.dict [("__internal", .num 1), ("a", .dict [("b", .num 3)])]) := by rfl

/-! ## C20 -/

/-- **C20.** What serialisation produces is a legal protocol value. -/
theorem serialised_legal {env : Env} {keep : Bool} {ty : Ty} {v x : PV} {d : List ResId}
    (h : ser env keep ty v = .ok (x, d)) : Legal x ∧ ∃ w, toWire x = some w :=
  have hl : Legal x := ser_legal env v keep ty x d h
  ⟨hl, toWire_of_legal hl⟩

/-- **C20.** Serialising the properties fails only with the error of one of them: the assignment into the struct that
is sent never fails. -/
theorem properties_fail_only_by_value {env : Env} {typ : Option String} {keep : Bool} {inputs : List (String × PV)}
    {e : Err} (h : serializeProperties env typ keep inputs = .error e) :
    ∃ k x, (k, x) ∈ inputs ∧ ser env keep (env.topTy typ k) x = .error e := by
  unfold serializeProperties at h
  generalize ({ fields := [], deps := [] } : Props) = acc at h
  induction inputs generalizing acc with
  | nil => cases h
  | cons kv rest ih =>
    obtain ⟨k, x⟩ := kv
    have lift : (∃ k' x', (k', x') ∈ rest ∧ ser env keep (env.topTy typ k') x' = .error e) →
        ∃ k' x', (k', x') ∈ (k, x) :: rest ∧ ser env keep (env.topTy typ k') x' = .error e := by
      rintro ⟨k', x', hm, hs⟩
      exact ⟨k', x', List.mem_cons_of_mem _ hm, hs⟩
    simp only [serProps] at h
    cases hx : ser env keep (env.topTy typ k) x with
    | error e' =>
      rw [hx] at h
      cases h
      exact ⟨k, x, List.mem_cons_self .., hx⟩
    | ok p =>
      obtain ⟨v, d⟩ := p
      rw [hx] at h
      simp only [bind, Except.bind] at h
      split at h
      · exact lift (ih _ h)
      · obtain ⟨w, hw⟩ := (serialised_legal hx).2
        rw [hw] at h
        exact lift (ih _ h)

/-- An unsupported object anywhere makes serialisation fail. -/
example : ser sampleEnv false .any (.list [.num 1, .dict [("a", .illegal)]]) = .error .illegal := rfl
example : ∃ x d, ser sampleEnv true .any (.list [.output [.decl 0] true true (.resource (.decl 1)), .asset .file "f"]) =
  .ok (x, d) := ⟨_, _, rfl⟩

/-! ## C21 -/

/-- **C21.** Assets, and archives nested to any depth whose entry names do not start with two underscores, come back
equal. -/
theorem assets_round_trip_partial {env env' : Env} (hk : ∀ k, env.translate k = k) {v : PV} (h : IsAsset v)
    (keep keep' : Bool) (ty : Ty) :
    ∃ x w, ser env keep ty v = .ok (x, []) ∧ toWire x = some w ∧ des env' keep' w = .ok v := by
  obtain ⟨x, w, h1, h2, h3⟩ := asset_roundtrip hk h keep ty
  exact ⟨x, w, h1, h2, h3 env' keep'⟩

/-- Non-trivial instance: an archive in an archive. -/
example : IsAsset (.assetArchive [("a", .asset .text "x"), ("b", .assetArchive [("c", .archive .remote "u")])]) := by
  refine .assetArchive (by decide) ?_ ?_
  · intro kv h
    simp at h
    rcases h with rfl | rfl <;> exact ⟨by decide, fun h => absurd h (by decide)⟩
  · intro kv h
    simp at h
    rcases h with rfl | rfl
    · exact .asset ..
    · refine .assetArchive (by decide) ?_ ?_
      · intro kv h
        simp at h
        subst h
        exact ⟨by decide, fun h => absurd h (by decide)⟩
      · intro kv h
        simp at h
        subst h
        exact .archive ..

/-- The full property fails: an archive with a file `__init__.py` comes back without it. -/
theorem archive_loses_dunder_file :
    let v := PV.assetArchive [("__init__.py", .asset .text ""), ("a.py", .asset .text "x")]
    ∃ x w, ser sampleEnv false .any v = .ok (x, []) ∧ toWire x = some w ∧
      des sampleEnv false w = .ok (.assetArchive [("a.py", .asset .text "x")]) := by
  refine ⟨_, _, rfl, rfl, ?_⟩
  simp [des, desStruct, desKvs, desArchive, desAsset, strField, sigKey, assetSig, archiveSig, List.lookup, Except.map,
    bubbleDict, Decoded.get, Except.bind, mkAssetArchive, isAssetOrArchive, collect, isInternal, isNone, isRpcSecret,
    Env.mapKey, Env.translate, sampleEnv]

/-! ## C22 -/

theorem output_deps {env : Env} {rs : List ResId} {u : String} :
    u ∈ (expandUrns env (valueResources env rs [])).mergeSort (fun a b => decide (a ≤ b)) ↔ UrnOf env rs u := by
  rw [List.mem_mergeSort, mem_expandUrns]
  constructor
  · rintro ⟨r, hr, f, hf⟩
    rw [mem_valueResources] at hr
    refine ⟨r, ?_, f, hf⟩
    rcases hr with (h | h) | ⟨x, h | h, hx⟩
    · exact .inl h
    · cases h
    · exact .inr ⟨x, h, hx⟩
    · cases h
  · rintro ⟨r, hr, f, hf⟩
    refine ⟨r, ?_, f, hf⟩
    rw [mem_valueResources]
    rcases hr with h | ⟨x, h, hx⟩
    · exact .inl (.inl h)
    · exact .inr ⟨x, .inl h, hx⟩

/-- **C22.** An Output over plain data that is sent as an output value comes back with the same knownness, the same
secretness, its value if known (without `None`-valued dict entries) and one dependency for each URN that its
dependencies stand for. -/
theorem output_value_round_trip {env env' : Env} (hk : ∀ k, env.translate k = k) (ho : env.outputValues = true)
    {v : PV} (h : Plain v) (rs : List ResId) (known secret keep' : Bool) (hu : ¬ UrnOf env rs UNKNOWN) :
    ∃ x d w rs', ser env true .any (.output rs known secret v) = .ok (x, d) ∧ toWire x = some w ∧
      des env' keep' w = .ok (.output rs' known secret (if known then dropNones v else .none)) ∧
      ∀ r, r ∈ rs' ↔ ∃ u, r = .dep u ∧ UrnOf env rs u := by
  obtain ⟨w, hw⟩ := toWire_plain h
  refine ⟨outputValueDict known secret v (expandUrns env (valueResources env rs [])), rs ++ [], _, _, ?_,
    toWire_outputValue hw _, des_outputWire (des_plain env' false h w hw) ?_, ?_⟩
  · simp only [ser, hasUnknown_plain h, ser_plain hk h, ho]
    rfl
  · intro u hm
    rw [output_deps] at hm
    rintro rfl
    exact hu hm
  · intro r
    rw [mem_foldl_resAdd]
    simp only [List.not_mem_nil, false_or, List.mem_map, output_deps]
    constructor
    · rintro ⟨u, hu, rfl⟩
      exact ⟨u, rfl, hu⟩
    · rintro ⟨u, rfl, hu⟩
      exact ⟨u, hu, rfl⟩

/-- Non-trivial instance: an Output that depends on a component; its URNs are those of the component's child. -/
example : UrnOf sampleEnv [.decl 1] "urn:pulumi:s::p::t:m:T::a" :=
  ⟨.decl 1, .inl (by simp), _, .child (List.mem_cons_self ..) .custom, rfl, by decide⟩

end Pulumi.Wire
