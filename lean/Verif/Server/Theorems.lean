import Verif.Server.Model
import Verif.Wire.Theorems
import Verif.Urn.Theorems

/-!
# What a component provider receives and answers: the properties
-/
namespace Pulumi.Server

open Wire (Env Err PV W ResId)

/-! ## Specification -/

/-- The value is an Output or has one inside its lists and dicts. -/
inductive HasOutput : PV → Prop
  | here {rs k s v} : HasOutput (.output rs k s v)
  | list {xs x} : x ∈ xs → HasOutput x → HasOutput (.list xs)
  | dict {kvs : List (String × PV)} {k x} : (k, x) ∈ kvs → HasOutput x → HasOutput (.dict kvs)

/-- The value is a resource that depends on nothing but itself. -/
def SelfReference (env : Env) (v : PV) (deps : List String) : Prop :=
  ∃ r u, v = .resource r ∧ deps = [u] ∧ (env.info r).urn.value = some u

/-- The URNs that the request lists for `k`. -/
def Listed (dependencies : List (String × List String)) (k u : String) : Prop :=
  ∃ us, dependencies.lookup k = some us ∧ u ∈ us

/-! ## Lemmas -/

mutual
theorem containsOutputs_iff : ∀ v, containsOutputs v = true ↔ HasOutput v
  | .output .. => ⟨fun _ => .here, fun _ => by simp [containsOutputs]⟩
  | .list xs => by
    rw [containsOutputs, containsOutputsList_iff xs]
    exact ⟨fun ⟨x, h1, h2⟩ => .list h1 h2, fun h => by cases h with | list h1 h2 => exact ⟨_, h1, h2⟩⟩
  | .dict kvs => by
    rw [containsOutputs, containsOutputsKvs_iff kvs]
    exact ⟨fun ⟨k, x, h1, h2⟩ => .dict h1 h2, fun h => by cases h with | dict h1 h2 => exact ⟨_, _, h1, h2⟩⟩
  | .none => ⟨fun h => by simp [containsOutputs] at h, fun h => by cases h⟩
  | .bool _ => ⟨fun h => by simp [containsOutputs] at h, fun h => by cases h⟩
  | .num _ => ⟨fun h => by simp [containsOutputs] at h, fun h => by cases h⟩
  | .str _ => ⟨fun h => by simp [containsOutputs] at h, fun h => by cases h⟩
  | .unknown => ⟨fun h => by simp [containsOutputs] at h, fun h => by cases h⟩
  | .resource _ => ⟨fun h => by simp [containsOutputs] at h, fun h => by cases h⟩
  | .asset _ _ => ⟨fun h => by simp [containsOutputs] at h, fun h => by cases h⟩
  | .archive _ _ => ⟨fun h => by simp [containsOutputs] at h, fun h => by cases h⟩
  | .assetArchive _ => ⟨fun h => by simp [containsOutputs] at h, fun h => by cases h⟩
  | .oddAsset => ⟨fun h => by simp [containsOutputs] at h, fun h => by cases h⟩
  | .awaitable _ => ⟨fun h => by simp [containsOutputs] at h, fun h => by cases h⟩
  | .failing _ => ⟨fun h => by simp [containsOutputs] at h, fun h => by cases h⟩
  | .inputObj _ _ => ⟨fun h => by simp [containsOutputs] at h, fun h => by cases h⟩
  | .illegal => ⟨fun h => by simp [containsOutputs] at h, fun h => by cases h⟩
theorem containsOutputsList_iff : ∀ xs, containsOutputsList xs = true ↔ ∃ x, x ∈ xs ∧ HasOutput x
  | [] => by simp [containsOutputsList]
  | x :: xs => by
    rw [containsOutputsList]
    have h1 := containsOutputs_iff x
    have h2 := containsOutputsList_iff xs
    by_cases h : containsOutputs x = true
    · simp only [h, if_true, true_iff]; exact ⟨x, by simp, h1.1 h⟩
    · simp only [h, if_false, h2, Bool.false_eq_true]
      constructor
      · rintro ⟨y, h3, h4⟩; exact ⟨y, by simp [h3], h4⟩
      · rintro ⟨y, h3, h4⟩
        rcases List.mem_cons.1 h3 with rfl | h3
        · exact absurd (h1.2 h4) h
        · exact ⟨y, h3, h4⟩
theorem containsOutputsKvs_iff : ∀ kvs, containsOutputsKvs kvs = true ↔ ∃ k x, (k, x) ∈ kvs ∧ HasOutput x
  | [] => by simp [containsOutputsKvs]
  | (k, x) :: kvs => by
    rw [containsOutputsKvs]
    have h1 := containsOutputs_iff x
    have h2 := containsOutputsKvs_iff kvs
    by_cases h : containsOutputs x = true
    · simp only [h, if_true, true_iff]; exact ⟨k, x, by simp, h1.1 h⟩
    · simp only [h, if_false, h2, Bool.false_eq_true]
      constructor
      · rintro ⟨j, y, h3, h4⟩; exact ⟨j, y, by simp [h3], h4⟩
      · rintro ⟨j, y, h3, h4⟩
        rcases List.mem_cons.1 h3 with h3 | h3
        · cases h3; exact absurd (h1.2 h4) h
        · exact ⟨j, y, h3, h4⟩
end

theorem isResourceReference_iff {env : Env} {v : PV} {deps : List String} :
    isResourceReference env v deps = true ↔ SelfReference env v deps := by
  unfold isResourceReference SelfReference
  split
  · rename_i r u
    constructor
    · intro h; exact ⟨r, u, rfl, rfl, by simpa using h⟩
    · rintro ⟨r', u', h1, h2, h3⟩
      cases h1; cases h2
      simpa using h3
  · rename_i h
    constructor
    · intro h; cases h
    · rintro ⟨r, u, h1, h2, _⟩; exact absurd h2 (by intro h2; exact h r u h1 h2)

theorem mem_urnSet_go (us : List String) : ∀ (s : List String) (u : String),
    u ∈ us.foldl (fun s u => if u ∈ s then s else s ++ [u]) s ↔ u ∈ s ∨ u ∈ us := by
  induction us with
  | nil => simp
  | cons x us ih =>
    intro s u
    rw [List.foldl_cons, ih]
    by_cases hx : x ∈ s
    · simp only [hx, if_true, List.mem_cons]
      constructor
      · rintro (h | h)
        · exact .inl h
        · exact .inr (.inr h)
      · rintro (h | rfl | h)
        · exact .inl h
        · exact .inl hx
        · exact .inr h
    · simp only [hx, if_false, List.mem_append, List.mem_cons, List.not_mem_nil, or_false, or_assoc]

theorem mem_depsOf {dependencies : List (String × List String)} {k u : String} :
    u ∈ depsOf dependencies k ↔ Listed dependencies k u := by
  unfold depsOf urnSet Listed
  rw [mem_urnSet_go]
  cases dependencies.lookup k with
  | none => simp
  | some us => simp

theorem nodup_keys_eq {α : Type} {kvs : List (String × α)} (hn : (kvs.map (·.1)).Nodup) {k : String} {a b : α}
    (ha : (k, a) ∈ kvs) (hb : (k, b) ∈ kvs) : a = b := by
  induction kvs with
  | nil => cases ha
  | cons p kvs ih =>
    obtain ⟨k', x⟩ := p
    simp only [List.map_cons, List.nodup_cons] at hn
    rcases List.mem_cons.1 ha with h1 | h1 <;> rcases List.mem_cons.1 hb with h2 | h2
    · cases h1; cases h2; rfl
    · cases h1; exact absurd (List.mem_map_of_mem (f := (·.1)) h2) hn.1
    · cases h2; exact absurd (List.mem_map_of_mem (f := (·.1)) h1) hn.1
    · exact ih hn.2 h1 h2

theorem receive_mem {env : Env} {ki : Bool} {fields : List (String × W)} {dependencies : List (String × List String)}
    {args : List (String × PV)} (hs : fields.lookup Wire.sigKey = none) (h : receive env ki fields dependencies = .ok args)
    (k : String) (a : PV) :
    (k, a) ∈ args ↔ (ki = true ∨ Wire.Visible k) ∧
      ∃ w v, (k, w) ∈ fields ∧ Wire.des env true w = .ok v ∧ v ≠ .none ∧ a = selectValue env v (depsOf dependencies k) := by
  unfold receive at h
  split at h
  · cases h
  · rename_i es he
    cases h
    have hm := Wire.object_entries hs he
    rw [List.mem_map]
    constructor
    · rintro ⟨⟨k', v⟩, h1, h2⟩
      simp only [Prod.mk.injEq] at h2
      obtain ⟨rfl, rfl⟩ := h2
      obtain ⟨h3, h4, w, h5, h6⟩ := (hm k' v).1 h1
      exact ⟨h3, w, v, h5, h6, h4, rfl⟩
    · rintro ⟨h3, w, v, h5, h6, h4, rfl⟩
      exact ⟨(k, v), (hm k v).2 ⟨h3, h4, w, h5, h6⟩, rfl⟩
  · cases h

/-! ## C53: the inputs of a component -/

/-- **C53** Every input arrives under its name, and nothing else does: for `Call` all of them, for `Construct` those that are
not internal; `None`s are dropped. -/
theorem inputs_arrive {env : Env} {ki : Bool} {fields : List (String × W)} {dependencies : List (String × List String)}
    {args : List (String × PV)} (hs : fields.lookup Wire.sigKey = none) (h : receive env ki fields dependencies = .ok args)
    (k : String) : (∃ a, (k, a) ∈ args) ↔ (ki = true ∨ Wire.Visible k) ∧ ∃ w v, (k, w) ∈ fields ∧ Wire.des env true w = .ok v ∧ v ≠ .none := by
  constructor
  · rintro ⟨a, ha⟩
    obtain ⟨h1, w, v, h2, h3, h4, _⟩ := (receive_mem hs h k a).1 ha
    exact ⟨h1, w, v, h2, h3, h4⟩
  · rintro ⟨h1, w, v, h2, h3, h4⟩
    exact ⟨_, (receive_mem hs h k _).2 ⟨h1, w, v, h2, h3, h4, rfl⟩⟩

/-- What one input becomes. -/
theorem selected {env : Env} {w : W} {v : PV} (hd : Wire.des env true w = .ok v) (deps : List String) :
    (Wire.HasSecret env w ∧ ∃ x, v = .dict [(Wire.sigKey, .str Wire.secretSig), ("value", x)] ∧
      selectValue env v deps = .output (deps.map ResId.dep) (!Wire.hasUnknown x) true x) ∨
    (¬ Wire.HasSecret env w ∧ (deps = [] ∨ HasOutput v ∨ SelfReference env v deps) ∧ selectValue env v deps = v) ∨
    (¬ Wire.HasSecret env w ∧ deps ≠ [] ∧ ¬ HasOutput v ∧ ¬ SelfReference env v deps ∧
      selectValue env v deps = .output (deps.map ResId.dep) (!Wire.hasUnknown v) false v) := by
  by_cases hsec : Wire.HasSecret env w
  · left
    obtain ⟨x, rfl, hx⟩ := (Wire.marked_iff hd).2 hsec
    refine ⟨hsec, x, rfl, ?_⟩
    have h1 : Wire.isRpcSecret (.dict [(Wire.sigKey, .str Wire.secretSig), ("value", x)]) = true := by
      simp [Wire.isRpcSecret]
    have h2 : Wire.unwrapSecret (.dict [(Wire.sigKey, .str Wire.secretSig), ("value", x)]) = x := by
      have hne : ("value" == Wire.sigKey) = false := by decide
      simp [Wire.unwrapSecret, h1, List.lookup, hne]
    simp [selectValue, h1, h2]
  · right
    have hm : Wire.isRpcSecret v = false := by
      cases hb : Wire.isRpcSecret v with
      | false => rfl
      | true =>
        exfalso
        apply hsec
        rw [← Wire.des_marked env w true v hd]
        exact hb
    have h2 : Wire.unwrapSecret v = v := by simp [Wire.unwrapSecret, hm]
    by_cases hc : deps = [] ∨ HasOutput v ∨ SelfReference env v deps
    · left
      refine ⟨hsec, hc, ?_⟩
      have : (decide (deps.length = 0) || containsOutputs v || isResourceReference env v deps) = true := by
        rcases hc with h | h | h
        · simp [h]
        · simp [(containsOutputs_iff v).2 h]
        · simp [isResourceReference_iff.2 h]
      unfold selectValue
      rw [if_pos (by rw [this, hm]; rfl)]
    · right
      have h3 : deps ≠ [] := fun h => hc (.inl h)
      have h4 : ¬ HasOutput v := fun h => hc (.inr (.inl h))
      have h5 : ¬ SelfReference env v deps := fun h => hc (.inr (.inr h))
      refine ⟨hsec, h3, h4, h5, ?_⟩
      have e1 : containsOutputs v = false := by
        cases hb : containsOutputs v with
        | false => rfl
        | true => exact absurd ((containsOutputs_iff v).1 hb) h4
      have e2 : isResourceReference env v deps = false := by
        cases hb : isResourceReference env v deps with
        | false => rfl
        | true => exact absurd (isResourceReference_iff.1 hb) h5
      simp [selectValue, hm, h2, e1, e2, h3]

/-- **C53** A secret in an input, at whatever depth, makes the input arrive as a secret Output, with no marker left in it and
with the dependencies that the request lists for it. -/
theorem secret_input {env : Env} {ki : Bool} {fields : List (String × W)} {dependencies : List (String × List String)}
    {args : List (String × PV)} (hs : fields.lookup Wire.sigKey = none) (hn : (fields.map (·.1)).Nodup)
    (h : receive env ki fields dependencies = .ok args) {k : String} {w : W} (hw : (k, w) ∈ fields)
    (hsec : Wire.HasSecret env w) {a : PV} (ha : (k, a) ∈ args) :
    ∃ rs known x, a = .output rs known true x ∧ Wire.NoMarker x ∧ (known = true ↔ ¬ Wire.ContainsUnknown x) ∧
      ∀ r, r ∈ rs ↔ ∃ u, r = .dep u ∧ Listed dependencies k u := by
  obtain ⟨_, w', v, h1, h2, _, rfl⟩ := (receive_mem hs h k a).1 ha
  obtain rfl : w' = w := nodup_keys_eq hn h1 hw
  rcases selected h2 (depsOf dependencies k) with ⟨_, x, rfl, h3⟩ | ⟨h3, _⟩ | ⟨h3, _⟩
  · obtain ⟨x', h4, h5⟩ := (Wire.marked_iff h2).2 hsec
    have : x' = x := by simpa using h4.symm
    subst this
    refine ⟨_, _, x', h3, h5, ?_, ?_⟩
    · rw [← Wire.hasUnknown_iff]; cases Wire.hasUnknown x' <;> simp
    · intro r
      rw [List.mem_map]
      constructor
      · rintro ⟨u, h6, rfl⟩; exact ⟨u, rfl, mem_depsOf.1 h6⟩
      · rintro ⟨u, rfl, h6⟩; exact ⟨u, mem_depsOf.2 h6, rfl⟩
  · exact absurd hsec h3
  · exact absurd hsec h3

/-- **C53** An input without secrets and dependencies arrives as the plain value that was sent. -/
theorem plain_input {env : Env} {ki : Bool} {fields : List (String × W)} {dependencies : List (String × List String)}
    {args : List (String × PV)} (hs : fields.lookup Wire.sigKey = none) (hn : (fields.map (·.1)).Nodup)
    (h : receive env ki fields dependencies = .ok args) {k : String} {w : W} (hw : (k, w) ∈ fields)
    (hsec : ¬ Wire.HasSecret env w) (hdep : ∀ u, ¬ Listed dependencies k u) {a : PV} (ha : (k, a) ∈ args) :
    Wire.des env true w = .ok a := by
  obtain ⟨_, w', v, h1, h2, _, rfl⟩ := (receive_mem hs h k a).1 ha
  obtain rfl : w' = w := nodup_keys_eq hn h1 hw
  have hnil : depsOf dependencies k = [] := by
    rw [List.eq_nil_iff_forall_not_mem]
    exact fun u hu => hdep u (mem_depsOf.1 hu)
  rcases selected h2 (depsOf dependencies k) with ⟨h3, _⟩ | ⟨_, _, h3⟩ | ⟨_, h3, _⟩
  · exact absurd h3 hsec
  · rw [h3]; exact h2
  · exact absurd hnil h3

/-- **C53** An input with dependencies that is plain data arrives as an Output with that value, which is not secret and has
exactly those dependencies. -/
theorem dependent_input {env : Env} {ki : Bool} {fields : List (String × W)} {dependencies : List (String × List String)}
    {args : List (String × PV)} (hs : fields.lookup Wire.sigKey = none) (hn : (fields.map (·.1)).Nodup)
    (h : receive env ki fields dependencies = .ok args) {k : String} {w : W} (hw : (k, w) ∈ fields)
    (hsec : ¬ Wire.HasSecret env w) {u : String} (hdep : Listed dependencies k u) {v : PV} (hv : Wire.des env true w = .ok v)
    (hout : ¬ HasOutput v) (hself : ∀ r, v = .resource r → (env.info r).urn.value ≠ some u) {a : PV} (ha : (k, a) ∈ args) :
    ∃ rs known, a = .output rs known false v ∧ (known = true ↔ ¬ Wire.ContainsUnknown v) ∧
      ∀ r, r ∈ rs ↔ ∃ u, r = .dep u ∧ Listed dependencies k u := by
  obtain ⟨_, w', v', h1, h2, _, rfl⟩ := (receive_mem hs h k a).1 ha
  obtain rfl : w' = w := nodup_keys_eq hn h1 hw
  obtain rfl : v' = v := by rw [h2] at hv; cases hv; rfl
  have hne : depsOf dependencies k ≠ [] := by
    intro hnil
    have := mem_depsOf.2 hdep
    rw [hnil] at this
    cases this
  have hself' : ¬ SelfReference env v' (depsOf dependencies k) := by
    rintro ⟨r, u', h3, h4, h5⟩
    have := mem_depsOf.2 hdep
    rw [h4, List.mem_singleton] at this
    exact hself r h3 (by rw [this]; exact h5)
  rcases selected h2 (depsOf dependencies k) with ⟨h3, _⟩ | ⟨_, h3, _⟩ | ⟨_, _, _, _, h3⟩
  · exact absurd h3 hsec
  · rcases h3 with h3 | h3 | h3
    · exact absurd h3 hne
    · exact absurd h3 hout
    · exact absurd h3 hself'
  · refine ⟨_, _, h3, ?_, ?_⟩
    · rw [← Wire.hasUnknown_iff]; cases Wire.hasUnknown v' <;> simp
    · intro r
      rw [List.mem_map]
      constructor
      · rintro ⟨u, h6, rfl⟩; exact ⟨u, rfl, mem_depsOf.1 h6⟩
      · rintro ⟨u, rfl, h6⟩; exact ⟨u, mem_depsOf.2 h6, rfl⟩

/-- **C53, in part** Every dependency that the request lists for an input is one of the value that arrives, unless the value
has Outputs in it or is a reference to the resource depended on. -/
theorem dependencies_kept_partial {env : Env} {ki : Bool} {fields : List (String × W)} {dependencies : List (String × List String)}
    {args : List (String × PV)} (hs : fields.lookup Wire.sigKey = none) (hn : (fields.map (·.1)).Nodup)
    (h : receive env ki fields dependencies = .ok args) {k : String} {w : W} (hw : (k, w) ∈ fields)
    {u : String} (hdep : Listed dependencies k u) {v : PV} (hv : Wire.des env true w = .ok v)
    (hout : ¬ HasOutput v) {a : PV} (ha : (k, a) ∈ args) :
    Wire.Mentions env a (.dep u) ∨ ∃ r, a = .resource r ∧ (env.info r).urn.value = some u := by
  by_cases hsec : Wire.HasSecret env w
  · obtain ⟨rs, known, x, rfl, _, _, h1⟩ := secret_input hs hn h hw hsec ha
    exact .inl (.own ((h1 _).2 ⟨u, rfl, hdep⟩))
  · by_cases hself : ∃ r, v = .resource r ∧ (env.info r).urn.value = some u
    · obtain ⟨_, w', v', h1, h2, _, rfl⟩ := (receive_mem hs h k a).1 ha
      obtain rfl : w' = w := nodup_keys_eq hn h1 hw
      obtain rfl : v' = v := by rw [h2] at hv; cases hv; rfl
      rcases selected h2 (depsOf dependencies k) with ⟨h3, _⟩ | ⟨_, _, h3⟩ | ⟨_, _, _, _, h3⟩
      · exact absurd h3 hsec
      · rw [h3]; exact .inr hself
      · rw [h3]; exact .inl (.own (List.mem_map.2 ⟨u, mem_depsOf.2 hdep, rfl⟩))
    · obtain ⟨rs, known, rfl, _, h1⟩ := dependent_input hs hn h hw hsec hdep hv hout
        (fun r h1 h2 => hself ⟨r, h1, h2⟩) ha
      exact .inl (.own ((h1 _).2 ⟨u, rfl, hdep⟩))

/-- A request with a secret deep in one input, a dependency of another and a plain third. -/
def sampleFields : List (String × W) :=
  [("a", .list [.num 1, .struct [(Wire.sigKey, .str Wire.secretSig), ("value", .str "x")]]), ("b", .str "y"), ("c", .bool true)]

/-- Non-trivial instance of the four theorems. -/
example : receive Wire.sampleEnv false sampleFields [("a", ["u", "v", "u"]), ("b", ["w"])] =
    .ok [("a", .output [.dep "u", .dep "v"] true true (.list [.num 1, .str "x"])),
         ("b", .output [.dep "w"] true false (.str "y")), ("c", .bool true)] := by
  simp [receive, sampleFields, Wire.deserializeProperties, Wire.desStruct, Wire.desKvs, Wire.des, Wire.desList, Wire.collect,
    Wire.isInternal, Wire.bubbleList, Wire.bubbleDict, Wire.sigKey, Wire.secretSig, Wire.assetSig, Wire.archiveSig,
    Wire.Decoded.get, List.lookup, Except.map, Wire.isNone, Wire.wrapSecret, Wire.unwrapSecret, Wire.isRpcSecret,
    Wire.secretDict, Wire.desStr, Wire.UNKNOWN, selectValue, depsOf, urnSet, Wire.hasUnknown, Wire.hasUnknownList,
    containsOutputs, isResourceReference, bind, Except.bind, pure, Except.pure]

/-- **Not so** for all inputs: next to an Output, a reference to a resource for which the provider has no class becomes its
id, and the dependency on it is lost although the request lists it. -/
theorem dependency_lost :
    let fields : List (String × W) := [("x", .list [.struct [(Wire.sigKey, .str Wire.outputSig), ("value", .num 1),
      ("dependencies", .list [.str "urn:a"])], .struct [(Wire.sigKey, .str Wire.resourceSig), ("urn", .str "urn:pulumi:s::p::t:m:T::b"),
        ("id", .str "idB")]])]
    let dependencies := [("x", ["urn:a", "urn:pulumi:s::p::t:m:T::b"])]
    ∃ a, receive Wire.sampleEnv false fields dependencies = .ok [("x", a)] ∧
      Listed dependencies "x" "urn:pulumi:s::p::t:m:T::b" ∧
      a = .list [.output [.dep "urn:a"] true false (.num 1), .str "idB"] ∧
      ∀ r, Wire.Mentions Wire.sampleEnv a r → r = .dep "urn:a" := by
  refine ⟨_, ?_, ⟨_, rfl, by simp⟩, rfl, ?_⟩
  · simp [receive, Wire.deserializeProperties, Wire.desStruct, Wire.desKvs, Wire.des, Wire.desList, Wire.collect,
      Wire.isInternal, Wire.bubbleList, Wire.bubbleDict, Wire.sigKey, Wire.secretSig, Wire.assetSig, Wire.archiveSig,
      Wire.outputSig, Wire.resourceSig, Wire.desOutputValue, Wire.outValue, Wire.outSecret, Wire.outUrns, Wire.depUrns,
      Wire.desResource, Wire.rebuild, Wire.sampleEnv, Urn.parseUrn, Urn.splitSep, Urn.consHead, Urn.getOr, Urn.splitChar, Wire.resAdd,
      Wire.Decoded.get, List.lookup, Except.map, Wire.isNone, Wire.unwrapSecret, Wire.isRpcSecret,
      Wire.desStr, Wire.UNKNOWN, selectValue, depsOf, urnSet,
      containsOutputs, containsOutputsList, isResourceReference, bind, Except.bind, pure, Except.pure]
  · intro r h
    cases h with
    | list h1 h2 =>
      rcases List.mem_cons.1 h1 with rfl | h1
      · cases h2 with
        | own h3 => simpa using h3
        | value _ h3 => cases h3
      · rcases List.mem_cons.1 h1 with rfl | h1
        · cases h2
        · cases h1

/-! ## C54: the response -/

theorem mentions_transform {env : Env} {t : Option (String → String)} {x : PV} {r : ResId} (h : Wire.Mentions env x r) :
    Wire.Mentions { env with transform := t } x r := by
  induction h with
  | list h1 _ ih => exact .list h1 ih
  | dict h1 _ ih => exact .dict h1 ih
  | assetArchive h1 _ ih => exact .assetArchive h1 ih
  | field h1 _ ih => exact .field h1 ih
  | awaitable _ ih => exact .awaitable ih
  | own h => exact .own h
  | value h1 _ ih => exact .value h1 ih
  | urn h1 h2 => exact .urn h1 h2
  | id h1 h2 => exact .id h1 h2

theorem mem_urnsOf {env : Env} {rs : List ResId} {us : List String} (h : urnsOf env rs = .ok us) (u : String) :
    u ∈ us ↔ ∃ r ∈ rs, (env.info r).urn.value = some u := by
  induction rs generalizing us with
  | nil => cases h; simp
  | cons r rs ih =>
    rw [urnsOf] at h
    split at h
    · cases h
    · rename_i u' hu
      cases hr : urnsOf env rs with
      | error e => rw [hr] at h; cases h
      | ok us' =>
        rw [hr] at h
        cases h
        rw [List.mem_cons, ih hr]
        constructor
        · rintro (rfl | ⟨r', h1, h2⟩)
          · exact ⟨r, by simp, hu⟩
          · exact ⟨r', by simp [h1], h2⟩
        · rintro ⟨r', h1, h2⟩
          rcases List.mem_cons.1 h1 with rfl | h1
          · rw [hu] at h2; cases h2; exact .inl rfl
          · exact .inr ⟨r', h1, h2⟩

theorem listDeps_lookup {env : Env} {ds : List (String × List ResId)} {es : List (String × List String)}
    (h : listDeps env ds = .ok es) (k : String) {rs : List ResId} (hk : ds.lookup k = some rs) :
    ∃ us, es.lookup k = some us ∧ urnsOf env rs = .ok us := by
  induction ds generalizing es with
  | nil => cases hk
  | cons d ds ih =>
    obtain ⟨k', rs'⟩ := d
    rw [listDeps] at h
    split at h
    · cases h
    · rename_i us hu
      cases hr : listDeps env ds with
      | error e => rw [hr] at h; cases h
      | ok es' =>
        rw [hr] at h
        cases h
        rw [List.lookup_cons] at hk
        simp only [List.lookup_cons]
        cases hb : k == k' with
        | true => rw [hb] at hk; cases hk; exact ⟨us, rfl, hu⟩
        | false => rw [hb] at hk; exact ih hr hk

/-- **C54** What a provider answers: every value, under its name, as it is serialised, unless that is `None`; nothing else;
and for each the URNs of exactly the resources it mentions. -/
theorem response_spec {env : Env} {values : List (String × PV)} {R : Response} (h : respond env values = .ok R)
    (hn : (values.map (·.1)).Nodup) :
    (∀ k x, (k, x) ∈ values → ∃ v d, Wire.ser { env with transform := none } false .any x = .ok (v, d) ∧
      (v ≠ .none → ∃ w, Wire.toWire v = some w ∧ R.fields.lookup k = some w ∧
        ∃ us, R.dependencies.lookup k = some us ∧ ∀ u, u ∈ us ↔ ∃ r, Wire.Mentions env x r ∧ (env.info r).urn.value = some u)) ∧
    (∀ k, (∀ x, (k, x) ∉ values) → R.fields.lookup k = none) := by
  unfold respond at h
  split at h
  · cases h
  · rename_i P hP
    split at h
    · cases h
    · rename_i d hd
      cases h
      have hkey : ∀ k, Env.topKey { env with transform := none } none k = k := fun k => rfl
      constructor
      · intro k x hx
        obtain ⟨v, ds, h1, h2⟩ := Wire.serProps_entry hP (by simpa [hkey] using hn) hx
        refine ⟨v, ds, h1, fun hv => ?_⟩
        obtain ⟨h3, w, h4, h5⟩ := h2 hv
        obtain ⟨us, h6, h7⟩ := listDeps_lookup hd k h3
        refine ⟨w, h4, h5, us, h6, fun u => ?_⟩
        rw [mem_urnsOf h7]
        constructor
        · rintro ⟨r, h8, h9⟩
          exact ⟨r, mentions_transform (env := { env with transform := none }) (t := env.transform) ((Wire.dependencies_exact h1 r).1 h8), h9⟩
        · rintro ⟨r, h8, h9⟩
          exact ⟨r, (Wire.dependencies_exact h1 r).2 (mentions_transform h8), h9⟩
      · intro k hk
        obtain ⟨_, h2⟩ := Wire.serProps_untouched hP (k := k) (by
          intro kv hkv he
          rw [hkey] at he
          subst he
          exact hk kv.2 hkv)
        exact h2

theorem urnsOf_none {env : Env} {rs : List ResId} {r : ResId} (hr : r ∈ rs) (hu : (env.info r).urn.value = none) (us : List String) :
    urnsOf env rs ≠ .ok us := by
  induction rs generalizing us with
  | nil => cases hr
  | cons r' rs ih =>
    rw [urnsOf]
    rcases List.mem_cons.1 hr with rfl | hr
    · rw [hu]; simp
    · split
      · simp
      · cases h : urnsOf env rs with
        | error e => simp [Except.map]
        | ok us' => exact absurd h (ih hr us')

/-- **C54** No dependency is left out silently: if a value that is sent mentions a resource whose URN is not known, the
request fails. -/
theorem unknown_urn_fails {env : Env} {values : List (String × PV)} (hn : (values.map (·.1)).Nodup) {k : String} {x v : PV}
    {d : List ResId} (hx : (k, x) ∈ values) (hs : Wire.ser { env with transform := none } false .any x = .ok (v, d)) (hv : v ≠ .none)
    {r : ResId} (hm : Wire.Mentions env x r) (hu : (env.info r).urn.value = none) (R : Response) : respond env values ≠ .ok R := by
  intro h
  unfold respond at h
  split at h
  · cases h
  · rename_i P hP
    split at h
    · cases h
    · rename_i d' hd
      obtain ⟨v', ds, h1, h2⟩ := Wire.serProps_entry hP (by simpa [Env.topKey, Env.translate] using hn) hx
      have h1' : Wire.ser { env with transform := none } false .any x = .ok (v', ds) := h1
      rw [hs] at h1'
      cases h1'
      obtain ⟨h3, _⟩ := h2 hv
      obtain ⟨us, _, h7⟩ := listDeps_lookup hd k h3
      exact urnsOf_none ((Wire.dependencies_exact h1 r).2 (mentions_transform hm)) hu us h7

/-- **C54** For `Construct` the component's own `id` and `urn` are not part of the state, and everything else is. -/
theorem construct_response_spec {env : Env} {state : List (String × PV)} {R : Response}
    (h : constructResponse env state = .ok R) (hn : (state.map (·.1)).Nodup) :
    (∀ k x, (k, x) ∈ state → k ≠ "id" → k ≠ "urn" → ∃ v d, Wire.ser { env with transform := none } false .any x = .ok (v, d) ∧
      (v ≠ .none → ∃ w, Wire.toWire v = some w ∧ R.fields.lookup k = some w ∧
        ∃ us, R.dependencies.lookup k = some us ∧ ∀ u, u ∈ us ↔ ∃ r, Wire.Mentions env x r ∧ (env.info r).urn.value = some u)) ∧
    R.fields.lookup "id" = none ∧ R.fields.lookup "urn" = none := by
  obtain ⟨h1, h2⟩ := response_spec h (List.Nodup.sublist (List.Sublist.map _ List.filter_sublist) hn)
  refine ⟨fun k x hx hi hu => h1 k x ?_, h2 "id" ?_, h2 "urn" ?_⟩
  · rw [List.mem_filter]; exact ⟨hx, by simp [hi, hu]⟩
  · intro x hx; rw [List.mem_filter] at hx; simp at hx
  · intro x hx; rw [List.mem_filter] at hx; simp at hx

/-- Non-trivial instance: two dependencies of a list, one of them through an Output, and the URN left out. -/
example : ∃ R, constructResponse Wire.sampleEnv [("urn", .str "u"), ("a", .list [.resource (.decl 1), .output [.dep "z"] true false (.num 2)]),
    ("b", .num 3)] = .ok R ∧ R.dependencies = [("a", ["urn:pulumi:s::p::t:m:C::b", "z"]), ("b", [])] := ⟨_, rfl, rfl⟩

/-! ## C55: the options -/

/-- A provider stands for the reference: if the package is registered it is what the package makes of the URN, otherwise it
has the reference's package, URN and id. -/
def StandsFor (env : Env) (p : Provider) (urn id : Urn.Text) (parts : Urn.Parts) : Prop :=
  (∃ c, env.providerPackage (String.ofList parts.typName) "" = some c ∧ p = .registered (c parts (String.ofList urn))) ∨
  (env.providerPackage (String.ofList parts.typName) "" = none ∧ p = .dependency parts.typName urn id)

theorem createProviders_spec {env : Env} {rs : List (String × String)} {ps : List (String × Provider)}
    (h : createProviders env rs = .ok ps) :
    ps.map (·.1) = rs.map (·.1) ∧
    ∀ (i : Nat) (pkg ref : String), rs[i]? = some (pkg, ref) → ∃ p urn id parts, ps[i]? = some (pkg, p) ∧ Urn.parseRef ref.toList = .ok (urn, id) ∧
      Urn.parseUrn urn = .ok parts ∧ StandsFor env p urn id parts := by
  induction rs generalizing ps with
  | nil => cases h; simp
  | cons r rs ih =>
    obtain ⟨pkg, ref⟩ := r
    rw [createProviders] at h
    split at h
    · cases h
    · rename_i p hp
      cases hr : createProviders env rs with
      | error e => rw [hr] at h; cases h
      | ok ps' =>
        rw [hr] at h
        cases h
        obtain ⟨h1, h2⟩ := ih hr
        refine ⟨by simp [h1], fun i pkg' ref' hi => ?_⟩
        cases i with
        | succ i => exact h2 i pkg' ref' hi
        | zero =>
          simp only [List.getElem?_cons_zero, Option.some.injEq, Prod.mk.injEq] at hi
          obtain ⟨rfl, rfl⟩ := hi
          unfold createProvider at hp
          split at hp
          · cases hp
          · rename_i urn id h3
            split at hp
            · cases hp
            · rename_i parts h4
              split at hp
              · rename_i c h5
                cases hp
                exact ⟨_, urn, id, parts, rfl, h3, h4, .inl ⟨c, h5, rfl⟩⟩
              · rename_i h5
                cases hp
                exact ⟨_, urn, id, parts, rfl, h3, h4, .inr ⟨h5, rfl⟩⟩

/-- **C55, in part** Aliases, dependencies, protection and providers are those of the request, in order. -/
theorem options_partial {env : Env} {r : OptionsRequest} {o : Options} (h : constructOptions env r = .ok o) :
    o.aliases = r.aliases ∧ o.dependsOn = r.dependencies.map ResId.dep ∧ o.protect = r.protect ∧
    o.providers.map (·.1) = r.providers.map (·.1) ∧
    ∀ (i : Nat) (pkg ref : String), r.providers[i]? = some (pkg, ref) → ∃ p urn id parts, o.providers[i]? = some (pkg, p) ∧
      Urn.parseRef ref.toList = .ok (urn, id) ∧ Urn.parseUrn urn = .ok parts ∧ StandsFor env p urn id parts := by
  unfold constructOptions at h
  split at h
  · cases h
  · rename_i ps hp
    cases h
    obtain ⟨h1, h2⟩ := createProviders_spec hp
    exact ⟨rfl, rfl, rfl, h1, h2⟩

/-- **C55** A reference that the engine made from a URN and an id (one that does not start with a colon) comes back as these,
unless the provider's package is registered. -/
theorem provider_reference {env : Env} {urn id : Urn.Text} {parts : Urn.Parts} (hid : Urn.CleanName id)
    (hu : Urn.parseUrn urn = .ok parts) (hr : env.providerPackage (String.ofList parts.typName) "" = none) :
    createProvider env (Urn.makeRef urn id) = .ok (.dependency parts.typName urn id) := by
  simp [createProvider, (Urn.parse_ref_iff urn id).2 hid, hu, hr]

/-- **C55, not so** for the parent: it is dropped whenever the request names one, and a component without parent is given a
resource with an empty URN. -/
theorem parent_dropped {env : Env} {r : OptionsRequest} {o : Options} (h : constructOptions env r = .ok o) :
    (r.parent ≠ "" → o.parent = none) ∧ (r.parent = "" → o.parent = some (.dep "")) := by
  unfold constructOptions at h
  split at h
  · cases h
  · cases h
    constructor
    · intro hne; simp [parentOf, emptyAsNone, hne]
    · intro he; simp [parentOf, emptyAsNone, he]

/-- Non-trivial instance: a parent, two dependencies and a provider. -/
example : ∃ o, constructOptions Wire.sampleEnv { parent := "urn:p", aliases := ["x"], dependencies := ["u", "v"], protect := true
                                                 providers := [("aws", "urn:pulumi:s::p::pulumi:providers:aws::main::id7")] } = .ok o ∧
    o.parent = none ∧ o.dependsOn = [.dep "u", .dep "v"] ∧
    o.providers = [("aws", .dependency "aws".toList "urn:pulumi:s::p::pulumi:providers:aws::main".toList "id7".toList)] := by
  refine ⟨_, rfl, ?_, rfl, rfl⟩
  simp [parentOf, emptyAsNone]

/-! ## C40: the settings of a request -/

/-- **C40** The settings that a request installs are its own, where an empty string and a zero mean nothing. -/
theorem settings_spec (engine : String) (c : Context) :
    (settingsOf engine c).engine = engine ∧ (settingsOf engine c).dryRun = c.dryRun ∧
    (∀ p, (settingsOf engine c).project = some p ↔ p = c.project ∧ p ≠ "") ∧
    (∀ p, (settingsOf engine c).stack = some p ↔ p = c.stack ∧ p ≠ "") ∧
    (∀ p, (settingsOf engine c).monitor = some p ↔ p = c.monitorEndpoint ∧ p ≠ "") ∧
    (∀ n, (settingsOf engine c).parallel = some n ↔ n = c.parallel ∧ n ≠ 0) := by
  have he : ∀ s p, emptyAsNone s = some p ↔ p = s ∧ p ≠ "" := by
    intro s p
    unfold emptyAsNone
    split
    · rename_i h
      subst h
      constructor
      · intro h; cases h
      · rintro ⟨h1, h2⟩; exact absurd h1 h2
    · rename_i h
      constructor
      · intro h1; cases h1; exact ⟨rfl, h⟩
      · rintro ⟨rfl, _⟩; rfl
  refine ⟨rfl, rfl, he _, he _, he _, fun n => ?_⟩
  simp only [settingsOf, zeroAsNone]
  split
  · rename_i h
    constructor
    · intro h; cases h
    · rintro ⟨h1, h2⟩; exact absurd (h1.trans h) h2
  · rename_i h
    constructor
    · intro h1; cases h1; exact ⟨rfl, h⟩
    · rintro ⟨rfl, _⟩; rfl

end Pulumi.Server
