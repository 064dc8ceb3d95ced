/-
How the configuration of a policy pack is read and put together.

Code: pkg/resource/analyzer/config.go:40-336, sdk/go/common/apitype/policy.go:119-140.

A Go map is the list of its entries in the order in which a `range` visits them; its keys are different from each other, and
the theorems that need it say so (`Distinct`).  A nil map and an empty map are the same here: the code makes an empty one of
a nil one wherever it would matter.  The JSON decoder and the validation against a JSON schema are libraries: values are
given decoded, and the validator is a parameter.
-/
namespace Pulumi.Policy

abbrev Map (α : Type) := List (String × α)

/-- `m[k]` -/
def get {α : Type} (m : Map α) (k : String) : Option α := (m.find? (fun e => e.1 == k)).map (·.2)

/-- `m[k] = v` -/
def put {α : Type} : Map α → String → α → Map α
  | [], k, v => [(k, v)]
  | (k', v') :: m, k, v => if k' = k then (k, v) :: m else (k', v') :: put m k v

/-- `delete(m, k)` -/
def del {α : Type} (m : Map α) (k : String) : Map α := m.filter (fun e => e.1 != k)

/-- the keys of a map are different from each other -/
def Distinct {α : Type} (m : Map α) : Prop := (m.map (·.1)).Nodup

/-- A decoded JSON value: a text, an object, `null`, or something else. -/
inductive Val where
  | str (s : String)
  | obj (fields : List (String × Val))
  | null
  | other (n : Int)

/-- `EnforcementLevel.IsValid` (policy.go:134-140) -/
def valid (level : String) : Bool := level == "advisory" || level == "mandatory" || level == "disabled"

/-- `plugin.AnalyzerPolicyConfig` -/
structure Conf where
  level : String
  props : Map Val

inductive Err where
  /-- the text is no object where one is needed (`json.Unmarshal` fails) -/
  | json
  /-- "parsing enforcement level for …" -/
  | level (key : String)
  /-- "… is not a valid value; must be a string or object" -/
  | value (key : String)
  /-- the assertion that ends the program -/
  | assert
  /-- an error of the schema library -/
  | schema (e : String)
  deriving DecidableEq

/-- `extractEnforcementLevel` (125-143): the level, and what is left of the object; `none` where there is an error -/
def extract (props : Map Val) : Option (String × Map Val) :=
  match get props "enforcementLevel" with
  | none => some ("", props)
  | some (.str s) => if valid s then some (s, del props "enforcementLevel") else none
  | some _ => none

/-- What an entry adds to the result (65-74, 106-114): nothing where it is empty -/
def addEntry (acc : Map Conf) (k : String) (level : String) (props : Map Val) : Map Conf :=
  if level == "" && props.isEmpty then acc else put acc k { level, props }

/-- One round of the loop of `parsePolicyPackConfig` (86-114) -/
def fileEntry (acc : Map Conf) (k : String) : Val → Except Err (Map Conf)
  | .str s => if valid s then .ok (addEntry acc k s []) else .error (.level k)
  | .obj fs => match extract fs with
    | none => .error (.level k)
    | some (l, ps) => .ok (addEntry acc k l ps)
  | _ => .error (.value k)

/-- The loop of `parsePolicyPackConfig` (86-115) -/
def fileLoop : Map Val → Map Conf → Except Err (Map Conf)
  | [], acc => .ok acc
  | (k, v) :: m, acc => match fileEntry acc k v with
    | .error e => .error e
    | .ok acc' => fileLoop m acc'

/-- `parsePolicyPackConfig` (73-117), of a file that is blank (`none`) or holds a JSON value -/
def parseFile : Option Val → Except Err (Map Conf)
  | none => .ok []
  | some (.obj m) => fileLoop m []
  | some .null => .ok []
  | some _ => .error .json

/-- One round of the loop of `ParsePolicyPackConfigFromAPI` (42-69); `none` is a nil pointer.  `json.Unmarshal` of `null`
makes the map nil, which `extractEnforcementLevel` asserts it is not (126). -/
def apiEntry (acc : Map Conf) (k : String) : Option Val → Except Err (Map Conf)
  | none => .ok acc
  | some (.obj fs) => match extract fs with
    | none => .error (.level k)
    | some (l, ps) => .ok (addEntry acc k l ps)
  | some .null => .error .assert
  | some _ => .error .json

/-- `ParsePolicyPackConfigFromAPI` (40-71) -/
def apiLoop : Map (Option Val) → Map Conf → Except Err (Map Conf)
  | [], acc => .ok acc
  | (k, v) :: m, acc => match apiEntry acc k v with
    | .error e => .error e
    | .ok acc' => apiLoop m acc'

def parseApi (m : Map (Option Val)) : Except Err (Map Conf) := apiLoop m []

/-- `plugin.AnalyzerPolicyConfigSchema` -/
structure Schema where
  properties : Map (Map Val)
  required : List String

/-- `plugin.AnalyzerPolicyInfo`, the parts used here -/
structure Info where
  name : String
  level : String
  schema : Option Schema

/-- The loop over the properties of a schema in `createConfigWithDefaults` (248-255) -/
def defaultProps : Map (Map Val) → Map Val → Map Val
  | [], acc => acc
  | (k, v) :: m, acc => match get v "default" with
    | some d => defaultProps m (put acc k d)
    | none => defaultProps m acc

/-- the properties of a policy before any configuration (244-256) -/
def propsOf (p : Info) : Map Val :=
  match p.schema with
  | none => []
  | some s => defaultProps s.properties []

/-- The loop of `createConfigWithDefaults` (242-262) -/
def defaultsLoop : List Info → Map Conf → Map Conf
  | [], acc => acc
  | p :: ps, acc => defaultsLoop ps (put acc p.name { level := p.level, props := propsOf p })

/-- `createConfigWithDefaults` (238-265) -/
def defaults (ps : List Info) : Map Conf := defaultsLoop ps []

/-- `for k, v := range givenConfig.Properties { properties[k] = v }` (324-329) -/
def setAll : Map Val → Map Val → Map Val
  | [], acc => acc
  | (k, v) :: m, acc => setAll m (put acc k v)

/-- The first part of `applyConfig` (303-310): the level of "all" -/
def applyAll (result given : Map Conf) : Map Conf :=
  match get given "all" with
  | some a => if valid a.level then result.map (fun e => (e.1, { level := a.level, props := e.2.props })) else result
  | none => result

/-- One round of the loop of `applyConfig` (312-334) -/
def applyOne (result : Map Conf) (policy : String) (given : Conf) : Map Conf :=
  let old : Conf := (get result policy).getD { level := "", props := [] }
  put result policy
    { level := if valid given.level then given.level else old.level, props := setAll given.props old.props }

/-- The loop of `applyConfig` (312-334) -/
def applyLoop : Map Conf → Map Conf → Map Conf
  | [], result => result
  | (k, c) :: m, result => applyLoop m (applyOne result k c)

/-- `applyConfig` (300-336) -/
def applyConfig (result given : Map Conf) : Map Conf := applyLoop given (applyAll result given)

/-- The validator: `gojsonschema.Validate` with the schema of a policy (164-182) -/
abbrev Check := Schema → Map Val → Except String (List String)

/-- `validatePolicyPackConfig` (146-170): the complaints of all policies, each with the name of its policy -/
def validate (check : Check) (result : Map Conf) : List Info → Except Err (List (String × String))
  | [] => .ok []
  | p :: ps => match p.schema with
    | none => validate check result ps
    | some s => match check s (((get result p.name).map (·.props)).getD []) with
      | .error e => .error (.schema e)
      | .ok complaints => match validate check result ps with
        | .error e => .error e
        | .ok more => .ok (complaints.map (fun c => (p.name, c)) ++ more)

/-- How `ReconcilePolicyPackConfig` ends: an error, complaints and no configuration, or a configuration -/
inductive Outcome where
  | failed (e : Err)
  | invalid (complaints : List (String × String))
  | ok (config : Map Conf)

/-- `ReconcilePolicyPackConfig` (270-298); a nil configuration does what an empty one does -/
def reconcile (check : Check) (ps : List Info) (initial config : Map Conf) : Outcome :=
  let result := applyConfig (applyConfig (defaults ps) initial) config
  match validate check result ps with
  | .error e => .failed e
  | .ok [] => .ok result
  | .ok complaints => .invalid complaints

/-! ## Maps -/

theorem get_nil {α : Type} (k : String) : get ([] : Map α) k = none := rfl

theorem get_cons {α : Type} (k' : String) (v : α) (m : Map α) (k : String) :
    get ((k', v) :: m) k = if k' = k then some v else get m k := by
  unfold get
  rw [List.find?_cons]
  by_cases h : k' = k
  · have : (k' == k) = true := by simp [h]
    simp [h]
  · have : (k' == k) = false := by simp [h]
    simp only [this, h, if_false]

theorem get_put {α : Type} (m : Map α) (k : String) (v : α) (k' : String) :
    get (put m k v) k' = if k = k' then some v else get m k' := by
  induction m with
  | nil => simp [put, get_cons, get_nil]
  | cons e m ih =>
    obtain ⟨a, b⟩ := e
    unfold put
    by_cases h : a = k
    · subst h
      simp only [if_true, get_cons]
      by_cases h' : a = k' <;> simp [h']
    · simp only [h, if_false, get_cons, ih]
      by_cases h' : a = k'
      · have : ¬ k = k' := fun hh => h (h'.trans hh.symm)
        simp [h', this]
      · simp [h']

theorem get_none_of_notMem {α : Type} (m : Map α) (k : String) (h : k ∉ m.map (·.1)) : get m k = none := by
  induction m with
  | nil => rfl
  | cons e m ih =>
    obtain ⟨a, b⟩ := e
    simp only [List.map_cons, List.mem_cons, not_or] at h
    rw [get_cons, if_neg (fun hh => h.1 hh.symm)]
    exact ih h.2

theorem get_del {α : Type} (m : Map α) (k k' : String) :
    get (del m k) k' = if k = k' then none else get m k' := by
  induction m with
  | nil => simp [del, get_nil]
  | cons e m ih =>
    obtain ⟨a, b⟩ := e
    unfold del at ih ⊢
    rw [List.filter_cons]
    by_cases h : a = k
    · subst h
      simp only [bne_self_eq_false, Bool.false_eq_true, if_false, ih, get_cons]
      by_cases h' : a = k' <;> simp [h']
    · have : (a != k) = true := by simp [h]
      simp only [this, if_true, get_cons, ih]
      by_cases h' : a = k'
      · have : ¬ k = k' := fun hh => h (h'.trans hh.symm)
        simp [h', this]
      · simp [h']

theorem get_map_val {α β : Type} (m : Map α) (f : α → β) (k : String) :
    get (m.map (fun e => (e.1, f e.2))) k = (get m k).map f := by
  induction m with
  | nil => rfl
  | cons e m ih =>
    obtain ⟨a, b⟩ := e
    rw [List.map_cons, get_cons, get_cons, ih]
    by_cases h : a = k <;> simp [h]

/-! ## What applying a configuration does -/

theorem get_setAll (m acc : Map Val) (hd : Distinct m) (k : String) :
    get (setAll m acc) k = (get m k).or (get acc k) := by
  induction m generalizing acc with
  | nil => simp [setAll, get_nil]
  | cons e m ih =>
    obtain ⟨a, b⟩ := e
    unfold Distinct at hd
    simp only [List.map_cons, List.nodup_cons] at hd
    unfold setAll
    rw [ih _ hd.2, get_put, get_cons]
    by_cases h : a = k
    · subst h
      rw [get_none_of_notMem m a hd.1]
      simp
    · simp [h]

theorem get_applyOne (r : Map Conf) (p : String) (c : Conf) (k : String) :
    get (applyOne r p c) k =
      if p = k then some { level := if valid c.level then c.level else ((get r p).getD ⟨"", []⟩).level,
                           props := setAll c.props ((get r p).getD ⟨"", []⟩).props }
      else get r k := by
  unfold applyOne
  simp only [get_put]

theorem get_applyLoop (m r : Map Conf) (hd : Distinct m) (k : String) :
    get (applyLoop m r) k = match get m k with
      | none => get r k
      | some c => some { level := if valid c.level then c.level else ((get r k).getD ⟨"", []⟩).level,
                         props := setAll c.props ((get r k).getD ⟨"", []⟩).props } := by
  induction m generalizing r with
  | nil => simp [applyLoop, get_nil]
  | cons e m ih =>
    obtain ⟨a, b⟩ := e
    unfold Distinct at hd
    simp only [List.map_cons, List.nodup_cons] at hd
    unfold applyLoop
    rw [ih _ hd.2, get_applyOne, get_cons]
    by_cases h : a = k
    · subst h
      rw [get_none_of_notMem m a hd.1]
      simp
    · simp [h]

theorem get_applyAll (r given : Map Conf) (k : String) :
    get (applyAll r given) k = (get r k).map (fun c =>
      { level := match get given "all" with
          | some a => if valid a.level then a.level else c.level
          | none => c.level,
        props := c.props }) := by
  unfold applyAll
  cases hg : get given "all" with
  | none =>
    cases get r k <;> rfl
  | some a =>
    simp only
    by_cases hv : valid a.level
    · simp only [hv, if_true]
      rw [get_map_val r (fun c => ({ level := a.level, props := c.props } : Conf)) k]
    · simp only [if_neg hv]
      cases get r k <;> rfl

/-! ## Defaults -/

theorem get_defaultProps (m : Map (Map Val)) (acc : Map Val) (hd : Distinct m) (k : String) :
    get (defaultProps m acc) k = ((get m k).bind (fun v => get v "default")).or (get acc k) := by
  induction m generalizing acc with
  | nil => simp [defaultProps, get_nil]
  | cons e m ih =>
    obtain ⟨a, b⟩ := e
    unfold Distinct at hd
    simp only [List.map_cons, List.nodup_cons] at hd
    unfold defaultProps
    cases hb : get b "default" with
    | none =>
      simp only
      rw [ih _ hd.2, get_cons]
      by_cases h : a = k
      · subst h
        rw [get_none_of_notMem m a hd.1]
        simp [hb]
      · simp [h]
    | some d =>
      simp only
      rw [ih _ hd.2, get_cons, get_put]
      by_cases h : a = k
      · subst h
        rw [get_none_of_notMem m a hd.1]
        simp [hb]
      · simp [h]

theorem get_defaultsLoop_other (ps : List Info) (acc : Map Conf) (k : String) (h : ∀ q ∈ ps, q.name ≠ k) :
    get (defaultsLoop ps acc) k = get acc k := by
  induction ps generalizing acc with
  | nil => rfl
  | cons p ps ih =>
    unfold defaultsLoop
    rw [ih _ (fun q hq => h q (List.mem_cons_of_mem _ hq)), get_put, if_neg (h p List.mem_cons_self)]

theorem get_defaultsLoop (ps : List Info) (acc : Map Conf) (p : Info) (hp : p ∈ ps)
    (hu : ∀ q ∈ ps, q.name = p.name → q = p) :
    get (defaultsLoop ps acc) p.name = some { level := p.level, props := propsOf p } := by
  induction ps generalizing acc with
  | nil => cases hp
  | cons q ps ih =>
    unfold defaultsLoop
    by_cases hm : p ∈ ps
    · exact ih _ hm (fun r hr => hu r (List.mem_cons_of_mem _ hr))
    · have hq : q = p := by
        rcases List.mem_cons.mp hp with h | h
        · exact h.symm
        · exact absurd h hm
      subst hq
      rw [get_defaultsLoop_other, get_put, if_pos rfl]
      intro r hr hn
      exact hm (hu r (List.mem_cons_of_mem _ hr) hn ▸ hr)

/-! ## What a user relies on -/

/-- The first of the given levels that is one of the three; otherwise the default. -/
def firstLevel : List (Option Conf) → String → String
  | [], d => d
  | some c :: cs, d => if c.level = "advisory" ∨ c.level = "mandatory" ∨ c.level = "disabled" then c.level else firstLevel cs d
  | none :: cs, d => firstLevel cs d

/-- The value a configuration gives to a property of a policy -/
def given (m : Map Conf) (policy key : String) : Option Val := (get m policy).bind (fun c => get c.props key)

/-- The default of a property in the schema of a policy -/
def schemaDefault (p : Info) (key : String) : Option Val :=
  p.schema.bind (fun s => (get s.properties key).bind (fun v => get v "default"))

/-- a configuration whose keys, and the keys of whose properties, are different from each other: any Go map is -/
def WellKeyed (m : Map Conf) : Prop := Distinct m ∧ ∀ k c, get m k = some c → Distinct c.props

theorem valid_iff (s : String) : valid s = true ↔ s = "advisory" ∨ s = "mandatory" ∨ s = "disabled" := by
  unfold valid
  simp [or_assoc]

theorem applied_level (r m : Map Conf) (hd : Distinct m) (k : String) (c : Conf) (hr : get r k = some c) :
    ∃ c', get (applyConfig r m) k = some c' ∧ c'.level = firstLevel [get m k, get m "all"] c.level ∧
      c'.props = match get m k with | some g => setAll g.props c.props | none => c.props := by
  unfold applyConfig
  rw [get_applyLoop _ _ hd, get_applyAll, hr]
  cases hk : get m k with
  | none =>
    refine ⟨_, rfl, ?_, rfl⟩
    cases ha : get m "all" with
    | none => simp [firstLevel]
    | some a => simp only [firstLevel, valid_iff]
  | some g =>
    refine ⟨_, rfl, ?_, rfl⟩
    cases ha : get m "all" with
    | none => simp [firstLevel, valid_iff]
    | some a => simp only [firstLevel, valid_iff, Option.map_some, Option.getD_some]

theorem reconcile_ok {check : Check} {ps : List Info} {initial config r : Map Conf}
    (h : reconcile check ps initial config = .ok r) : r = applyConfig (applyConfig (defaults ps) initial) config := by
  unfold reconcile at h
  simp only at h
  split at h
  · cases h
  · cases h; rfl
  · cases h

/-- The level a policy is run at is the first valid one of: what the configuration says of the policy, what the
configuration says of all policies, what the pack's own configuration says of the policy, what the pack's own configuration
says of all policies, and the policy's default. -/
theorem level_of_policy (check : Check) (ps : List Info) (initial config r : Map Conf)
    (hi : Distinct initial) (hc : Distinct config)
    (p : Info) (hp : p ∈ ps) (hu : ∀ q ∈ ps, q.name = p.name → q = p)
    (h : reconcile check ps initial config = .ok r) :
    ∃ c, get r p.name = some c ∧
      c.level = firstLevel [get config p.name, get config "all", get initial p.name, get initial "all"] p.level := by
  rw [reconcile_ok h]
  obtain ⟨c₁, h₁, l₁, _⟩ := applied_level (defaults ps) initial hi p.name _ (get_defaultsLoop ps [] p hp hu)
  obtain ⟨c₂, h₂, l₂, _⟩ := applied_level _ config hc p.name _ h₁
  refine ⟨c₂, h₂, ?_⟩
  rw [l₂, l₁]
  cases hk : get config p.name <;> cases hal : get config "all" <;> simp [firstLevel]

/-- The value of a property of a policy is what the configuration gives it, or else what the pack's own configuration
gives it, or else its default in the schema; it has none otherwise. -/
theorem property_of_policy (check : Check) (ps : List Info) (initial config r : Map Conf)
    (hi : WellKeyed initial) (hc : WellKeyed config)
    (p : Info) (hp : p ∈ ps) (hu : ∀ q ∈ ps, q.name = p.name → q = p)
    (hs : ∀ s, p.schema = some s → Distinct s.properties)
    (h : reconcile check ps initial config = .ok r) (key : String) :
    given r p.name key = ((given config p.name key).or (given initial p.name key)).or (schemaDefault p key) := by
  rw [reconcile_ok h]
  obtain ⟨c₁, h₁, _, p₁⟩ := applied_level (defaults ps) initial hi.1 p.name _ (get_defaultsLoop ps [] p hp hu)
  obtain ⟨c₂, h₂, _, p₂⟩ := applied_level _ config hc.1 p.name _ h₁
  have hdef : get (propsOf p) key = schemaDefault p key := by
    unfold propsOf schemaDefault
    cases hsc : p.schema with
    | none => rfl
    | some s => simp [get_defaultProps _ _ (hs s hsc), get_nil]
  have e₁ : get c₁.props key = (given initial p.name key).or (schemaDefault p key) := by
    rw [p₁]
    unfold given
    cases hk : get initial p.name with
    | none => simpa using hdef
    | some g => simp only [get_setAll _ _ (hi.2 _ _ hk), Option.bind_some, hdef]
  have e₂ : get c₂.props key = (given config p.name key).or (get c₁.props key) := by
    rw [p₂]
    unfold given
    cases hk : get config p.name with
    | none => rfl
    | some g => simp only [get_setAll _ _ (hc.2 _ _ hk), Option.bind_some]
  have : given (applyConfig (applyConfig (defaults ps) initial) config) p.name key = get c₂.props key := by
    unfold given
    rw [h₂]
    rfl
  rw [this, e₂, e₁, Option.or_assoc]

/-! ### A case -/

/-- A pack with two policies, one of which has a property with a default. -/
def pack : List Info :=
  [{ name := "no-public", level := "advisory",
     schema := some { properties := [("allow", [("type", .str "number"), ("default", .other 0)])], required := [] } },
   { name := "tags", level := "mandatory", schema := none }]

def noComplaints : Check := fun _ _ => .ok []

/-- All policies are made mandatory, one of them is disabled and its property set. -/
def userConfig : Map Conf := [("all", ⟨"mandatory", []⟩), ("tags", ⟨"disabled", [("x", .other 1)]⟩)]

example : ∃ r, reconcile noComplaints pack [] userConfig = .ok r ∧ Distinct userConfig ∧ WellKeyed userConfig ∧
    (get r "no-public").map (·.level) = some "mandatory" ∧ (get r "tags").map (·.level) = some "disabled" := by
  refine ⟨_, rfl, by unfold Distinct; decide, ⟨by unfold Distinct; decide, ?_⟩, by decide +kernel, by decide +kernel⟩
  intro k c h
  unfold userConfig at h
  rw [get_cons, get_cons, get_nil] at h
  split at h
  · cases h; unfold Distinct; decide
  · split at h
    · cases h; unfold Distinct; decide
    · cases h

/-! ## Validation -/

theorem validate_ok_nil (check : Check) (result : Map Conf) (ps : List Info) :
    validate check result ps = .ok [] ↔
      ∀ p ∈ ps, ∀ s, p.schema = some s → check s (((get result p.name).map (·.props)).getD []) = .ok [] := by
  induction ps with
  | nil => simp [validate]
  | cons p ps ih =>
    unfold validate
    cases hs : p.schema with
    | none =>
      simp only [ih, List.mem_cons, forall_eq_or_imp, hs]
      constructor
      · intro h
        refine ⟨?_, h⟩
        intro s hh
        cases hh
      · intro h
        exact h.2
    | some s =>
      have hone : ∀ Q : Schema → Prop, (∀ x, p.schema = some x → Q x) ↔ Q s := by
        intro Q
        rw [hs]
        exact ⟨fun h => h s rfl, fun h x hx => by cases hx; exact h⟩
      simp only [List.mem_cons, forall_eq_or_imp, hone]
      cases hch : check s (((get result p.name).map (·.props)).getD []) with
      | error e => simp
      | ok cs =>
        simp only
        cases hv : validate check result ps with
        | error e =>
          simp only [reduceCtorEq, Except.ok.injEq, false_iff, not_and]
          intro _ hall
          rw [← ih, hv] at hall
          cases hall
        | ok more =>
          simp only [Except.ok.injEq, List.append_eq_nil_iff, List.map_eq_nil_iff]
          rw [← ih, hv]
          simp

/-- A configuration is used exactly where each policy that has a schema accepts its properties, whatever level it has. -/
theorem accepted_iff (check : Check) (ps : List Info) (initial config : Map Conf) :
    (∃ r, reconcile check ps initial config = .ok r) ↔
      ∀ p ∈ ps, ∀ s, p.schema = some s →
        check s (((get (applyConfig (applyConfig (defaults ps) initial) config) p.name).map (·.props)).getD []) = .ok [] := by
  rw [← validate_ok_nil]
  unfold reconcile
  simp only
  constructor
  · rintro ⟨r, h⟩
    split at h
    · cases h
    · assumption
    · cases h
  · intro h
    rw [h]
    exact ⟨_, rfl⟩

/-- Where a configuration is used, each policy's schema accepts the very properties the policy is given. -/
theorem used_properties_are_valid (check : Check) (ps : List Info) (initial config r : Map Conf)
    (h : reconcile check ps initial config = .ok r) (p : Info) (hp : p ∈ ps) (s : Schema) (hs : p.schema = some s) :
    check s (((get r p.name).map (·.props)).getD []) = .ok [] := by
  have := (accepted_iff check ps initial config).mp ⟨r, h⟩ p hp s hs
  rw [reconcile_ok h]
  exact this

theorem validate_complaints (check : Check) (result : Map Conf) (ps : List Info) (cs : List (String × String))
    (h : validate check result ps = .ok cs) (n c : String) :
    (n, c) ∈ cs ↔ ∃ p ∈ ps, p.name = n ∧ ∃ s, p.schema = some s ∧ ∃ l,
      check s (((get result p.name).map (·.props)).getD []) = .ok l ∧ c ∈ l := by
  induction ps generalizing cs with
  | nil =>
    unfold validate at h
    cases h
    simp
  | cons p ps ih =>
    unfold validate at h
    cases hs : p.schema with
    | none =>
      rw [hs] at h
      simp only at h
      rw [ih cs h]
      simp only [List.mem_cons, exists_eq_or_imp, hs]
      constructor
      · intro hh; exact Or.inr hh
      · rintro (⟨_, s, hh, _⟩ | hh)
        · cases hh
        · exact hh
    | some s =>
      rw [hs] at h
      simp only at h
      cases hch : check s (((get result p.name).map (·.props)).getD []) with
      | error e => rw [hch] at h; cases h
      | ok l =>
        rw [hch] at h
        simp only at h
        cases hv : validate check result ps with
        | error e => rw [hv] at h; cases h
        | ok more =>
          rw [hv] at h
          cases h
          rw [List.mem_append, ih more hv, List.mem_map]
          simp only [List.mem_cons, exists_eq_or_imp]
          constructor
          · rintro (⟨x, hx, he⟩ | hh)
            · cases he
              exact Or.inl ⟨rfl, s, hs, l, hch, hx⟩
            · exact Or.inr hh
          · rintro (⟨hn, s', hs', l', hl', hc⟩ | hh)
            · rw [hs] at hs'
              cases hs'
              rw [hch] at hl'
              cases hl'
              exact Or.inl ⟨c, hc, by rw [hn]⟩
            · exact Or.inr hh

/-- Where a configuration is refused, the complaints are those of all policies and no others, each under the name of its
policy, and there is at least one. -/
theorem refused_with_all_complaints (check : Check) (ps : List Info) (initial config : Map Conf)
    (cs : List (String × String)) (h : reconcile check ps initial config = .invalid cs) :
    cs ≠ [] ∧ ∀ n c, (n, c) ∈ cs ↔ ∃ p ∈ ps, p.name = n ∧ ∃ s, p.schema = some s ∧ ∃ l,
      check s (((get (applyConfig (applyConfig (defaults ps) initial) config) p.name).map (·.props)).getD []) = .ok l ∧
        c ∈ l := by
  unfold reconcile at h
  simp only at h
  split at h
  · cases h
  · cases h
  · rename_i hv hne
    cases h
    exact ⟨hv, fun n c => validate_complaints check _ ps cs hne n c⟩

/-- A schema that wants the property `allow` -/
def wantsAllow : Check := fun s ps => .ok (if s.required.all (fun k => (get ps k).isSome) then [] else ["allow is required"])

def strictPack : List Info := [{ name := "no-public", level := "advisory", schema := some ⟨[], ["allow"]⟩ }]

example : ∃ cs, reconcile wantsAllow strictPack [] [] = .invalid cs ∧ ("no-public", "allow is required") ∈ cs :=
  ⟨_, rfl, by decide⟩

example : ∃ r, reconcile wantsAllow strictPack [] [("no-public", ⟨"", [("allow", .other 2)]⟩)] = .ok r := ⟨_, rfl⟩

/-- A policy that is disabled must still have a valid configuration: with one property missing the whole pack is refused. -/
theorem disabled_policy_is_validated :
    ∃ cs, reconcile wantsAllow strictPack [] [("no-public", ⟨"disabled", []⟩)] = .invalid cs ∧ cs ≠ [] :=
  ⟨[("no-public", "allow is required")], rfl, by simp⟩

/-! ## Names -/

theorem isSome_applyConfig (r m : Map Conf) (hd : Distinct m) (k : String) :
    (get (applyConfig r m) k).isSome = ((get r k).isSome || (get m k).isSome) := by
  unfold applyConfig
  rw [get_applyLoop _ _ hd, get_applyAll]
  cases get m k <;> cases get r k <;> rfl

theorem isSome_defaultsLoop (ps : List Info) (acc : Map Conf) (k : String) :
    (get (defaultsLoop ps acc) k).isSome = true ↔ (get acc k).isSome = true ∨ ∃ p ∈ ps, p.name = k := by
  induction ps generalizing acc with
  | nil => simp [defaultsLoop]
  | cons p ps ih =>
    unfold defaultsLoop
    rw [ih, get_put]
    simp only [List.mem_cons, exists_eq_or_imp]
    by_cases h : p.name = k <;> simp [h]

/-- The configuration that is used has an entry for each policy of the pack, for each name that is configured, and for
nothing else. -/
theorem names_of_config (check : Check) (ps : List Info) (initial config r : Map Conf)
    (hi : Distinct initial) (hc : Distinct config) (h : reconcile check ps initial config = .ok r) (k : String) :
    (get r k).isSome = true ↔
      (∃ p ∈ ps, p.name = k) ∨ (get initial k).isSome = true ∨ (get config k).isSome = true := by
  rw [reconcile_ok h, isSome_applyConfig _ _ hc, isSome_applyConfig _ _ hi]
  simp only [Bool.or_eq_true]
  unfold defaults
  rw [isSome_defaultsLoop]
  simp [get_nil, or_assoc]

/-- What is configured under one name does not reach a policy of another name, unless the name is "all"; and of "all" only
the level does. -/
theorem other_names_do_not_matter (check : Check) (ps : List Info) (initial config config' r r' : Map Conf)
    (hi : WellKeyed initial) (hc : WellKeyed config) (hc' : WellKeyed config')
    (p : Info) (hp : p ∈ ps) (hu : ∀ q ∈ ps, q.name = p.name → q = p)
    (hs : ∀ s, p.schema = some s → Distinct s.properties)
    (hown : get config p.name = get config' p.name)
    (hall : (get config "all").map (·.level) = (get config' "all").map (·.level))
    (h : reconcile check ps initial config = .ok r) (h' : reconcile check ps initial config' = .ok r') :
    (get r p.name).map (·.level) = (get r' p.name).map (·.level) ∧ ∀ key, given r p.name key = given r' p.name key := by
  constructor
  · obtain ⟨c, g, l⟩ := level_of_policy check ps initial config r hi.1 hc.1 p hp hu h
    obtain ⟨c', g', l'⟩ := level_of_policy check ps initial config' r' hi.1 hc'.1 p hp hu h'
    rw [g, g', Option.map_some, Option.map_some, l, l', hown]
    congr 1
    cases ha : get config "all" with
    | none =>
      rw [ha] at hall
      cases ha' : get config' "all" with
      | none => rfl
      | some a' => rw [ha'] at hall; cases hall
    | some a =>
      rw [ha] at hall
      cases ha' : get config' "all" with
      | none => rw [ha'] at hall; cases hall
      | some a' =>
        rw [ha'] at hall
        simp only [Option.map_some, Option.some.injEq] at hall
        cases get config' p.name <;> simp [firstLevel, hall]
  · intro key
    rw [property_of_policy check ps initial config r hi hc p hp hu hs h key,
      property_of_policy check ps initial config' r' hi hc' p hp hu hs h' key]
    unfold given
    rw [hown]

/-- A name that no policy has is accepted without a word: a misspelt one leaves its policy at its default. -/
theorem misspelt_policy_is_accepted :
    ∃ r, reconcile noComplaints pack [] [("no-pubilc", ⟨"mandatory", []⟩)] = .ok r ∧
      (get r "no-public").map (·.level) = some "advisory" ∧ (get r "no-pubilc").isSome = true :=
  ⟨_, rfl, by decide +kernel, by decide +kernel⟩

/-- What the configuration says of all policies goes before what the pack's own configuration says of a single one. -/
theorem all_overrides_the_packs_own :
    ∃ r, reconcile noComplaints pack [("tags", ⟨"disabled", []⟩)] [("all", ⟨"mandatory", []⟩)] = .ok r ∧
      (get r "tags").map (·.level) = some "mandatory" :=
  ⟨_, rfl, by decide +kernel⟩

/-! ## The order of a map does not matter -/

theorem get_perm {α : Type} {m m' : Map α} (hp : m.Perm m') (hd : Distinct m) (k : String) : get m k = get m' k := by
  unfold Distinct at hd
  induction hp with
  | nil => rfl
  | cons x _ ih =>
    obtain ⟨a, b⟩ := x
    simp only [List.map_cons, List.nodup_cons] at hd
    rw [get_cons, get_cons, ih hd.2]
  | swap x y l =>
    obtain ⟨a, b⟩ := x
    obtain ⟨c, d⟩ := y
    simp only [List.map_cons, List.nodup_cons, List.mem_cons, not_or] at hd
    simp only [get_cons]
    by_cases h : a = k
    · by_cases h' : c = k
      · exact absurd (h'.trans h.symm) hd.1.1
      · simp [h, h']
    · simp [h]
  | trans h₁ _ ih₁ ih₂ =>
    rw [ih₁ hd, ih₂ ((h₁.map (·.1)).nodup_iff.mp hd)]

/-- The order in which the entries of the maps are visited makes no difference to the configuration. -/
theorem order_does_not_matter (ps : List Info) (initial initial' config config' : Map Conf)
    (hi : Distinct initial) (hc : Distinct config) (pi : initial.Perm initial') (pc : config.Perm config') (k : String) :
    get (applyConfig (applyConfig (defaults ps) initial) config) k =
      get (applyConfig (applyConfig (defaults ps) initial') config') k := by
  have hi' : Distinct initial' := by unfold Distinct at hi ⊢; exact (pi.map (·.1)).nodup_iff.mp hi
  have hc' : Distinct config' := by unfold Distinct at hc ⊢; exact (pc.map (·.1)).nodup_iff.mp hc
  unfold applyConfig
  simp only [get_applyLoop _ _ hi, get_applyLoop _ _ hi', get_applyLoop _ _ hc, get_applyLoop _ _ hc', get_applyAll,
    get_perm pi hi, get_perm pc hc]

example : userConfig.Perm userConfig.reverse ∧ Distinct userConfig :=
  ⟨(List.reverse_perm userConfig).symm, by unfold Distinct; decide⟩

end Pulumi.Policy
