import Verif.Plan.Inputs
import Verif.Rename.Model
/-!
# Plans: what a registration may ask for

`pkg/resource/deploy/plan.go:171-304, 475-600`. Paths are relative to `/repo/`.
-/
namespace Pulumi.Plan
open Pulumi.Engine (EV Blob RefId)
open Pulumi.Props
open Pulumi.Urn (Text)
open Pulumi.Rename (parseReference)

/-- `resource.Goal` (sdk/go/common/resource/resource_goal.go:23-45), without the properties, which are checked apart. Timeouts are seconds:
create, update, delete. -/
structure Goal where
  type : String := ""
  name : String := ""
  custom : Bool := true
  parent : String := ""
  protect : Bool := false
  deps : List String := []
  provider : Text := []
  propDeps : List (String × List String) := []
  dbr : Option Bool := none
  ignoreChanges : List String := []
  secretOutputs : List String := []
  aliases : List String := []
  id : String := ""
  timeouts : Nat × Nat × Nat := (0, 0, 0)
  replaceOnChanges : List String := []
  retainOnDelete : Bool := false

/-- `GoalPlan` (plan.go:107-143), without the inputs that were seen and the outputs -/
structure GoalPlan where
  type : String
  name : String
  custom : Bool
  inputDiff : PlanDiff
  parent : String
  protect : Bool
  deps : List String
  provider : Text
  propDeps : List (String × List String)
  dbr : Option Bool
  ignoreChanges : List String
  secretOutputs : List String
  aliases : List String
  id : String
  timeouts : Nat × Nat × Nat

/-- `NewGoalPlan` (172-199) -/
def newGoalPlan (d : Option ODiff) (g : Goal) : GoalPlan :=
  ⟨g.type, g.name, g.custom, newPlanDiff d, g.parent, g.protect, g.deps, g.provider, g.propDeps, g.dbr, g.ignoreChanges, g.secretOutputs,
    g.aliases, g.id, g.timeouts⟩

/-- What a check comes to -/
inductive Verdict where
  | ok
  | refused (why : String)
  | crash
deriving DecidableEq, Repr

/-- `diffStringSets` (235-272) and `diffURNs` (211-221): whether there is a difference -/
def setsDiffer (a b : List String) : Bool := !(a.all (fun s => decide (s ∈ b)) && b.all (fun s => decide (s ∈ a)))

/-- `diffPropertyKeys` (223-233). The second slice has the length of the first: what is longer is out of range, what is shorter is filled
up with empty strings. -/
def keysDiffer (a b : List String) : Option Bool :=
  if a.length < b.length then none else some (setsDiffer a (b ++ List.replicate (a.length - b.length) ""))

/-- `UnknownID` (providers/reference.go:34, sdk/go/common/resource/plugin/rpc.go:54) -/
def unknownID : Text := "04da6b54-80e4-46f7-96ec-b56ff0331ba9".toList

/-- the check of the provider (498-514) -/
def checkProvider (planned actual : Text) : Verdict :=
  if planned = actual then .ok
  else
    match parseReference planned with
    | none => .crash
    | some none => .refused "failed to parse provider reference"
    | some (some (urn, id)) =>
      match parseReference actual with
      | none => .crash
      | some none => .refused "failed to parse provider reference"
      | some (some (urn', _)) => if urn ≠ urn' ∨ id ≠ unknownID then .refused "provider changed" else .ok

/-- one check after another -/
def Verdict.and : Verdict → Verdict → Verdict
  | .ok, v => v
  | v, _ => v

/-- a check with a message -/
def check (good : Bool) (why : String) : Verdict := if good then .ok else .refused why

/-- `ResourcePlan.checkGoal` (476-600). `plan` is `none` where the resource was to be deleted. -/
def checkGoal (hash : Blob → Option String) (olds news : List (String × EV)) (plan : Option GoalPlan) (g : Goal) : Verdict :=
  match plan with
  | none => .refused "resource unexpectedly not deleted"
  | some p =>
    -- 483-484
    if p.type ≠ g.type ∨ p.name ≠ g.name then .crash
    else
    (check (g.custom == p.custom) "resource kind changed").and <|
    (checkProvider p.provider g.provider).and <|
    (check (g.parent == p.parent) "parent changed").and <|
    (check (g.protect == p.protect) "protect changed").and <|
    -- 526-541
    (check (match p.dbr, g.dbr with
      | none, none => true
      | some a, some b => a == b
      | _, _ => false) "deleteBeforeReplace changed").and <|
    (check (p.id == g.id) "importID changed").and <|
    (check (p.timeouts.1 == g.timeouts.1) "create timeout changed").and <|
    (check (p.timeouts.2.1 == g.timeouts.2.1) "update timeout changed").and <|
    (check (p.timeouts.2.2 == g.timeouts.2.2) "delete timeout changed").and <|
    (check (!setsDiffer p.ignoreChanges g.ignoreChanges) "ignoreChanges changed").and <|
    (match keysDiffer p.secretOutputs g.secretOutputs with
      | none => Verdict.crash
      | some d => check (!d) "additionalSecretOutputs changed").and <|
    (check (!setsDiffer p.aliases g.aliases) "aliases changed").and <|
    (check (!setsDiffer p.deps g.deps) "dependencies changed").and <|
    (check (checkDiff hash olds news p.inputDiff).isEmpty "properties changed").and <|
    -- 589-597
    check (p.propDeps.all (fun kd => match g.propDeps.lookup kd.1 with
      | some ds => !setsDiffer kd.2 ds
      | none => true)) "dependencies changed"

/-- What of a state there is in a plan: the fields of `resource.State` `checkMissingPlan` looks at -/
structure OldState where
  type : String := ""
  name : String := ""
  custom : Bool := true
  parent : String := ""
  protect : Bool := false
  deps : List String := []
  provider : Text := []
  propDeps : List (String × List String) := []
  secretOutputs : List String := []
  aliases : List String := []
  timeouts : Nat × Nat × Nat := (0, 0, 0)
  inputs : List (String × EV) := []

/-- `checkMissingPlan` (276-304) -/
def checkMissingPlan (hash : Blob → Option String) (old : OldState) (news : List (String × EV)) (g : Goal) : Verdict :=
  checkGoal hash old.inputs news (some ⟨old.type, old.name, old.custom, ⟨[], [], []⟩, old.parent, old.protect, old.deps, old.provider,
    old.propDeps, none, [], old.secretOutputs, old.aliases, "", old.timeouts⟩) g

/-! ## What is said about it -/

/-- the same things, in whatever order and however often -/
def SameSet (a b : List String) : Prop := ∀ s, s ∈ a ↔ s ∈ b

/-- The provider is the planned one: by reference, or by URN if its id was not known when the plan was made. -/
def SameProvider (planned actual : Text) : Prop :=
  planned = actual ∨ ∃ urn id, parseReference planned = some (some (urn, unknownID)) ∧ parseReference actual = some (some (urn, id))

/-- The options of a registration are those of the plan. -/
structure SameOptions (p : GoalPlan) (g : Goal) : Prop where
  type : p.type = g.type
  name : p.name = g.name
  custom : p.custom = g.custom
  provider : SameProvider p.provider g.provider
  parent : p.parent = g.parent
  protect : p.protect = g.protect
  deleteBeforeReplace : p.dbr = g.dbr
  importID : p.id = g.id
  timeouts : p.timeouts = g.timeouts
  ignoreChanges : SameSet p.ignoreChanges g.ignoreChanges
  secretOutputs : SameSet p.secretOutputs g.secretOutputs
  aliases : SameSet p.aliases g.aliases
  deps : SameSet p.deps g.deps
  propDeps : ∀ k ds ds', (k, ds) ∈ p.propDeps → g.propDeps.lookup k = some ds' → SameSet ds ds'

theorem sets_iff (a b : List String) : setsDiffer a b = false ↔ SameSet a b := by
  unfold setsDiffer SameSet
  simp only [Bool.not_eq_false', Bool.and_eq_true, List.all_eq_true, decide_eq_true_eq]
  exact ⟨fun h s => ⟨h.1 s, h.2 s⟩, fun h => ⟨fun s => (h s).mp, fun s => (h s).mpr⟩⟩

theorem and_ok (a b : Verdict) : a.and b = .ok ↔ a = .ok ∧ b = .ok := by
  cases a <;> simp [Verdict.and]

theorem check_ok (b : Bool) (why : String) : check b why = .ok ↔ b = true := by
  unfold check
  cases b <;> simp

theorem provider_ok (a b : Text) : checkProvider a b = .ok ↔ SameProvider a b := by
  unfold checkProvider SameProvider
  by_cases h : a = b
  · rw [if_pos h]; exact ⟨fun _ => .inl h, fun _ => rfl⟩
  · rw [if_neg h]
    constructor
    · intro hv
      right
      split at hv
      · cases hv
      · cases hv
      · next urn id h1 =>
        split at hv
        · cases hv
        · cases hv
        · next urn' id' h2 =>
          split at hv
          · cases hv
          · next hc =>
            simp only [not_or, ne_eq, Decidable.not_not] at hc
            obtain ⟨rfl, rfl⟩ := hc
            exact ⟨urn, id', h1, h2⟩
    · rintro (hv | ⟨urn, id, h1, h2⟩)
      · exact absurd hv h
      · simp [h1, h2]

/-- What it takes for a registration to be let through -/
theorem checkGoal_ok (hash : Blob → Option String) (olds news : List (String × EV)) (p : GoalPlan) (g : Goal) :
    checkGoal hash olds news (some p) g = .ok ↔ p.type = g.type ∧ p.name = g.name ∧ p.custom = g.custom ∧
      SameProvider p.provider g.provider ∧ p.parent = g.parent ∧ p.protect = g.protect ∧ p.dbr = g.dbr ∧ p.id = g.id ∧
      p.timeouts = g.timeouts ∧ SameSet p.ignoreChanges g.ignoreChanges ∧ keysDiffer p.secretOutputs g.secretOutputs = some false ∧
      SameSet p.aliases g.aliases ∧ SameSet p.deps g.deps ∧ checkDiff hash olds news p.inputDiff = [] ∧
      ∀ k ds ds', (k, ds) ∈ p.propDeps → g.propDeps.lookup k = some ds' → SameSet ds ds' := by
  unfold checkGoal
  simp only
  have hdbr : (match p.dbr, g.dbr with
      | none, none => true
      | some a, some b => a == b
      | _, _ => false) = true ↔ p.dbr = g.dbr := by
    cases p.dbr <;> cases g.dbr <;> simp
  have hkeys : (match keysDiffer p.secretOutputs g.secretOutputs with
      | none => Verdict.crash
      | some d => check (!d) "additionalSecretOutputs changed") = .ok ↔ keysDiffer p.secretOutputs g.secretOutputs = some false := by
    cases keysDiffer p.secretOutputs g.secretOutputs with
    | none => simp
    | some d => simp [check_ok]
  have hdeps : (p.propDeps.all (fun kd => match g.propDeps.lookup kd.1 with
      | some ds => !setsDiffer kd.2 ds
      | none => true)) = true ↔ ∀ k ds ds', (k, ds) ∈ p.propDeps → g.propDeps.lookup k = some ds' → SameSet ds ds' := by
    rw [List.all_eq_true]
    constructor
    · intro h k ds ds' hm hl
      have := h (k, ds) hm
      simp only [hl, Bool.not_eq_true'] at this
      exact (sets_iff ds ds').mp this
    · rintro h ⟨k, ds⟩ hm
      simp only
      cases hl : g.propDeps.lookup k with
      | none => rfl
      | some ds' =>
        simp only [Bool.not_eq_true']
        exact (sets_iff ds ds').mpr (h k ds ds' hm hl)
  by_cases ht : p.type ≠ g.type ∨ p.name ≠ g.name
  · rw [if_pos ht]
    constructor
    · intro h; cases h
    · rintro ⟨h1, h2, _⟩
      rcases ht with h | h
      · exact absurd h1 h
      · exact absurd h2 h
  · rw [if_neg ht]
    simp only [not_or, ne_eq, Decidable.not_not] at ht
    simp only [and_ok, check_ok, provider_ok, hdbr, hkeys, hdeps, beq_iff_eq, Bool.not_eq_true', sets_iff, List.isEmpty_iff]
    have htm : p.timeouts = g.timeouts ↔
        p.timeouts.1 = g.timeouts.1 ∧ p.timeouts.2.1 = g.timeouts.2.1 ∧ p.timeouts.2.2 = g.timeouts.2.2 := by
      rw [Prod.ext_iff, Prod.ext_iff]
    rw [htm]
    constructor
    · rintro ⟨h1, h2, h3, h4, h5, h6, h7, h8, h9, h10, h11, h12, h13, h14, h15⟩
      exact ⟨ht.1, ht.2, h1.symm, h2, h3.symm, h4.symm, h5, h6, ⟨h7, h8, h9⟩, h10, h11, h12, h13, h14, h15⟩
    · rintro ⟨_, _, h1, h2, h3, h4, h5, h6, ⟨h7, h8, h9⟩, h10, h11, h12, h13, h14, h15⟩
      exact ⟨h1.symm, h2, h3.symm, h4.symm, h5, h6, h7, h8, h9, h10, h11, h12, h13, h14, h15⟩

theorem keys_same {a b : List String} (he : "" ∉ a) (h : keysDiffer a b = some false) : a.length = b.length ∧ SameSet a b := by
  unfold keysDiffer at h
  split at h
  · cases h
  · next hl =>
    injection h with h
    have hs := (sets_iff _ _).mp h
    have hlen : a.length = b.length := by
      by_cases hz : a.length - b.length = 0
      · omega
      · exfalso
        apply he
        refine (hs "").mpr (List.mem_append_right _ ?_)
        rw [List.mem_replicate]
        exact ⟨hz, rfl⟩
    refine ⟨hlen, ?_⟩
    rw [hlen, Nat.sub_self, List.replicate_zero, List.append_nil] at hs
    exact hs

/-- C175: a registration that is let through has the options that were planned, all but two (`options_not_planned`), and inputs the plan
allows (`inputs_keep_to_the_plan_partial` says what these are). -/
theorem registrations_keep_to_the_plan_partial (hash : Blob → Option String) (olds news : List (String × EV)) (p : GoalPlan) (g : Goal)
    (he : "" ∉ p.secretOutputs) (h : checkGoal hash olds news (some p) g = .ok) :
    SameOptions p g ∧ checkDiff hash olds news p.inputDiff = [] := by
  obtain ⟨h1, h2, h3, h4, h5, h6, h7, h8, h9, h10, h11, h12, h13, h14, h15⟩ := (checkGoal_ok hash olds news p g).mp h
  exact ⟨⟨h1, h2, h3, h4, h5, h6, h7, h8, h9, h10, (keys_same he h11).2, h12, h13, h15⟩, h14⟩

/-- C175: where the plan is to delete a resource, no registration of it is let through. -/
theorem planned_deletions_are_not_registered (hash : Blob → Option String) (olds news : List (String × EV)) (g : Goal) :
    checkGoal hash olds news none g ≠ .ok := by
  simp [checkGoal]

/-- C175: and nothing but what the plan says keeps a registration out: one that has the planned options, with as many secret outputs, and
inputs the plan allows, is let through. -/
theorem planned_registrations_go_through (hash : Blob → Option String) (olds news : List (String × EV)) (p : GoalPlan) (g : Goal)
    (hl : p.secretOutputs.length = g.secretOutputs.length) (ho : SameOptions p g) (hi : checkDiff hash olds news p.inputDiff = []) :
    checkGoal hash olds news (some p) g = .ok := by
  refine (checkGoal_ok hash olds news p g).mpr ⟨ho.type, ho.name, ho.custom, ho.provider, ho.parent, ho.protect, ho.deleteBeforeReplace,
    ho.importID, ho.timeouts, ho.ignoreChanges, ?_, ho.aliases, ho.deps, hi, ho.propDeps⟩
  unfold keysDiffer
  rw [if_neg (by omega), hl, Nat.sub_self, List.replicate_zero, List.append_nil]
  exact congrArg some ((sets_iff _ _).mpr ho.secretOutputs)

/-- C175: so the plan a preview makes of a registration lets the same registration through in the update, whatever the inputs come to that
were not known, and whatever the id of the provider comes to if it was not known. -/
theorem own_goals_go_through (hash : Blob → Option String) (olds seen news : List (String × EV)) (d : Option ODiff) (g : Goal)
    (prov : Text) (po : proper hash (.object olds) = true) (ps : proper hash (.object seen) = true)
    (pn : proper hash (.object news) = true) (oo : noOutputs (.object olds) = true) (os : noOutputs (.object seen) = true)
    (on : noOutputs (.object news) = true) (ko : Known (.object olds)) (hr : Resolves hash (.object seen) (.object news))
    (hd : mapDiff hash nothing olds seen = some d) (hp : SameProvider g.provider prov) (hk : (g.propDeps.map (·.1)).Nodup) :
    checkGoal hash olds news (some (newGoalPlan d g)) { g with provider := prov } = .ok := by
  refine planned_registrations_go_through hash olds news _ _ rfl ?_
    (plan_allows_its_own_outcomes olds seen news d po ps pn oo os on ko hr hd)
  refine ⟨rfl, rfl, rfl, hp, rfl, rfl, rfl, rfl, rfl, fun _ => Iff.rfl, fun _ => Iff.rfl, fun _ => Iff.rfl, fun _ => Iff.rfl, ?_⟩
  intro k ds ds' hm hl s
  have : ds' = ds := by
    have := lookup_of_mem hk hm
    simp only at hl
    rw [this] at hl
    injection hl with hl
    exact hl.symm
  rw [this]

/-- C175: a resource there is no plan for is let through only as it is. -/
theorem unplanned_registrations_change_nothing (hash : Blob → Option String) (old : OldState) (news : List (String × EV)) (g : Goal)
    (he : "" ∉ old.secretOutputs) (po : proper hash (.object old.inputs) = true) (pn : proper hash (.object news) = true)
    (oo : noOutputs (.object old.inputs) = true) (on : noOutputs (.object news) = true) (ko : Known (.object old.inputs))
    (kn : Known (.object news)) (h : checkMissingPlan hash old news g = .ok) :
    (∀ k, Same hash (valueAt old.inputs k) (valueAt news k)) ∧ g.custom = old.custom ∧ g.parent = old.parent ∧ g.protect = old.protect ∧
      SameProvider old.provider g.provider ∧ SameSet old.deps g.deps ∧ SameSet old.aliases g.aliases ∧
      SameSet old.secretOutputs g.secretOutputs ∧ g.timeouts = old.timeouts ∧ g.dbr = none ∧ g.ignoreChanges = [] ∧ g.id = "" := by
  obtain ⟨ho, hi⟩ := registrations_keep_to_the_plan_partial hash old.inputs news _ g he h
  refine ⟨fun k => ?_, ho.custom.symm, ho.parent.symm, ho.protect.symm, ho.provider, ho.deps, ho.aliases, ho.secretOutputs,
    ho.timeouts.symm, ho.deleteBeforeReplace.symm, ?_, ho.importID.symm⟩
  · refine (inputs_keep_to_the_plan_partial old.inputs news ⟨[], [], []⟩ po pn oo on ko kn ?_ ?_ hi k).2.1 ?_
    · intro k e hm; simp at hm
    · simp [PlanDiff.ok]
    · simp [PlanDiff.silent]
  · cases hg : g.ignoreChanges with
    | nil => rfl
    | cons x xs =>
      have := (ho.ignoreChanges x).mpr (by rw [hg]; exact List.mem_cons_self)
      simp at this

/-! ## Cases -/

/-- a provider that was not there yet -/
def exProvider (id : Text) : Text := "urn:pulumi:s::p::pulumi:providers:aws::prov::".toList ++ id

/-- a bucket -/
def exGoal : Goal :=
  { type := "aws:s3:Bucket", name := "b", provider := exProvider unknownID, protect := true, deps := ["x", "y"], dbr := some true,
    ignoreChanges := ["tags"], secretOutputs := ["arn"], propDeps := [("acl", ["x"]), ("policy", ["y"])], timeouts := (10, 0, 5) }

/-- its inputs before, in the preview and in the update -/
def exOlds : List (String × EV) := [("acl", .str "private"), ("size", .num 1), ("old", .bool true)]
/-- … -/
def exSeen : List (String × EV) := [("acl", .computed (.str "")), ("size", .num 2), ("policy", .object [("v", .computed (.str ""))])]
/-- … -/
def exNews : List (String × EV) := [("acl", .str "public"), ("size", .num 2), ("policy", .object [("v", .str "x")])]

/-- the hash of no blob -/
def noHash : Blob → Option String := fun _ => none

theorem ex_diff : ∃ d, mapDiff noHash nothing exOlds exSeen = some (some d) ∧ d.adds.map (·.1) = ["policy"] ∧
    d.dels.map (·.1) = ["old"] ∧ d.ups.map (·.1) = ["acl", "size"] := by
  refine ⟨_, rfl, ?_⟩
  decide

theorem ex_resolves : Resolves noHash (.object exSeen) (.object exNews) := by
  refine .object _ _ (fun k => ?_)
  by_cases h1 : k = "acl"
  · subst h1; exact .unknown _ _
  · by_cases h2 : k = "size"
    · subst h2; exact .num 2
    · by_cases h3 : k = "policy"
      · subst h3
        refine .object _ _ (fun k => ?_)
        by_cases h4 : k = "v"
        · subst h4; exact .unknown _ _
        · have : (k == "v") = false := by simpa using h4
          simp only [valueAt, List.lookup, this]
          exact .null
      · have e1 : (k == "acl") = false := by simpa using h1
        have e2 : (k == "size") = false := by simpa using h2
        have e3 : (k == "policy") = false := by simpa using h3
        simp only [valueAt, exSeen, exNews, List.lookup, e1, e2, e3]
        exact .null

theorem ex_known : Known (.object exOlds) := by
  refine .object _ (fun k v h => ?_)
  simp only [exOlds, List.mem_cons, Prod.mk.injEq, List.not_mem_nil, or_false] at h
  rcases h with ⟨_, rfl⟩ | ⟨_, rfl⟩ | ⟨_, rfl⟩
  · exact .str _
  · exact .num _
  · exact .bool _

theorem ex_news_known : Known (.object exNews) := by
  refine .object _ (fun k v h => ?_)
  simp only [exNews, List.mem_cons, Prod.mk.injEq, List.not_mem_nil, or_false] at h
  rcases h with ⟨_, rfl⟩ | ⟨_, rfl⟩ | ⟨_, rfl⟩
  · exact .str _
  · exact .num _
  · refine .object _ (fun k v h => ?_)
    simp only [List.mem_cons, Prod.mk.injEq, List.not_mem_nil, or_false] at h
    rw [h.2]
    exact .str _

theorem ex_provider : SameProvider (exProvider unknownID) (exProvider "id-1".toList) :=
  .inr ⟨"urn:pulumi:s::p::pulumi:providers:aws::prov".toList, "id-1".toList, by decide +kernel, by decide +kernel⟩

example : checkDiff noHash exOlds exNews (newPlanDiff ((mapDiff noHash nothing exOlds exSeen).getD none)) = [] :=
  plan_allows_its_own_outcomes exOlds exSeen exNews _ (by decide) (by decide) (by decide) (by decide) (by decide) (by decide) ex_known
    ex_resolves rfl

example := own_goals_go_through noHash exOlds exSeen exNews _ exGoal (exProvider "id-1".toList) (by decide) (by decide) (by decide)
  (by decide) (by decide) (by decide) ex_known ex_resolves rfl ex_provider (by decide)

/-- what the inputs of the update are then held to -/
example (h : checkDiff noHash exOlds exNews ⟨[("policy", .computed (.str ""))], ["old"], [("acl", .computed (.str "")), ("size", .num 2)]⟩
    = []) (k : String) := inputs_keep_to_the_plan_partial exOlds exNews _ (by decide) (by decide) (by decide) (by decide) ex_known
    ex_news_known (by
      intro k e h
      simp only [List.mem_cons, Prod.mk.injEq, List.not_mem_nil, or_false] at h
      rcases h with ⟨_, rfl⟩ | ⟨_, rfl⟩ | ⟨_, rfl⟩ <;> decide) (by unfold PlanDiff.ok; decide) h k

example : checkDiff noHash exOlds exNews ⟨[("policy", .computed (.str ""))], ["old"], [("acl", .computed (.str "")), ("size", .num 2)]⟩ =
    [] := by decide

example : checkGoal noHash exOlds exNews
    (some (newGoalPlan ((mapDiff noHash nothing exOlds exSeen).getD none) exGoal)) { exGoal with protect := false } =
    .refused "protect changed" := by decide +kernel

example : checkMissingPlan noHash { type := "t", name := "n", inputs := exOlds } exOlds { type := "t", name := "n" } = .ok := by decide
example : checkMissingPlan noHash { type := "t", name := "n", inputs := exOlds } exNews { type := "t", name := "n" } =
    .refused "properties changed" := by decide

/-- The plan says "all resource options are required to match exactly" (25-26), but two are not in it: `replaceOnChanges` and
`retainOnDelete` may be anything. -/
theorem options_not_planned (hash : Blob → Option String) (olds news : List (String × EV)) (p : Option GoalPlan) (g : Goal)
    (roc : List String) (retain : Bool) :
    checkGoal hash olds news p { g with replaceOnChanges := roc, retainOnDelete := retain } = checkGoal hash olds news p g := rfl

/-- One more secret output than was planned is an index out of range, not an error. -/
theorem more_secret_outputs_crash :
    checkGoal noHash [] [] (some (newGoalPlan none { secretOutputs := ["a"] })) { secretOutputs := ["a", "b"] } = .crash ∧
    checkGoal noHash [] [] (some (newGoalPlan none {})) { secretOutputs := ["a"] } = .crash := by decide

/-- And the same secret outputs, listed once less often, are refused. -/
theorem same_secret_outputs_refused :
    SameSet ["a", "a"] ["a"] ∧ checkGoal noHash [] [] (some (newGoalPlan none { secretOutputs := ["a", "a"] })) { secretOutputs := ["a"] } =
      .refused "additionalSecretOutputs changed" := by
  refine ⟨fun s => by simp, by decide⟩

/-- A resource there is no plan for is refused if it has `deleteBeforeReplace`, `ignoreChanges` or an import id, though nothing changes:
a state does not tell. -/
theorem unchanged_but_refused :
    checkMissingPlan noHash {} [] { dbr := some true } = .refused "deleteBeforeReplace changed" ∧
    checkMissingPlan noHash {} [] { ignoreChanges := ["tags"] } = .refused "ignoreChanges changed" ∧
    checkMissingPlan noHash {} [] { id := "i-1" } = .refused "importID changed" := by decide

end Pulumi.Plan
