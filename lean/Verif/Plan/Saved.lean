import Verif.Plan.Goal
import Verif.Plan.Ops
import Verif.Checkpoint.States
/-!
# Plans that are saved (C203)

Models `pkg/resource/stack/plan.go`: what `pulumi preview --save-plan` writes and `pulumi up --plan` reads. Paths are relative to `/repo/`.

A plan file is what `encoding/json` writes: fields that are left out if they are empty (`sdk/go/common/apitype/plan.go`) are empty when they are read. The maps from URNs to
plans are association lists, in whichever order Go walks them. Left out: the manifest, which nothing is checked against, and the configuration (see C187).
-/
namespace Pulumi.Plan
open Pulumi.Engine (EV Blob RefId)
open Pulumi.Wire (W)
open Pulumi.Props (hasValue isComputed)
open Pulumi.Checkpoint (Codec Encrypter Decrypter Err serializeKvs eachProp deserialize Storable Opens keptProps exists_bound props_read SamePublic Tight)

/-- What may be nil is written if it is not (plan.go:65-71 and 79-116) -/
def writeOpt {α β σ : Type} (f : α → σ → Except Err (β × σ)) : Option α → σ → Except Err (Option β × σ)
  | none, s => .ok (none, s)
  | some a, s => do
    let (b, s) ← f a s
    return (some b, s)

/-- What may be nil is read if it is not (plan.go:147-183 and 185-192) -/
def readOpt {α β : Type} (f : β → Except Err α) : Option β → Except Err (Option α)
  | none => .ok none
  | some b => do
    let a ← f b
    return some a

/-- `PlanDiffV1` (apitype/plan.go:12-19) -/
structure PlanDiffV1 where
  adds : List (String × W)
  dels : List String
  ups : List (String × W)

/-- `SerializePlanDiff` (11-36) -/
def writeDiff {σ : Type} (J : Codec) (showSecrets : Bool) (enc : Encrypter σ) (d : PlanDiff) (s : σ) : Except Err (PlanDiffV1 × σ) := do
  let (adds, s) ← serializeKvs J showSecrets enc d.adds s
  let (ups, s) ← serializeKvs J showSecrets enc d.ups s
  return (⟨adds, d.dels, ups⟩, s)

/-- `DeserializePlanDiff` (38-59), of values that are nested at most `n` deep -/
def readDiff (J : Codec) (n : Nat) (dec enc : Decrypter) (d : PlanDiffV1) : Except Err PlanDiff := do
  let adds ← eachProp (deserialize J n dec enc) d.adds
  let ups ← eachProp (deserialize J n dec enc) d.ups
  return ⟨adds, d.dels, ups⟩

/-- `GoalPlan` with the inputs that were seen and the outputs (deploy/plan.go:107-143) -/
structure FullGoal extends GoalPlan where
  checkedInputs : List (String × EV)
  outputDiff : PlanDiff

/-- `GoalV1` (apitype/plan.go:22-58). The fields that are the same in a plan and in a file are those of a `GoalPlan` whose `inputDiff` is not looked at. -/
structure GoalV1 where
  type : String
  name : String
  custom : Bool
  checkedInputs : List (String × W)
  inputDiff : PlanDiffV1
  outputDiff : PlanDiffV1
  parent : String
  protect : Bool
  deps : List String
  provider : Urn.Text
  propDeps : List (String × List String)
  dbr : Option Bool
  ignoreChanges : List String
  secretOutputs : List String
  aliases : List String
  id : String
  timeouts : Nat × Nat × Nat

/-- `deploy.ResourcePlan` (deploy/plan.go:201-209) -/
structure ResourcePlan where
  goal : Option FullGoal
  seed : List UInt8
  ops : List Op
  outputs : Option (List (String × EV))

/-- `ResourcePlanV1` (apitype/plan.go:61-70) -/
structure ResourcePlanV1 where
  goal : Option GoalV1
  seed : List UInt8
  steps : List Op
  outputs : Option (List (String × W))

/-- `SerializeResourcePlan` (61-124), the goal (80-116) -/
def writeGoal {σ : Type} (J : Codec) (showSecrets : Bool) (enc : Encrypter σ) (g : FullGoal) (s : σ) : Except Err (GoalV1 × σ) := do
  let (checked, s) ← serializeKvs J showSecrets enc g.checkedInputs s
  let (ins, s) ← writeDiff J showSecrets enc g.inputDiff s
  let (outs, s) ← writeDiff J showSecrets enc g.outputDiff s
  return (⟨g.type, g.name, g.custom, checked, ins, outs, g.parent, g.protect, g.deps, g.provider, g.propDeps, g.dbr, g.ignoreChanges, g.secretOutputs, g.aliases, g.id, g.timeouts⟩, s)

/-- `SerializeResourcePlan` (61-124) -/
def writeResourcePlan {σ : Type} (J : Codec) (showSecrets : Bool) (enc : Encrypter σ) (p : ResourcePlan) (s : σ) : Except Err (ResourcePlanV1 × σ) := do
  let (outputs, s) ← writeOpt (serializeKvs J showSecrets enc) p.outputs s
  let (goal, s) ← writeOpt (writeGoal J showSecrets enc) p.goal s
  return (⟨goal, p.seed, p.ops, outputs⟩, s)

/-- `DeserializeResourcePlan` (143-206), the goal (148-183) -/
def readGoal (J : Codec) (n : Nat) (dec enc : Decrypter) (g : GoalV1) : Except Err FullGoal := do
  let checked ← eachProp (deserialize J n dec enc) g.checkedInputs
  let ins ← readDiff J n dec enc g.inputDiff
  let outs ← readDiff J n dec enc g.outputDiff
  return ⟨⟨g.type, g.name, g.custom, ins, g.parent, g.protect, g.deps, g.provider, g.propDeps, g.dbr, g.ignoreChanges, g.secretOutputs, g.aliases, g.id, g.timeouts⟩, checked, outs⟩

/-- `DeserializeResourcePlan` (143-206) -/
def readResourcePlan (J : Codec) (n : Nat) (dec enc : Decrypter) (p : ResourcePlanV1) : Except Err ResourcePlan := do
  let goal ← readOpt (readGoal J n dec enc) p.goal
  let outputs ← readOpt (eachProp (deserialize J n dec enc)) p.outputs
  return ⟨goal, p.seed, p.steps, outputs⟩

/-- `SerializePlan` (126-141), the loop over the resources -/
def writePlan {σ : Type} (J : Codec) (showSecrets : Bool) (enc : Encrypter σ) : List (String × ResourcePlan) → σ → Except Err (List (String × ResourcePlanV1) × σ)
  | [], s => .ok ([], s)
  | (u, p) :: l, s => do
    let (w, s) ← writeResourcePlan J showSecrets enc p s
    let (ws, s) ← writePlan J showSecrets enc l s
    return ((u, w) :: ws, s)

/-- `DeserializePlan` (208-229), the loop over the resources -/
def readPlan (J : Codec) (n : Nat) (dec enc : Decrypter) : List (String × ResourcePlanV1) → Except Err (List (String × ResourcePlan))
  | [] => .ok []
  | (u, w) :: ws => do
    let p ← readResourcePlan J n dec enc w
    let ps ← readPlan J n dec enc ws
    return (u, p) :: ps

/-! ## What is said about it -/

/-- Values that can be stored -/
structure StorablePlan (p : ResourcePlan) : Prop where
  outputs : ∀ o, p.outputs = some o → Storable (.object o)
  goal : ∀ g, p.goal = some g → Storable (.object g.checkedInputs) ∧ Storable (.object g.inputDiff.adds) ∧ Storable (.object g.inputDiff.ups) ∧
    Storable (.object g.outputDiff.adds) ∧ Storable (.object g.outputDiff.ups)

/-- What a file keeps of a diff: for an unknown value, no more than that it is unknown -/
def keptDiff (d : PlanDiff) : PlanDiff := ⟨keptProps d.adds, d.dels, keptProps d.ups⟩

def keptGoal (g : FullGoal) : FullGoal := { g with inputDiff := keptDiff g.inputDiff, outputDiff := keptDiff g.outputDiff, checkedInputs := keptProps g.checkedInputs }

def keptPlan (p : ResourcePlan) : ResourcePlan := { p with goal := p.goal.map keptGoal, outputs := p.outputs.map keptProps }

mutual
/-- Whether there is an Output in the value. Programs' properties have none when the engine has read them, but for those of components in other languages. -/
def hasOut : EV → Bool
  | .array es => listHasOut es
  | .object kvs => propsHaveOut kvs
  | .secret e => hasOut e
  | .output .. => true
  | _ => false
def listHasOut : List EV → Bool
  | [] => false
  | e :: es => hasOut e || listHasOut es
def propsHaveOut : List (String × EV) → Bool
  | [] => false
  | (_, e) :: kvs => hasOut e || propsHaveOut kvs
end

/-! ## Plans come back -/

section
variable {J : Codec} (hJ : J.Faithful) {b : Bool} {σ : Type} {I : σ → Prop} {enc : Encrypter σ} {dec enc' : Decrypter} (ho : Opens J I enc dec)
  (henc : b = true → ∀ p, ∃ x, enc' p = .ok x)
include hJ ho henc

theorem diff_read {d : PlanDiff} (ha : Storable (.object d.adds)) (hu : Storable (.object d.ups)) {s : σ} {w s'} (hI : I s) (hw : writeDiff J b enc d s = .ok (w, s')) :
    I s' ∧ ∃ n, ∀ m, n ≤ m → readDiff J m dec enc' w = .ok (keptDiff d) := by
  unfold writeDiff at hw
  simp only [bind, Except.bind, pure, Except.pure] at hw
  cases h1 : serializeKvs J b enc d.adds s with
  | error x => rw [h1] at hw; cases hw
  | ok r1 =>
    rw [h1] at hw
    simp only at hw
    cases h2 : serializeKvs J b enc d.ups r1.2 with
    | error x => rw [h2] at hw; cases hw
    | ok r2 =>
      rw [h2] at hw
      cases hw
      obtain ⟨hI1, -, b1⟩ := props_read hJ ha ho henc hI h1
      obtain ⟨hI2, -, b2⟩ := props_read hJ hu ho henc hI1 h2
      obtain ⟨n, hn⟩ := exists_bound b1 b2
      refine ⟨hI2, n, fun m hm => ?_⟩
      unfold readDiff
      simp only [(hn m hm).1, (hn m hm).2, bind, Except.bind, pure, Except.pure]
      rfl

theorem goal_read {g : FullGoal} (h : Storable (.object g.checkedInputs) ∧ Storable (.object g.inputDiff.adds) ∧ Storable (.object g.inputDiff.ups) ∧
    Storable (.object g.outputDiff.adds) ∧ Storable (.object g.outputDiff.ups)) {s : σ} {w s'} (hI : I s) (hw : writeGoal J b enc g s = .ok (w, s')) :
    I s' ∧ ∃ n, ∀ m, n ≤ m → readGoal J m dec enc' w = .ok (keptGoal g) := by
  unfold writeGoal at hw
  simp only [bind, Except.bind, pure, Except.pure] at hw
  cases h1 : serializeKvs J b enc g.checkedInputs s with
  | error x => rw [h1] at hw; cases hw
  | ok r1 =>
    rw [h1] at hw
    simp only at hw
    cases h2 : writeDiff J b enc g.inputDiff r1.2 with
    | error x => rw [h2] at hw; cases hw
    | ok r2 =>
      rw [h2] at hw
      simp only at hw
      cases h3 : writeDiff J b enc g.outputDiff r2.2 with
      | error x => rw [h3] at hw; cases hw
      | ok r3 =>
        rw [h3] at hw
        cases hw
        obtain ⟨hI1, -, b1⟩ := props_read hJ h.1 ho henc hI h1
        obtain ⟨hI2, b2⟩ := diff_read hJ ho henc h.2.1 h.2.2.1 hI1 h2
        obtain ⟨hI3, b3⟩ := diff_read hJ ho henc h.2.2.2.1 h.2.2.2.2 hI2 h3
        obtain ⟨n, hn⟩ := exists_bound b1 (exists_bound b2 b3)
        refine ⟨hI3, n, fun m hm => ?_⟩
        unfold readGoal
        simp only [(hn m hm).1, (hn m hm).2.1, (hn m hm).2.2, bind, Except.bind, pure, Except.pure]
        rfl

omit hJ ho henc in
theorem opt_read {α β : Type} {f : α → σ → Except Err (β × σ)} {g : Nat → β → Except Err α} {k : α → α} {o : Option α}
    (h : ∀ a, o = some a → ∀ {s b s'}, I s → f a s = .ok (b, s') → I s' ∧ ∃ n, ∀ m, n ≤ m → g m b = .ok (k a)) {s : σ} {w s'} (hI : I s) (hw : writeOpt f o s = .ok (w, s')) :
    I s' ∧ ∃ n, ∀ m, n ≤ m → readOpt (g m) w = .ok (o.map k) := by
  cases o with
  | none => cases hw; exact ⟨hI, 0, fun _ _ => rfl⟩
  | some a =>
    simp only [writeOpt, bind, Except.bind, pure, Except.pure] at hw
    cases h1 : f a s with
    | error x => rw [h1] at hw; cases hw
    | ok r1 =>
      rw [h1] at hw
      cases hw
      obtain ⟨hI1, n, hn⟩ := h a rfl hI h1
      refine ⟨hI1, n, fun m hm => ?_⟩
      simp only [readOpt, hn m hm, bind, Except.bind, pure, Except.pure]
      rfl

theorem plan_read {p : ResourcePlan} (h : StorablePlan p) {s : σ} {w s'} (hI : I s) (hw : writeResourcePlan J b enc p s = .ok (w, s')) :
    I s' ∧ ∃ n, ∀ m, n ≤ m → readResourcePlan J m dec enc' w = .ok (keptPlan p) := by
  unfold writeResourcePlan at hw
  simp only [bind, Except.bind, pure, Except.pure] at hw
  cases h1 : writeOpt (serializeKvs J b enc) p.outputs s with
  | error x => rw [h1] at hw; cases hw
  | ok r1 =>
    rw [h1] at hw
    simp only at hw
    cases h2 : writeOpt (writeGoal J b enc) p.goal r1.2 with
    | error x => rw [h2] at hw; cases hw
    | ok r2 =>
      rw [h2] at hw
      cases hw
      obtain ⟨hI1, b1⟩ := opt_read (I := I) (g := fun m => eachProp (deserialize J m dec enc')) (k := keptProps)
        (fun a ha s x s' hs hx => by obtain ⟨a1, -, a2⟩ := props_read hJ (h.outputs a ha) ho henc hs hx; exact ⟨a1, a2⟩) hI h1
      obtain ⟨hI2, b2⟩ := opt_read (I := I) (g := fun m => readGoal J m dec enc') (k := keptGoal) (fun a ha s x s' hs hx => goal_read hJ ho henc (h.goal a ha) hs hx) hI1 h2
      obtain ⟨n, hn⟩ := exists_bound b1 b2
      refine ⟨hI2, n, fun m hm => ?_⟩
      unfold readResourcePlan
      simp only [(hn m hm).1, (hn m hm).2, bind, Except.bind, pure, Except.pure]
      rfl

/-- C203: a plan that was saved is read as the plan it was, but for what cannot be stored of unknown values and Outputs: the same resources with the same steps, the same goals
and the same seeds, in whichever order they were written. -/
theorem plans_come_back_partial {l : List (String × ResourcePlan)} (h : ∀ up ∈ l, StorablePlan up.2) {s : σ} {w s'} (hI : I s) (hw : writePlan J b enc l s = .ok (w, s')) :
    I s' ∧ ∃ n, ∀ m, n ≤ m → readPlan J m dec enc' w = .ok (l.map (fun up => (up.1, keptPlan up.2))) := by
  induction l generalizing s w s' with
  | nil => cases hw; exact ⟨hI, 0, fun _ _ => rfl⟩
  | cons up l ih =>
    obtain ⟨u, p⟩ := up
    simp only [writePlan, bind, Except.bind, pure, Except.pure] at hw
    cases h1 : writeResourcePlan J b enc p s with
    | error x => rw [h1] at hw; cases hw
    | ok r1 =>
      rw [h1] at hw
      simp only at hw
      cases h2 : writePlan J b enc l r1.2 with
      | error x => rw [h2] at hw; cases hw
      | ok r2 =>
        rw [h2] at hw
        cases hw
        obtain ⟨hI1, b1⟩ := plan_read hJ ho henc (h _ List.mem_cons_self) hI h1
        obtain ⟨hI2, b2⟩ := ih (fun up hup => h up (List.mem_cons_of_mem _ hup)) hI1 h2
        obtain ⟨n, hn⟩ := exists_bound b1 b2
        refine ⟨hI2, n, fun m hm => ?_⟩
        simp only [readPlan, (hn m hm).1, (hn m hm).2, bind, Except.bind, pure, Except.pure]
        rfl

end

/-! ## What is kept is enough for what is checked -/

theorem keptProps_map (kvs : List (String × EV)) : keptProps kvs = kvs.map (fun ke => (ke.1, Checkpoint.kept ke.2)) := by
  induction kvs with
  | nil => rfl
  | cons a l ih => obtain ⟨k, e⟩ := a; simp [keptProps, ih]

theorem keptProps_lookup (kvs : List (String × EV)) (k : String) : (keptProps kvs).lookup k = (kvs.lookup k).map Checkpoint.kept := by
  induction kvs with
  | nil => rfl
  | cons a l ih =>
    obtain ⟨k', e⟩ := a
    simp only [keptProps, List.lookup_cons]
    split <;> simp_all

theorem hasValue_kept {v : EV} (h : hasOut v = false) : hasValue (Checkpoint.kept v) = hasValue v := by cases v <;> first | rfl | simp [hasOut] at h
theorem isComputed_kept {v : EV} (h : hasOut v = false) : isComputed (Checkpoint.kept v) = isComputed v := by cases v <;> first | rfl | simp [hasOut] at h
theorem keptList_length (es : List EV) : (Checkpoint.keptList es).length = es.length := by induction es <;> simp_all [Checkpoint.keptList]

mutual
theorem eqU_kept (hash : Blob → Option String) : ∀ v w, hasOut v = false → eqU hash (Checkpoint.kept v) w = eqU hash v w
  | .null, w, _ => by cases w <;> rfl
  | .bool _, w, _ => by cases w <;> rfl
  | .num _, w, _ => by cases w <;> rfl
  | .str _, w, _ => by cases w <;> rfl
  | .blob _, w, _ => by cases w <;> rfl
  | .ref .., w, _ => by cases w <;> rfl
  | .computed _, w, _ => by cases w <;> simp [Checkpoint.kept, eqU]
  | .array es, w, h => by
    have := fun ws => eqUList_kept hash es ws (by simpa [hasOut] using h)
    cases w <;> simp [Checkpoint.kept, eqU, this, keptList_length]
  | .object kvs, w, h => by
    have := fun b => eqUKvs_kept hash kvs b (by simpa [hasOut] using h)
    cases w <;> simp [Checkpoint.kept, eqU, this, keptProps_lookup]
  | .secret v, w, h => by
    have := fun w => eqU_kept hash v w (by simpa [hasOut] using h)
    cases w <;> simp [Checkpoint.kept, eqU, this]
  | .output .., w, h => by simp [hasOut] at h
theorem eqUList_kept (hash : Blob → Option String) : ∀ vs ws, listHasOut vs = false → eqUList hash (Checkpoint.keptList vs) ws = eqUList hash vs ws
  | [], _, _ => rfl
  | v :: vs, ws, h => by
    simp only [listHasOut, Bool.or_eq_false_iff] at h
    cases ws with
    | nil => simp [Checkpoint.keptList, eqUList]
    | cons w ws => simp only [Checkpoint.keptList, eqUList, eqU_kept hash v w h.1, eqUList_kept hash vs ws h.2]
theorem eqUKvs_kept (hash : Blob → Option String) : ∀ a b, propsHaveOut a = false → eqUKvs hash (keptProps a) b = eqUKvs hash a b
  | [], _, _ => rfl
  | (k, v) :: a, b, h => by
    simp only [propsHaveOut, Bool.or_eq_false_iff] at h
    simp only [keptProps, eqUKvs, eqUKvs_kept hash a b h.2, hasValue_kept h.1, isComputed_kept h.1]
    cases b.lookup k with
    | none => rfl
    | some w => simp only [eqU_kept hash v w h.1]
end

theorem strays_kept (hash : Blob → Option String) {v : EV} (h : hasOut v = false) (o : Option EV) : strays hash (Checkpoint.kept v) o = strays hash v o := by
  cases o with
  | none => simp [strays, isComputed_kept h]
  | some w => simp [strays, eqU_kept hash v w h]

theorem out_of_lookup {l : List (String × EV)} (h : propsHaveOut l = false) {k : String} {v : EV} (hl : l.lookup k = some v) : hasOut v = false := by
  induction l with
  | nil => simp at hl
  | cons a l ih =>
    obtain ⟨k', e⟩ := a
    simp only [propsHaveOut, Bool.or_eq_false_iff] at h
    simp only [List.lookup_cons] at hl
    split at hl
    · cases hl; exact h.1
    · exact ih h.2 hl

theorem out_of_mem {l : List (String × EV)} (h : propsHaveOut l = false) {ke : String × EV} (hl : ke ∈ l) : hasOut ke.2 = false := by
  induction l with
  | nil => cases hl
  | cons a l ih =>
    obtain ⟨k', e⟩ := a
    simp only [propsHaveOut, Bool.or_eq_false_iff] at h
    cases hl with
    | head => exact h.1
    | tail _ hl => exact ih h.2 hl

theorem checkDiff_kept (hash : Blob → Option String) (olds news : List (String × EV)) (pd : PlanDiff) (ha : propsHaveOut pd.adds = false) (hu : propsHaveOut pd.ups = false) :
    checkDiff hash olds news (keptDiff pd) = checkDiff hash olds news pd := by
  unfold checkDiff keptDiff
  simp only [keptProps_lookup]
  congr 1
  congr 1
  congr 1
  · congr 1
    · congr 1
      · congr 1
        refine List.filter_congr (fun ka _ => ?_)
        cases hl : pd.adds.lookup ka.1 with
        | none => rfl
        | some v => simp [strays_kept hash (out_of_lookup ha hl)]
      · congr 1
        refine List.filter_congr (fun ka _ => ?_)
        cases hl : pd.ups.lookup ka.1 with
        | none => rfl
        | some v => simp [isComputed_kept (out_of_lookup hu hl)]
    · congr 1
      refine List.filter_congr (fun ka _ => ?_)
      cases hl : pd.ups.lookup ka.1 with
      | some v => simp [strays_kept hash (out_of_lookup hu hl)]
      | none =>
        cases hl' : pd.adds.lookup ka.1 with
        | none => rfl
        | some v => simp [strays_kept hash (out_of_lookup ha hl')]
  · rw [keptProps_map, List.filter_map, List.map_map]
    congr 1
    refine List.filter_congr (fun ke hke => ?_)
    simp [strays_kept hash (out_of_mem ha hke)]
  · rw [keptProps_map, List.filter_map, List.map_map]
    congr 1
    refine List.filter_congr (fun ke hke => ?_)
    simp [strays_kept hash (out_of_mem hu hke)]

/-- The plan of a resource with no Outputs in what its inputs and outputs come to -/
def PlanDiff.plain (d : PlanDiff) : Prop := propsHaveOut d.adds = false ∧ propsHaveOut d.ups = false

theorem keptGoal_check (hash : Blob → Option String) (olds news : List (String × EV)) (g : FullGoal) (h : g.inputDiff.plain) (goal : Goal) :
    checkGoal hash olds news (some (keptGoal g).toGoalPlan) goal = checkGoal hash olds news (some g.toGoalPlan) goal := by
  unfold checkGoal
  simp only [keptGoal, checkDiff_kept hash olds news g.inputDiff h.1 h.2]

/-- What the check of a registration (`checkGoal`) and that of the outputs (`checkOutputs`, deploy/plan.go:462-474, which panics if
the plan has no goal) say with a plan -/
def verdicts (hash : Blob → Option String) (p : ResourcePlan) (olds news : List (String × EV)) (goal : Goal) : Verdict × Option (List (String × Char)) :=
  (checkGoal hash olds news (p.goal.map (·.toGoalPlan)) goal, p.goal.map (fun g => checkDiff hash olds news g.outputDiff))

/-- C203: with a plan that was saved and read again, every registration is allowed or refused, for the same reason, as it is with the plan itself, and the outputs of the resource are
too; its steps are the same. `_partial`: not if there are Outputs in what the plan expects (`saved_plan_is_laxer`). -/
theorem saved_plan_allows_the_same_partial {J : Codec} (hJ : J.Faithful) {b : Bool} {σ : Type} {I : σ → Prop} {enc : Encrypter σ} {dec enc' : Decrypter} (ho : Opens J I enc dec)
    (henc : b = true → ∀ p, ∃ x, enc' p = .ok x) {l : List (String × ResourcePlan)} (h : ∀ up ∈ l, StorablePlan up.2)
    (hp : ∀ up ∈ l, ∀ g, up.2.goal = some g → g.inputDiff.plain ∧ g.outputDiff.plain) {s : σ} {w s'} (hI : I s) (hw : writePlan J b enc l s = .ok (w, s')) :
    ∃ n l', (∀ m, n ≤ m → readPlan J m dec enc' w = .ok l') ∧ l'.map (·.1) = l.map (·.1) ∧
      ∀ (i : Nat) (u : String) (p : ResourcePlan), l[i]? = some (u, p) → ∃ p', l'[i]? = some (u, p') ∧ p'.ops = p.ops ∧ p'.seed = p.seed ∧
        ∀ hash olds news goal, verdicts hash p' olds news goal = verdicts hash p olds news goal := by
  obtain ⟨-, n, hn⟩ := plans_come_back_partial hJ ho henc h hI hw
  refine ⟨n, _, hn, by simp, fun i u p hi => ⟨keptPlan p, by simp [hi], rfl, rfl, fun hash olds news goal => ?_⟩⟩
  have hg := hp _ (List.mem_of_getElem? hi)
  simp only at hg
  unfold verdicts keptPlan
  cases hpg : p.goal with
  | none => rfl
  | some g =>
    have h2 := hg g hpg
    simp only [Option.map_some, keptGoal_check hash olds news g h2.1, Prod.mk.injEq, true_and, Option.some.injEq]
    exact checkDiff_kept hash olds news g.outputDiff h2.2.1 h2.2.2

/-! ## Secrets are not told -/

/-- Two diffs that are the same but for what is in their secrets -/
structure SameDiff (d d' : PlanDiff) : Prop where
  adds : SamePublic (.object d.adds) (.object d'.adds)
  dels : d.dels = d'.dels
  ups : SamePublic (.object d.ups) (.object d'.ups)

/-- Two goals that are the same but for what is in their secrets -/
structure SameGoal (g g' : FullGoal) : Prop where
  checked : SamePublic (.object g.checkedInputs) (.object g'.checkedInputs)
  ins : SameDiff g.inputDiff g'.inputDiff
  outs : SameDiff g.outputDiff g'.outputDiff
  rest : { g with checkedInputs := [], inputDiff := ⟨[], [], []⟩, outputDiff := ⟨[], [], []⟩ } = { g' with checkedInputs := [], inputDiff := ⟨[], [], []⟩, outputDiff := ⟨[], [], []⟩ }

/-- Both are there, and related, or neither is -/
inductive Both {α : Type} (R : α → α → Prop) : Option α → Option α → Prop
  | none : Both R none none
  | some {a a'} : R a a' → Both R (some a) (some a')

/-- Two plans that are the same but for what is in their secrets -/
structure SamePlan (p p' : ResourcePlan) : Prop where
  goal : Both SameGoal p.goal p'.goal
  seed : p.seed = p'.seed
  ops : p.ops = p'.ops
  outputs : Both (fun o o' => SamePublic (.object o) (.object o')) p.outputs p'.outputs

section
variable {σ : Type} {enc : Encrypter σ} (ht : Tight enc) (J : Codec)
include ht

theorem kvs_not_told {o o' : List (String × EV)} (h : SamePublic (.object o) (.object o')) (s : σ) : serializeKvs J false enc o s = serializeKvs J false enc o' s := by
  have := Checkpoint.secrets_are_not_told J enc ht _ _ h s
  simp only [Checkpoint.serialize, bind, Except.bind, pure, Except.pure] at this
  cases h1 : serializeKvs J false enc o s <;> cases h2 : serializeKvs J false enc o' s <;> simp_all
  exact Prod.ext this.1 this.2

theorem diff_not_told {d d' : PlanDiff} (h : SameDiff d d') (s : σ) : writeDiff J false enc d s = writeDiff J false enc d' s := by
  unfold writeDiff
  simp only [kvs_not_told ht J h.adds, kvs_not_told ht J h.ups, h.dels]

theorem goal_not_told {g g' : FullGoal} (h : SameGoal g g') (s : σ) : writeGoal J false enc g s = writeGoal J false enc g' s := by
  have h1 := h.rest
  obtain ⟨⟨⟩, _, _⟩ := g
  obtain ⟨⟨⟩, _, _⟩ := g'
  simp only [FullGoal.mk.injEq, GoalPlan.mk.injEq, and_true, true_and] at h1
  unfold writeGoal
  simp only [kvs_not_told ht J h.checked, diff_not_told ht J h.ins, diff_not_told ht J h.outs, h1]

omit ht in
theorem opt_not_told {α β : Type} {R : α → α → Prop} {f : α → σ → Except Err (β × σ)} (hf : ∀ a a' s, R a a' → f a s = f a' s) {o o' : Option α} (h : Both R o o') (s : σ) :
    writeOpt f o s = writeOpt f o' s := by
  cases h with
  | none => rfl
  | some h => simp only [writeOpt, hf _ _ _ h]

/-- C203: nothing of the secrets of a plan is in its file, but what the encrypter gives: two plans that are the same but for what is in their secrets are written alike by an encrypter
that tells nothing of the texts. -/
theorem plan_secrets_are_not_told {l l' : List (String × ResourcePlan)} (hl : l.length = l'.length)
    (h : ∀ (i : Nat) (up up' : String × ResourcePlan), l[i]? = some up → l'[i]? = some up' → up.1 = up'.1 ∧ SamePlan up.2 up'.2) (s : σ) :
    writePlan J false enc l s = writePlan J false enc l' s := by
  induction l generalizing l' s with
  | nil => cases l' with | nil => rfl | cons => simp at hl
  | cons a l ih =>
    cases l' with
    | nil => simp at hl
    | cons a' l' =>
      obtain ⟨u, p⟩ := a
      obtain ⟨u', p'⟩ := a'
      obtain ⟨h1, h2⟩ := h 0 _ _ rfl rfl
      simp only at h1 h2
      subst h1
      have hw : ∀ s, writeResourcePlan J false enc p s = writeResourcePlan J false enc p' s := by
        intro s
        have e1 : ∀ s, writeOpt (serializeKvs J false enc) p.outputs s = writeOpt (serializeKvs J false enc) p'.outputs s :=
          fun s => opt_not_told (R := fun o o' => SamePublic (.object o) (.object o')) (fun a a' s hh => kvs_not_told ht J hh s) h2.outputs s
        have e2 : ∀ s, writeOpt (writeGoal J false enc) p.goal s = writeOpt (writeGoal J false enc) p'.goal s :=
          fun s => opt_not_told (R := SameGoal) (fun a a' s hh => goal_not_told ht J hh s) h2.goal s
        unfold writeResourcePlan
        simp only [e1, e2, h2.seed, h2.ops]
      have hi : ∀ s, writePlan J false enc l s = writePlan J false enc l' s :=
        fun s => ih (by simpa using hl) (fun i up up' e e' => h (i + 1) up up' (by simpa using e) (by simpa using e')) s
      simp only [writePlan, hw, hi]

end

/-! ## It is met, and what is not kept -/

open Pulumi.Checkpoint (jsonCodec json_faithful counting countingDec counting_opens)

/-- A bucket that is updated: a password that is not known yet, a tag, and one property that goes -/
def plannedBucket : ResourcePlan :=
  ⟨some { type := "aws:s3:Bucket", name := "b", custom := true, inputDiff := ⟨[("password", .secret (.computed (.str "")))], ["acl"], [("tags", .array [.str "x", .num 2])]⟩, parent := "urn:p",
          protect := true, deps := ["urn:d"], provider := [], propDeps := [("tags", ["urn:d"])], dbr := some false, ignoreChanges := [], secretOutputs := ["password"], aliases := [], id := "",
          timeouts := (1, 0, 0), checkedInputs := [("tags", .array [.str "x", .num 2])], outputDiff := ⟨[("arn", .computed (.str ""))], [], []⟩ },
   [1, 2], [.update], some [("arn", .computed (.str ""))]⟩

/-- A resource that goes: there is no goal. -/
def plannedDelete : ResourcePlan := ⟨none, [], [.delete], none⟩

theorem plannedBucket_storable : StorablePlan plannedBucket := by
  refine ⟨fun o ho => ?_, fun g hg => ?_⟩
  · cases ho
    exact .object (by decide) (fun kv hkv => by simp at hkv; subst hkv; exact .computed _)
  · cases hg
    refine ⟨.object (by decide) (fun kv hkv => ?_), .object (by decide) (fun kv hkv => ?_), .object (by decide) (fun kv hkv => ?_), .object (by decide) (fun kv hkv => ?_),
      .object (by decide) (fun kv hkv => by cases hkv)⟩ <;> simp at hkv <;> subst hkv
    · exact .array (fun e he => by simp at he; rcases he with rfl | rfl; exact .str (by decide); exact .num _)
    · exact .secret (.computed _)
    · exact .array (fun e he => by simp at he; rcases he with rfl | rfl; exact .str (by decide); exact .num _)
    · exact .computed _

theorem plannedDelete_storable : StorablePlan plannedDelete := ⟨fun _ h => (by cases h), fun _ h => (by cases h)⟩

set_option maxRecDepth 100000 in
/-- The two plans meet what the theorems ask. -/
example : ∃ w s', writePlan jsonCodec false counting [("urn:b", plannedBucket), ("urn:c", plannedDelete)] 0 = .ok (w, s') ∧
    ∃ n l', (∀ m, n ≤ m → readPlan jsonCodec m countingDec (fun _ => .error .json) w = .ok l') ∧ l'.map (·.1) = ["urn:b", "urn:c"] := by
  have hs : ∃ w s', writePlan jsonCodec false counting [("urn:b", plannedBucket), ("urn:c", plannedDelete)] 0 = .ok (w, s') := ⟨_, _, rfl⟩
  obtain ⟨w, s', h⟩ := hs
  refine ⟨w, s', h, ?_⟩
  obtain ⟨n, l', h1, h2, -⟩ := saved_plan_allows_the_same_partial json_faithful (counting_opens jsonCodec) (enc' := fun _ => .error .json) (fun h => by cases h)
    (fun up hup => by simp at hup; rcases hup with rfl | rfl; exact plannedBucket_storable; exact plannedDelete_storable)
    (fun up hup g hg => by
      simp at hup
      rcases hup with rfl | rfl
      · cases hg; exact ⟨⟨rfl, rfl⟩, rfl, rfl⟩
      · cases hg) (s := 0) trivial h
  exact ⟨n, l', h1, h2⟩

/-- What a component in another language may ask for: an Output -/
def plannedOutput : ResourcePlan :=
  ⟨some { type := "t", name := "b", custom := false, inputDiff := ⟨[("x", .output (.str "planned") true false [])], [], []⟩, parent := "", protect := false, deps := [], provider := [], propDeps := [],
          dbr := none, ignoreChanges := [], secretOutputs := [], aliases := [], id := "", timeouts := (0, 0, 0), checkedInputs := [], outputDiff := ⟨[], [], []⟩ },
   [], [.create], none⟩

/-- C203, not in full: a plan in which an Output is expected refuses another value before it is saved, and allows every value when it is read again, as the Output is an unknown value
in the file. -/
theorem saved_plan_is_laxer :
    (∀ hash, (verdicts hash plannedOutput [] [("x", .output (.str "other") true false [])] { type := "t", name := "b", custom := false }).1 = .refused "properties changed") ∧
    ∃ w s', writePlan jsonCodec false counting [("urn:b", plannedOutput)] 0 = .ok (w, s') ∧
      ∃ p', readPlan jsonCodec 9 countingDec countingDec w = .ok [("urn:b", p')] ∧
        ∀ hash v, (verdicts hash p' [] [("x", .str v)] { type := "t", name := "b", custom := false }).1 = .ok :=
  ⟨fun hash => by rfl, _, _, rfl, _, rfl, fun hash v => by rfl⟩

/-- Two plans with different passwords that an encrypter that tells nothing writes alike -/
example : Tight Checkpoint.blinding ∧ SamePlan ⟨none, [], [.create], some [("p", .secret (.str "a"))]⟩ ⟨none, [], [.create], some [("p", .secret (.str "b"))]⟩ ∧
    ∃ w s', writePlan jsonCodec false Checkpoint.blinding [("u", ⟨none, [], [.create], some [("p", .secret (.str "a"))]⟩)] () = .ok (w, s') :=
  ⟨fun _ _ _ => rfl, ⟨.none, rfl, rfl, .some (.entry (.secret _ _) (.refl _))⟩, _, _, rfl⟩

end Pulumi.Plan
