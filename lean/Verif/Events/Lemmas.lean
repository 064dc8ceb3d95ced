import Verif.Events.Spec

namespace Pulumi.Events

theorem field_append (a b : List (Text × J)) (k : Text) :
    field (a ++ b) k = (field a k).or (field b k) := by
  induction a with
  | nil => simp [field]
  | cons x r ih =>
    obtain ⟨k', v⟩ := x
    simp only [List.cons_append, field]
    by_cases h : k' = k
    · simp [h]
    · simp [h, ih]

theorem field_omit (z : Bool) (k : String) (v : J) (key : String) :
    field (omitIf z k v) key.toList = if z = false ∧ k = key then some v else none := by
  cases z <;> simp [omitIf, field, String.toList_inj]

theorem field_always (k : String) (v : J) (r : List (Text × J)) (key : String) :
    field (always k v :: r) key.toList = if k = key then some v else field r key.toList := by
  simp [always, field, String.toList_inj]

theorem field_nil (key : Text) : field [] key = none := rfl

theorem truthy_obj_cons (x : Text × J) (r : List (Text × J)) : truthy (.obj (x :: r)) = true := rfl

theorem diagnostic_shown (d : ApiDiagnostic) (fs : List (Text × J)) (h : d.json = .obj fs) :
    truthy d.json = true ∧ DiagnosticShown { d with streamID := 0 } (diagnosticOf fs) := by
  have hf : fs = _ := (J.obj.inj h).symm
  constructor
  · simp [ApiDiagnostic.json, truthy]
  · subst hf
    simp only [DiagnosticShown, diagnosticOf, get, getD, field_append, field_omit, field_always,
      field_nil]
    simp
    refine ⟨?_, ?_, ?_, ?_⟩
    · rfl
    · cases d.ephemeral <;> rfl
    · cases d.urn <;> simp [optStr]
    · cases d.prefix <;> simp [optStr]

theorem policy_shown (d : ApiPolicy) (fs : List (Text × J)) (h : d.json = .obj fs) :
    truthy d.json = true ∧ PolicyShown { d with resourceURN := [] } (policyOf fs) := by
  have hf : fs = _ := (J.obj.inj h).symm
  constructor
  · simp [ApiPolicy.json, truthy]
  · subst hf
    simp only [PolicyShown, policyOf, get, getD, field_append, field_omit, field_always,
      field_nil, String.reduceEq, and_false, if_false, if_true, Option.none_or,
      Option.getD_some, Option.getD_none, optStr, and_true]

theorem summary_shown (d : ApiSummary) (fs : List (Text × J)) (h : d.json = .obj fs) :
    truthy d.json = true ∧ SummaryShown d (summaryOf fs) := by
  have hf : fs = _ := (J.obj.inj h).symm
  constructor
  · simp [ApiSummary.json, truthy]
  · subst hf
    simp only [SummaryShown, summaryOf, getD, field_always]
    simp

theorem state_shown (d : ApiState) (fs : List (Text × J)) (h : d.json = .obj fs) :
    truthy d.json = true ∧ StateShown d (stepStateOf fs) := by
  have hf : fs = _ := (J.obj.inj h).symm
  constructor
  · simp [ApiState.json, truthy]
  · subst hf
    simp only [StateShown, stepStateOf, get, getD, field_append, field_omit, field_always,
      field_nil]
    simp
    refine ⟨?_, ?_, ?_, ?_⟩
    · cases d.custom <;> rfl
    · cases d.delete <;> rfl
    · cases d.protect <;> rfl
    · cases d.initErrors <;> simp [optStrs]

theorem state_if (o : Option ApiState) :
    ∃ p, stateIf (stateJson o) = .ok p ∧ OptShown o p := by
  cases o with
  | none => exact ⟨none, rfl, trivial⟩
  | some s =>
    cases hj : s.json with
    | obj fs =>
      have := state_shown s fs hj
      refine ⟨some (stepStateOf fs), ?_, this.2⟩
      simp only [stateIf, stateJson, this.1, if_true]
      rw [hj]; rfl
    | _ => simp [ApiState.json] at hj

theorem op_known (s : Text) (h : ∃ o ∈ engineOps, s = o.toList) :
    ∃ p, opOf (.str s) = .ok p ∧ p.value.toList = s := by
  have hf : (Op.members.find? (fun o => o.value.toList = s)).isSome := by
    obtain ⟨o, ho, rfl⟩ := h
    rw [List.find?_isSome]
    simp only [decide_eq_true_eq, String.toList_inj]
    revert o
    decide
  obtain ⟨p, hp⟩ := Option.isSome_iff_exists.mp hf
  refine ⟨p, by simp only [opOf, hp], ?_⟩
  simpa using List.find?_some hp

theorem op_unknown (s : Text) (h : ¬ ∃ o ∈ engineOps, s = o.toList) :
    opOf (.str s) = .error .value := by
  have hf : Op.members.find? (fun o => o.value.toList = s) = none := by
    rw [List.find?_eq_none]
    intro o _ ho
    apply h
    refine ⟨o.value, ?_, (of_decide_eq_true ho).symm⟩
    cases o <;> decide
  simp only [opOf, hf]

theorem step_fields (m : ApiStep) (fs : List (Text × J)) (h : m.json = .obj fs) :
    field fs "op".toList = some (.str m.op)
    ∧ field fs "urn".toList = some (.str m.urn)
    ∧ field fs "type".toList = some (.str m.type)
    ∧ field fs "provider".toList = some (.str m.provider)
    ∧ field fs "old".toList = some (stateJson m.old)
    ∧ field fs "new".toList = some (stateJson m.new)
    ∧ get fs "keys".toList = optStrs m.keys
    ∧ get fs "diffs".toList = optStrs m.diffs
    ∧ get fs "detailed_diff".toList = .null
    ∧ get fs "logical".toList = optBool m.logical := by
  have hf : fs = _ := (J.obj.inj h).symm
  subst hf
  simp only [get, getD, field_append, field_omit, field_always, field_nil]
  simp
  refine ⟨?_, ?_, ?_⟩
  · cases m.keys <;> simp [optStrs]
  · cases m.diffs <;> simp [optStrs]
  · cases m.logical <;> rfl

theorem step_shown (m : ApiStep) (fs : List (Text × J)) (h : m.json = .obj fs)
    (ho : ∃ o ∈ engineOps, m.op = o.toList) :
    ∃ p, stepOf fs = .ok p ∧ StepShown (stripStep m) p := by
  obtain ⟨h1, h2, h3, h4, h5, h6, h7, h8, h9, h10⟩ := step_fields m fs h
  obtain ⟨op, hop, hopv⟩ := op_known m.op ho
  obtain ⟨old, hold, holds⟩ := state_if m.old
  obtain ⟨new, hnew, hnews⟩ := state_if m.new
  simp only [stepOf, getD, get, h1, h5, h6, Option.getD_some, hop, hold, hnew]
  refine ⟨_, rfl, hopv, ?_, ?_, ?_, holds, hnews, h7, h8, h9, h10⟩
  · rw [h2]; rfl
  · rw [h3]; rfl
  · rw [h4]; rfl

theorem step_unknown (m : ApiStep) (fs : List (Text × J)) (h : m.json = .obj fs)
    (ho : ¬ ∃ o ∈ engineOps, m.op = o.toList) : stepOf fs = .error .value := by
  obtain ⟨h1, _⟩ := step_fields m fs h
  simp only [stepOf, getD, h1, Option.getD_some, op_unknown m.op ho]

/-- The fields of the outer object: only those of its own payload are set. -/
theorem event_field (e : ApiEvent) (key : String)
    (hs : key ≠ "sequence") (ht : key ≠ "timestamp") :
    field [always "sequence" (.num e.sequence), always "timestamp" (.num e.timestamp),
        e.payload.json] key.toList
      = if e.payload.json.1 = key.toList then some e.payload.json.2 else none := by
  simp only [field_always]
  rw [if_neg (Ne.symm hs), if_neg (Ne.symm ht)]
  rfl

theorem ifPresent_absent {α : Type} (f : List (Text × J) → Except Exn α) :
    ifPresent .null f = .ok none := rfl

theorem ifPresent_obj {α : Type} (f : List (Text × J) → Except Exn α) (fs : List (Text × J))
    (v : J) (hv : v = .obj fs) (ht : truthy v = true) (a : α) (h : f fs = .ok a) :
    ifPresent v f = .ok (some a) := by
  subst hv
  simp only [ifPresent, ht, if_true, asDict, h]

theorem ifPresent_error {α : Type} (f : List (Text × J) → Except Exn α) (fs : List (Text × J))
    (v : J) (hv : v = .obj fs) (ht : truthy v = true) (x : Exn) (h : f fs = .error x) :
    ifPresent v f = .error x := by
  subst hv
  simp only [ifPresent, ht, if_true, asDict, h]

end Pulumi.Events
