import Verif.Events.Lemmas

namespace Pulumi.Events

/-- The parts of the outer object, named. -/
theorem eventOf_obj (fs : List (Text × J)) (a1 a2 a3 a4 a5 a6 a7 a8)
    (h1 : ifPresent (get fs "stdoutEvent".toList) stdoutOf = .ok a1)
    (h2 : ifPresent (get fs "diagnosticEvent".toList) (fun d => .ok (diagnosticOf d)) = .ok a2)
    (h3 : ifPresent (get fs "preludeEvent".toList) preludeOf = .ok a3)
    (h4 : ifPresent (get fs "summaryEvent".toList) (fun d => .ok (summaryOf d)) = .ok a4)
    (h5 : ifPresent (get fs "resourcePreEvent".toList) resStepOf = .ok a5)
    (h6 : ifPresent (get fs "resOutputsEvent".toList) resStepOf = .ok a6)
    (h7 : ifPresent (get fs "resOpFailedEvent".toList) resFailedOf = .ok a7)
    (h8 : ifPresent (get fs "policyEvent".toList) (fun d => .ok (policyOf d)) = .ok a8) :
    eventOf (.obj fs) = .ok {
      sequence := getD fs "sequence".toList (.num 0)
      timestamp := getD fs "timestamp".toList (.num 0)
      cancel := (field fs "cancelEvent".toList).isSome
      stdout := a1, diagnostic := a2, prelude := a3, summary := a4, resourcePre := a5,
      resOutputs := a6, resOpFailed := a7, policy := a8 } := by
  simp only [eventOf, asDict, h1, h2, h3, h4, h5, h6, h7, h8, bind, Except.bind]

/-- The fields of the event's object. -/
abbrev outer (e : ApiEvent) : List (Text × J) :=
  [always "sequence" (.num e.sequence), always "timestamp" (.num e.timestamp), e.payload.json]

theorem outer_sequence (e : ApiEvent) : getD (outer e) "sequence".toList (.num 0) = .num e.sequence := by
  simp only [getD, field_always, if_true, Option.getD_some]

theorem outer_timestamp (e : ApiEvent) :
    getD (outer e) "timestamp".toList (.num 0) = .num e.timestamp := by
  simp only [getD, field_always, String.reduceEq, if_true, if_false, Option.getD_some]

theorem outer_get (e : ApiEvent) (k key : String) (v : J) (hp : e.payload.json = always k v)
    (hs : key ≠ "sequence") (ht : key ≠ "timestamp") :
    get (outer e) key.toList = if k = key then v else .null := by
  simp only [get, getD, event_field e key hs ht, hp, always, String.toList_inj]
  by_cases h : k = key <;> simp [h]

theorem outer_cancel (e : ApiEvent) (k : String) (v : J) (hp : e.payload.json = always k v) :
    (field (outer e) "cancelEvent".toList).isSome = decide (k = "cancelEvent") := by
  rw [event_field e "cancelEvent" (by decide) (by decide)]
  simp only [hp, always, String.toList_inj]
  by_cases h : k = "cancelEvent" <;> simp [h]

/-- The event's object parses if its payload does; every other field is absent. -/
theorem eventOf_json (e : ApiEvent) (k : String) (v : J) (hp : e.payload.json = always k v)
    (a1 a2 a3 a4 a5 a6 a7 a8)
    (h1 : ifPresent (if k = "stdoutEvent" then v else .null) stdoutOf = .ok a1)
    (h2 : ifPresent (if k = "diagnosticEvent" then v else .null)
      (fun d => .ok (diagnosticOf d)) = .ok a2)
    (h3 : ifPresent (if k = "preludeEvent" then v else .null) preludeOf = .ok a3)
    (h4 : ifPresent (if k = "summaryEvent" then v else .null)
      (fun d => .ok (summaryOf d)) = .ok a4)
    (h5 : ifPresent (if k = "resourcePreEvent" then v else .null) resStepOf = .ok a5)
    (h6 : ifPresent (if k = "resOutputsEvent" then v else .null) resStepOf = .ok a6)
    (h7 : ifPresent (if k = "resOpFailedEvent" then v else .null) resFailedOf = .ok a7)
    (h8 : ifPresent (if k = "policyEvent" then v else .null)
      (fun d => .ok (policyOf d)) = .ok a8) :
    eventOf e.json = .ok {
      sequence := .num e.sequence, timestamp := .num e.timestamp,
      cancel := decide (k = "cancelEvent"),
      stdout := a1, diagnostic := a2, prelude := a3, summary := a4, resourcePre := a5,
      resOutputs := a6, resOpFailed := a7, policy := a8 } := by
  have := eventOf_obj (outer e) a1 a2 a3 a4 a5 a6 a7 a8
    (by rw [outer_get e k "stdoutEvent" v hp (by decide) (by decide)]; exact h1)
    (by rw [outer_get e k "diagnosticEvent" v hp (by decide) (by decide)]; exact h2)
    (by rw [outer_get e k "preludeEvent" v hp (by decide) (by decide)]; exact h3)
    (by rw [outer_get e k "summaryEvent" v hp (by decide) (by decide)]; exact h4)
    (by rw [outer_get e k "resourcePreEvent" v hp (by decide) (by decide)]; exact h5)
    (by rw [outer_get e k "resOutputsEvent" v hp (by decide) (by decide)]; exact h6)
    (by rw [outer_get e k "resOpFailedEvent" v hp (by decide) (by decide)]; exact h7)
    (by rw [outer_get e k "policyEvent" v hp (by decide) (by decide)]; exact h8)
  rw [outer_sequence, outer_timestamp, outer_cancel e k v hp] at this
  exact this

theorem stdout_present (s : ApiStdout) :
    ifPresent s.json stdoutOf = .ok (some ⟨.str s.message, .str s.color⟩) := by
  refine ifPresent_obj _ _ _ rfl rfl _ ?_
  simp [stdoutOf, always]

theorem prelude_present (c : Option (List (Text × J))) :
    ifPresent (.obj [always "config" (mapJ c)]) preludeOf = .ok (some ⟨mapJ c⟩) := by
  refine ifPresent_obj _ _ _ rfl rfl _ ?_
  simp [preludeOf, always]

theorem json_obj_diagnostic (d : ApiDiagnostic) : ∃ fs, d.json = .obj fs := ⟨_, rfl⟩
theorem json_obj_policy (d : ApiPolicy) : ∃ fs, d.json = .obj fs := ⟨_, rfl⟩
theorem json_obj_summary (d : ApiSummary) : ∃ fs, d.json = .obj fs := ⟨_, rfl⟩
theorem json_obj_step (d : ApiStep) : ∃ fs, d.json = .obj fs := ⟨_, rfl⟩

theorem metadata_get (m : ApiStep) (r : List (Text × J)) (p : Step) (x : Except Exn Step)
    (fs : List (Text × J)) (hm : m.json = .obj fs) (hx : stepOf fs = x) :
    metadataOf (always "metadata" m.json :: r) = x := by
  simp only [metadataOf, getD, field_always, if_true, Option.getD_some]
  rw [hm]
  simp only [asDict, hx]

theorem planning_get (m : ApiStep) (b : Bool) :
    get (always "metadata" m.json :: omitIf (!b) "planning" (.bool b)) "planning".toList
      = optBool b := by
  simp only [get, getD, field_always, field_omit, String.reduceEq, if_false]
  cases b <;> rfl

theorem resStep_present (m : ApiStep) (b : Bool) (ho : ∃ o ∈ engineOps, m.op = o.toList) :
    ∃ q, ifPresent (.obj (always "metadata" m.json :: omitIf (!b) "planning" (.bool b))) resStepOf
        = .ok (some ⟨q, optBool b⟩) ∧ StepShown (stripStep m) q := by
  obtain ⟨fs, hfs⟩ := json_obj_step m
  obtain ⟨q, hq, hs⟩ := step_shown m fs hfs ho
  refine ⟨q, ifPresent_obj _ _ _ rfl rfl _ ?_, hs⟩
  simp only [resStepOf, metadata_get m _ q _ fs hfs hq, planning_get]

theorem resFailed_present (m : ApiStep) (a b : Int) (ho : ∃ o ∈ engineOps, m.op = o.toList) :
    ∃ q, ifPresent (.obj [always "metadata" m.json, always "status" (.num a),
        always "steps" (.num b)]) resFailedOf
        = .ok (some ⟨q, .num a, .num b⟩) ∧ StepShown (stripStep m) q := by
  obtain ⟨fs, hfs⟩ := json_obj_step m
  obtain ⟨q, hq, hs⟩ := step_shown m fs hfs ho
  refine ⟨q, ifPresent_obj _ _ _ rfl rfl _ ?_, hs⟩
  simp only [resFailedOf, metadata_get m _ q _ fs hfs hq, getD, field_always, String.reduceEq,
    if_false, if_true, Option.getD_some]

/-- Every event of the engine parses, and shows all but the three fields. -/
theorem event_parses (e : ApiEvent) (ho : KnownOp e.payload) :
    ∃ p, eventOf e.json = .ok p ∧ Shown (strip e) p := by
  obtain ⟨s, t, pl⟩ := e
  cases pl with
  | cancel =>
    exact ⟨_, eventOf_json ⟨s, t, .cancel⟩ _ _ rfl _ _ _ _ _ _ _ _ rfl rfl rfl rfl rfl rfl rfl rfl,
      rfl⟩
  | stdout x =>
    exact ⟨_, eventOf_json ⟨s, t, .stdout x⟩ _ _ rfl _ _ _ _ _ _ _ _ (stdout_present x)
      rfl rfl rfl rfl rfl rfl rfl, rfl⟩
  | diagnostic d =>
    obtain ⟨fs, hfs⟩ := json_obj_diagnostic d
    have hd := diagnostic_shown d fs hfs
    exact ⟨_, eventOf_json ⟨s, t, .diagnostic d⟩ _ _ rfl _ _ _ _ _ _ _ _ rfl
      (ifPresent_obj _ fs _ hfs hd.1 _ rfl) rfl rfl rfl rfl rfl rfl, _, rfl, hd.2⟩
  | prelude c =>
    exact ⟨_, eventOf_json ⟨s, t, .prelude c⟩ _ _ rfl _ _ _ _ _ _ _ _ rfl rfl (prelude_present c)
      rfl rfl rfl rfl rfl, rfl⟩
  | summary d =>
    obtain ⟨fs, hfs⟩ := json_obj_summary d
    have hd := summary_shown d fs hfs
    exact ⟨_, eventOf_json ⟨s, t, .summary d⟩ _ _ rfl _ _ _ _ _ _ _ _ rfl rfl rfl
      (ifPresent_obj _ fs _ hfs hd.1 _ rfl) rfl rfl rfl rfl, _, rfl, hd.2⟩
  | resourcePre m b =>
    obtain ⟨q, hq, hs⟩ := resStep_present m b ho
    exact ⟨_, eventOf_json ⟨s, t, .resourcePre m b⟩ _ _ rfl _ _ _ _ _ _ _ _ rfl rfl rfl rfl hq
      rfl rfl rfl, _, rfl, hs⟩
  | resOutputs m b =>
    obtain ⟨q, hq, hs⟩ := resStep_present m b ho
    exact ⟨_, eventOf_json ⟨s, t, .resOutputs m b⟩ _ _ rfl _ _ _ _ _ _ _ _ rfl rfl rfl rfl rfl hq
      rfl rfl, _, rfl, hs⟩
  | resOpFailed m a b =>
    obtain ⟨q, hq, hs⟩ := resFailed_present m a b ho
    exact ⟨_, eventOf_json ⟨s, t, .resOpFailed m a b⟩ _ _ rfl _ _ _ _ _ _ _ _ rfl rfl rfl rfl rfl
      rfl hq rfl, _, rfl, hs⟩
  | policy d =>
    obtain ⟨fs, hfs⟩ := json_obj_policy d
    have hd := policy_shown d fs hfs
    exact ⟨_, eventOf_json ⟨s, t, .policy d⟩ _ _ rfl _ _ _ _ _ _ _ _ rfl rfl rfl rfl rfl rfl rfl
      (ifPresent_obj _ fs _ hfs hd.1 _ rfl), _, rfl, hd.2⟩

end Pulumi.Events
