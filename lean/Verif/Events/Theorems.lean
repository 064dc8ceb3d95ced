import Verif.Events.Parse
import Verif.Events.Watching

/-!
# Properties of engine events and their delivery (C76 to C79)
-/

namespace Pulumi.Events

/-! ## Samples -/

/-- A step with a detailed diff. -/
def sampleStep : ApiStep where
  op := "update".toList
  urn := "urn:x".toList
  type := "t:m:T".toList
  old := none
  new := some { type := "t:m:T".toList, urn := "urn:x".toList, custom := true, delete := false,
                id := "i".toList, parent := [], protect := false, inputs := some [],
                outputs := none, provider := [], initErrors := [] }
  keys := []
  diffs := ["a".toList]
  detailedDiff := [("a".toList, ⟨"update".toList, true⟩)]
  logical := true
  provider := []

/-- A diagnostic on a stream of its own. -/
def sampleDiagnostic : ApiDiagnostic :=
  ⟨"urn:x".toList, [], "m".toList, "never".toList, "info".toList, 3, false⟩

/-- A policy violation of a resource. -/
def samplePolicy : ApiPolicy :=
  ⟨"urn:x".toList, "m".toList, "never".toList, "p".toList, "pack".toList, "1".toList, "1".toList,
   "mandatory".toList⟩

/-- A summary with one change. -/
def sampleSummary : ApiSummary := ⟨false, 5, some [("create".toList, .num 2)], some []⟩

/-- The engine's events of a small preview. -/
def sampleEvents : List ApiEvent :=
  [⟨0, 1, .summary sampleSummary⟩, ⟨1, 1, .cancel⟩]

/-- The lines the engine writes for them. -/
def line0 : Text :=
  "{\"sequence\":0,\"timestamp\":1,\"summaryEvent\":{\"maybeCorrupt\":false}}".toList
def line1 : Text := "{\"sequence\":1,\"timestamp\":1,\"cancelEvent\":{}}".toList

/-- `json.loads` on the texts that occur. -/
def sampleLoads (t : Text) : Except Exn J :=
  if t = line0 ∨ t = line0 ++ ['\n'] then .ok (ApiEvent.json ⟨0, 1, .summary sampleSummary⟩)
  else if t = line1 ∨ t = line1 ++ ['\n'] then .ok (ApiEvent.json ⟨1, 1, .cancel⟩)
  else .error .value

def sampleWorld : World := ⟨sampleLoads, fun _ => false⟩

theorem loads0 (t : Text) (h : t = line0 ∨ t = line0 ++ ['\n']) :
    sampleWorld.loads t = .ok (ApiEvent.json ⟨0, 1, .summary sampleSummary⟩) := by
  simp only [sampleWorld, sampleLoads]; exact if_pos h

theorem loads1 (t : Text) (h0 : ¬ (t = line0 ∨ t = line0 ++ ['\n']))
    (h : t = line1 ∨ t = line1 ++ ['\n']) :
    sampleWorld.loads t = .ok (ApiEvent.json ⟨1, 1, .cancel⟩) := by
  simp only [sampleWorld, sampleLoads]; exact (if_neg h0).trans (if_pos h)

theorem loads2 (t : Text) (h0 : ¬ (t = line0 ∨ t = line0 ++ ['\n']))
    (h : ¬ (t = line1 ∨ t = line1 ++ ['\n'])) :
    sampleWorld.loads t = .error .value := by
  simp only [sampleWorld, sampleLoads]; exact (if_neg h0).trans (if_neg h)

theorem short_rejected (l l' p : Text) (hp : p <+: l) (hne : p ≠ l) (h1 : ¬ l' <+: l)
    (h2 : ¬ (l' ++ ['\n']) <+: l) :
    ¬ (p = l ∨ p = l ++ ['\n']) ∧ ¬ (p = l' ∨ p = l' ++ ['\n']) := by
  refine ⟨?_, ?_⟩
  · rintro (h | h)
    · exact hne h
    · have := hp.length_le; rw [h] at this; simp at this; omega
  · rintro (h | h)
    · exact h1 (h ▸ hp)
    · exact h2 (h ▸ hp)

theorem sampleLog : EngineLog sampleWorld [line0, line1] sampleEvents := by
  refine ⟨.cons ⟨by decide, by decide, ?_, ?_, ?_⟩ (.cons ⟨by decide, by decide, ?_, ?_, ?_⟩ .nil),
    ?_, ?_⟩
  · exact loads0 _ (Or.inr rfl)
  · exact loads0 _ (Or.inl rfl)
  · intro p hp hne _
    have := short_rejected line0 line1 p hp hne (by decide) (by decide)
    exact loads2 _ this.1 this.2
  · exact loads1 _ (by decide) (Or.inr rfl)
  · exact loads1 _ (by decide) (Or.inl rfl)
  · intro p hp hne _
    have := short_rejected line1 line0 p hp hne (by decide) (by decide)
    exact loads2 _ this.2 this.1
  · intro e he
    simp only [sampleEvents, List.mem_cons, List.not_mem_nil, or_false] at he
    rcases he with rfl | rfl <;> trivial
  · exact loads2 _ (by decide) (by decide)

/-! ## C76: what an event shows -/

/-- **C76, all but three fields.**  Every event that the engine writes, whatever
its kind and contents, is read without an exception, has exactly one of its nine
fields set, and the object there shows all that the engine wrote except a
diagnostic's stream, the resource of a policy violation and a step's detailed
diff.  What is missing are those three: see the next three theorems. -/
theorem event_shown_partial (e : ApiEvent) (ho : KnownOp e.payload) :
    ∃ p, eventOf e.json = .ok p ∧ Shown (strip e) p := event_parses e ho

example : KnownOp (ApiEvent.payload ⟨4, 2, .resOutputs sampleStep true⟩) :=
  ⟨"update", by decide, rfl⟩

/-- An event without the three fields is shown in full. -/
theorem event_shown_plain_partial (e : ApiEvent) (ho : KnownOp e.payload) (hs : strip e = e) :
    ∃ p, eventOf e.json = .ok p ∧ Shown e p := by
  obtain ⟨p, hp, h⟩ := event_parses e ho
  exact ⟨p, hp, by rwa [hs] at h⟩

example : strip ⟨0, 1, .summary sampleSummary⟩ = ⟨0, 1, .summary sampleSummary⟩ := rfl

/-- **C76 fails for the stream of a diagnostic**: the code asks for `streamId`
and the engine writes `streamID`, so no diagnostic ever shows its stream. -/
theorem stream_never_shown (s t : Int) (d : ApiDiagnostic) (hd : d.streamID ≠ 0) :
    ¬ ∃ p, eventOf (ApiEvent.json ⟨s, t, .diagnostic d⟩) = .ok p
      ∧ Shown ⟨s, t, .diagnostic d⟩ p := by
  rintro ⟨p, hp, hs⟩
  obtain ⟨p', hp', q', hq', hs'⟩ := event_parses ⟨s, t, .diagnostic d⟩ trivial
  rw [hp] at hp'
  cases hp'
  obtain ⟨q, hq, hs⟩ := hs
  have he : q = q' := by
    have := hq.symm.trans hq'
    simpa using congrArg Event.diagnostic this
  have h1 := hs.2.2.2.1
  rw [he, hs'.2.2.2.1] at h1
  simp [optNum, hd] at h1

example : sampleDiagnostic.streamID ≠ 0 := by decide

/-- **C76 fails for the resource of a policy violation**: the code asks for
`resource_urn` and the engine writes `resourceUrn`. -/
theorem policy_resource_never_shown (s t : Int) (d : ApiPolicy) (hd : d.resourceURN ≠ []) :
    ¬ ∃ p, eventOf (ApiEvent.json ⟨s, t, .policy d⟩) = .ok p
      ∧ Shown ⟨s, t, .policy d⟩ p := by
  rintro ⟨p, hp, hs⟩
  obtain ⟨p', hp', q', hq', hs'⟩ := event_parses ⟨s, t, .policy d⟩ trivial
  rw [hp] at hp'
  cases hp'
  obtain ⟨q, hq, hs⟩ := hs
  have he : q = q' := by
    have := hq.symm.trans hq'
    simpa using congrArg Event.policy this
  have h1 := hs.2.2.2.2.2.2.2
  rw [he, hs'.2.2.2.2.2.2.2] at h1
  simp [optStr, hd] at h1

example : samplePolicy.resourceURN ≠ [] := by decide

/-- **C76 fails for the detailed diff of a step**: the code asks for
`detailed_diff` and the engine writes `detailedDiff`. -/
theorem detailed_diff_never_shown (s t : Int) (m : ApiStep) (b : Bool) (hd : m.detailedDiff ≠ [])
    (ho : ∃ o ∈ engineOps, m.op = o.toList) :
    ¬ ∃ p, eventOf (ApiEvent.json ⟨s, t, .resOutputs m b⟩) = .ok p
      ∧ Shown ⟨s, t, .resOutputs m b⟩ p := by
  rintro ⟨p, hp, hs⟩
  obtain ⟨p', hp', q', hq', hs'⟩ := event_parses ⟨s, t, .resOutputs m b⟩ ho
  rw [hp] at hp'
  cases hp'
  obtain ⟨q, hq, hs⟩ := hs
  have he : q = q' := by
    have := congrArg Event.resOutputs (hq.symm.trans hq')
    simpa using this
  have h1 := hs.2.2.2.2.2.2.2.2.1
  rw [he, hs'.2.2.2.2.2.2.2.2.1] at h1
  simp [optDiff, stripStep, hd] at h1

example : sampleStep.detailedDiff ≠ [] := by decide

/-- An operation this version does not know cannot be read: `ValueError`. -/
theorem unknown_operation_raises (s t : Int) (m : ApiStep) (b : Bool)
    (ho : ¬ ∃ o ∈ engineOps, m.op = o.toList) :
    eventOf (ApiEvent.json ⟨s, t, .resOutputs m b⟩) = .error .value := by
  obtain ⟨fs, hfs⟩ := json_obj_step m
  have h6 : ifPresent (get (outer ⟨s, t, .resOutputs m b⟩) "resOutputsEvent".toList) resStepOf
      = .error .value := by
    rw [outer_get ⟨s, t, .resOutputs m b⟩ "resOutputsEvent" "resOutputsEvent" _ rfl
      (by decide) (by decide), if_pos rfl]
    refine ifPresent_error _ _ _ rfl rfl _ ?_
    simp only [resStepOf, metadataOf, getD, field_always, if_true, Option.getD_some]
    rw [hfs]
    simp only [asDict, step_unknown m fs hfs ho]
  have hn : ∀ k : String, k ≠ "sequence" → k ≠ "timestamp" → "resOutputsEvent" ≠ k →
      get (outer ⟨s, t, .resOutputs m b⟩) k.toList = .null := by
    intro k h1 h2 h3
    rw [outer_get ⟨s, t, .resOutputs m b⟩ "resOutputsEvent" k _ rfl h1 h2, if_neg h3]
  simp only [eventOf, ApiEvent.json, asDict, bind, Except.bind]
  rw [hn "stdoutEvent" (by decide) (by decide) (by decide),
    hn "diagnosticEvent" (by decide) (by decide) (by decide),
    hn "preludeEvent" (by decide) (by decide) (by decide),
    hn "summaryEvent" (by decide) (by decide) (by decide),
    hn "resourcePreEvent" (by decide) (by decide) (by decide), h6]
  rfl

example : ¬ ∃ o ∈ engineOps, "teleport".toList = o.toList := by
  simp only [String.toList_inj]; decide

/-! ## C77: delivery -/

/-- From the engine's log to the events of the Python side. -/
theorem log_read (w : World) (ls : List Text) (es : List ApiEvent) (h : EngineLog w ls es) :
    ∃ ps, AllShown es ps ∧ LogOf w ls ps := by
  obtain ⟨hl, ho, _⟩ := h
  induction hl with
  | nil => exact ⟨[], .nil, trivial⟩
  | @cons l e ls es hle _ ih =>
    obtain ⟨ps, hs, hlog⟩ := ih (fun e he => ho e (List.mem_cons_of_mem _ he))
    obtain ⟨p, hp, hsh⟩ := event_parses e (ho e (List.mem_cons_self ..))
    obtain ⟨h1, h2, h3, h4, h5⟩ := hle
    refine ⟨p :: ps, .cons ⟨hp, hsh⟩ hs, ⟨h1, h2, ?_, ?_, ?_⟩, hlog⟩
    · simp only [parseLine, h3, hp]
    · simp only [parseLine, h4, hp]
    · intro q hq hne h0
      exact ⟨.value, by simp only [parseLine, h5 q hq hne h0]⟩

theorem blank_rejected (w : World) (ls : List Text) (es : List ApiEvent) (h : EngineLog w ls es) :
    ∃ x, parseLine w ['\n'] = .error x := ⟨.value, by simp only [parseLine, h.2.2]⟩

/-- **C77, safety.**  Whatever the pieces in which the engine writes its log and
whenever the watcher looks, the callback has at any moment been given the first
few of the engine's events, in order, each once, none invented, and none after the
cancel event or after a call that raised. -/
theorem delivered_in_order (w : World) (ls : List Text) (es : List ApiEvent)
    (h : EngineLog w ls es) (as : List Act) (hw : written as <+: logText ls) :
    ∃ ps, AllShown es ps
      ∧ (run w .start as).delivered <+: upto (fun p => p.cancel || w.raises p) ps := by
  obtain ⟨ps, hs, hlog⟩ := log_read w ls es h
  refine ⟨ps, hs, ?_⟩
  refine going_run w ps (blank_rejected w ls es h) as .start ⟨rfl, ls, ps, hlog, rfl, Or.inl ?_⟩
  simpa [Watch.start] using hw

example : written [.write (line0.take 5), .turn, .write (line0.drop 5 ++ ['\n'])]
    <+: logText [line0, line1] := by decide

/-- The start of a schedule of whole lines. -/
theorem whole_start (w : World) (ps : List Event) (as : List LineAct)
    (hlog : LogOf w (linesOf as) ps) : Whole w ps [] (linesOf as) .start :=
  ⟨rfl, rfl, ps, by simpa using hlog, rfl, Iff.rfl⟩

/-- **C77, completeness when lines are written whole.**  If each write of the
engine's is of whole lines, then once the log is written and the watcher has had a
turn for each line, the callback has been given all the events up to and
including the first cancel event or the first call that raised.  Missing from the
full property: a log whose lines arrive in pieces, see `torn_line_loses`. -/
theorem delivered_all_partial (w : World) (es : List ApiEvent) (as : List LineAct)
    (h : EngineLog w (linesOf as) es) (n : Nat) (hn : (linesOf as).length ≤ n) :
    ∃ ps, AllShown es ps
      ∧ (run w .start (as.map (·.act) ++ List.replicate n .turn)).delivered
          = upto (fun p => p.cancel || w.raises p) ps := by
  obtain ⟨ps, hs, hlog⟩ := log_read w _ es h
  refine ⟨ps, hs, ?_⟩
  rw [run_append]
  rcases whole_run w ps as [] .start (whole_start w ps as hlog) with ⟨k, hk, hwh⟩ | hf
  · exact (whole_turns w ps n k _ hwh (by simp at hk; omega)).1
  · rw [(run_stopped w _ hf.1 _).1]; exact hf.2.1

example : EngineLog sampleWorld (linesOf [.lines [line0], .turn, .turn, .lines [line1]])
    sampleEvents := sampleLog

/-- **C77 fails when a line arrives in pieces**: a turn of the watcher between two
pieces of a line ends its thread, and no event of the log, this one or a later
one, is ever delivered, whatever is written and whenever the watcher would look. -/
theorem torn_line_loses (w : World) (l : Text) (e : ApiEvent) (h : JsonLine w l e)
    (p q : Text) (hpq : l = p ++ q) (hp : p ≠ []) (hq : q ≠ []) (as : List Act) :
    (run w .start (.write p :: .turn :: as)).delivered = []
    ∧ (run w .start (.write p :: .turn :: as)).thread = .dead := by
  obtain ⟨hnl, _, _, _, hshort⟩ := h
  have hpl : p <+: l := ⟨q, hpq.symm⟩
  have hpn : '\n' ∉ p := fun hm => hnl (hpl.subset hm)
  have hne : p ≠ l := by
    intro he
    rw [he] at hpq
    exact hq (by simpa using hpq)
  have hd : poll w ⟨[] ++ p, [], .running⟩ = ⟨[], [], .dead⟩ := by
    refine poll_error w ⟨[] ++ p, [], .running⟩ p [] .value rfl (readline_all p hpn) hp ?_
    simp only [parseLine, hshort p hpl hne hp]
  have hr : run w .start (.write p :: .turn :: as) = run w ⟨[], [], .dead⟩ as := by
    simp only [run, List.foldl_cons, act, Watch.start]
    rw [hd]
  rw [hr]
  exact run_stopped w ⟨[], [], .dead⟩ (fun h => nomatch h) as

/-- The witness: a preview whose log is complete and none of whose events reach
the program. -/
example : (run sampleWorld .start
    ([.write (line0.take 5), .turn, .write (line0.drop 5 ++ ['\n'] ++ line1 ++ ['\n'])]
      ++ List.replicate 9 .turn)).delivered = []
    ∧ written [.write (line0.take 5), .turn, .write (line0.drop 5 ++ ['\n'] ++ line1 ++ ['\n'])]
        = logText [line0, line1] :=
  ⟨(torn_line_loses sampleWorld line0 _ (by cases sampleLog.1; assumption)
      (line0.take 5) (line0.drop 5) (by rw [List.take_append_drop]) (by decide) (by decide)
      _).1, by decide⟩

/-! ## C78: the watcher ends -/

/-- **C78 when the log has a cancel event**, is written in whole lines, and the
callback does not raise: once written, the watcher's thread ends after at most one
turn per line.  Missing: a log without a cancel event, see `watcher_never_ends`. -/
theorem watcher_ends_partial (w : World) (es : List ApiEvent) (as : List LineAct)
    (h : EngineLog w (linesOf as) es) (n : Nat) (hn : (linesOf as).length ≤ n)
    (hc : ∃ e ∈ es, e.payload = .cancel) :
    (run w .start (as.map (·.act) ++ List.replicate n .turn)).thread ≠ .running := by
  obtain ⟨ps, hs, hlog⟩ := log_read w _ es h
  have hps : ∃ p ∈ ps, ends w p = true := by
    obtain ⟨e, he, hpc⟩ := hc
    clear hlog h hn
    induction hs with
    | nil => exact absurd he (by simp)
    | @cons a p es ps hap _ ih =>
      rcases List.mem_cons.mp he with rfl | he
      · refine ⟨p, List.mem_cons_self .., ?_⟩
        have := hap.2
        simp only [Shown, strip, hpc] at this
        rw [this]
        simp [ends, blank]
      · obtain ⟨p', hp', hc'⟩ := ih he
        exact ⟨p', List.mem_cons_of_mem _ hp', hc'⟩
  rw [run_append]
  rcases whole_run w ps as [] .start (whole_start w ps as hlog) with ⟨k, hk, hwh⟩ | hf
  · intro hr
    obtain ⟨p, hp, hpe⟩ := hps
    have := (whole_turns w ps n k _ hwh (by simp at hk; omega)).2.mp hr p hp
    rw [hpe] at this
    exact nomatch this
  · rw [(run_stopped w _ hf.1 _).2]; exact hf.1

example : ∃ e ∈ sampleEvents, e.payload = .cancel := ⟨⟨1, 1, .cancel⟩, by simp [sampleEvents], rfl⟩

/-- **C78 fails without a cancel event**: if the command ends without writing one
(it failed before the update began, or was killed), the thread goes on reading
for ever; it is not a daemon, so the program cannot exit. -/
theorem watcher_never_ends (w : World) (es : List ApiEvent) (as : List LineAct)
    (h : EngineLog w (linesOf as) es) (hc : ∀ e ∈ es, e.payload ≠ .cancel)
    (hr : ∀ p, w.raises p = false) (n : Nat) :
    (run w .start (as.map (·.act) ++ List.replicate n .turn)).thread = .running := by
  obtain ⟨ps, hs, hlog⟩ := log_read w _ es h
  have hps : ∀ p ∈ ps, ends w p = false := by
    clear hlog h
    induction hs with
    | nil => intro p hp; exact absurd hp (by simp)
    | @cons a p es ps hap _ ih =>
      intro p' hp'
      rcases List.mem_cons.mp hp' with rfl | hp'
      · have hcan : p'.cancel = false := by
          have hsh := hap.2
          have hne := hc a (List.mem_cons_self ..)
          obtain ⟨s, t, pl⟩ := a
          cases pl with
          | cancel => exact absurd rfl hne
          | stdout x => exact hsh ▸ rfl
          | prelude x => exact hsh ▸ rfl
          | diagnostic x => obtain ⟨q, hq, _⟩ := hsh; exact hq ▸ rfl
          | summary x => obtain ⟨q, hq, _⟩ := hsh; exact hq ▸ rfl
          | resourcePre m b => obtain ⟨q, hq, _⟩ := hsh; exact hq ▸ rfl
          | resOutputs m b => obtain ⟨q, hq, _⟩ := hsh; exact hq ▸ rfl
          | resOpFailed m a b => obtain ⟨q, hq, _⟩ := hsh; exact hq ▸ rfl
          | policy x => obtain ⟨q, hq, _⟩ := hsh; exact hq ▸ rfl
        simp [ends, hcan, hr]
      · exact ih (fun e he => hc e (List.mem_cons_of_mem _ he)) p' hp'
  have hall : (as.map (·.act) ++ List.replicate n Act.turn)
      = (as ++ List.replicate n LineAct.turn).map (·.act) := by
    simp [LineAct.act]
  have hlines : linesOf (as ++ List.replicate n .turn) = linesOf as := by
    clear hall hlog h
    induction as with
    | nil =>
      induction n with
      | zero => rfl
      | succ n ih => simpa [List.replicate_succ, linesOf] using ih
    | cons a r ih => cases a <;> simp [linesOf, ih]
  rw [hall]
  rcases whole_run w ps (as ++ List.replicate n .turn) [] .start
    (whole_start w ps _ (hlines ▸ hlog)) with ⟨k, _, hwh⟩ | hf
  · exact hwh.2.1
  · obtain ⟨p, hp, hpe⟩ := hf.2.2
    rw [hps p hp] at hpe
    exact nomatch hpe

/-- A command that fails before the update begins writes nothing. -/
example : EngineLog sampleWorld (linesOf []) [] := ⟨.nil, by simp, sampleLog.2.2⟩

/-! ## C79: the result of a preview -/

/-- **C79, safety.**  Whatever the schedule, a change summary that `preview`
returns is the one in the first summary event of the engine's log. -/
theorem preview_summary (w : World) (ls : List Text) (es : List ApiEvent)
    (h : EngineLog w ls es) (as : List Act) (hw : written as <+: logText ls) (c : J)
    (hc : previewResult (run w .start as) = some c) :
    ∃ ps, AllShown es ps ∧ firstSummary ps = some c := by
  obtain ⟨ps, hs, hpre⟩ := delivered_in_order w ls es h as hw
  refine ⟨ps, hs, ?_⟩
  rw [previewResult_eq] at hc
  have h1 := firstSummary_prefix _ _ hpre c hc
  have hup : upto (fun p => p.cancel || w.raises p) ps <+: ps := by
    clear h1 hpre hs
    induction ps with
    | nil => exact List.prefix_refl _
    | cons p ps ih =>
      simp only [upto]
      split
      · exact List.cons_prefix_cons.mpr ⟨rfl, List.nil_prefix⟩
      · exact List.cons_prefix_cons.mpr ⟨rfl, ih⟩
  exact firstSummary_prefix _ _ hup c h1

/-- **C79 when lines are written whole** and the watcher gets its turns before the
five seconds are over: the result is the first summary among the events up to the
cancel event, and `RuntimeError` if there is none.  Missing: see
`preview_summary_lost`. -/
theorem preview_finds_partial (w : World) (es : List ApiEvent) (as : List LineAct)
    (h : EngineLog w (linesOf as) es) (n : Nat) (hn : (linesOf as).length ≤ n) :
    ∃ ps, AllShown es ps
      ∧ previewResult (run w .start (as.map (·.act) ++ List.replicate n .turn))
          = firstSummary (upto (fun p => p.cancel || w.raises p) ps) := by
  obtain ⟨ps, hs, hd⟩ := delivered_all_partial w es as h n hn
  exact ⟨ps, hs, by rw [previewResult_eq, hd]⟩

/-- The sample preview returns the count of its one change. -/
theorem sample_preview :
    previewResult (run sampleWorld .start
      ([LineAct.lines [line0], .turn, .lines [line1]].map (·.act) ++ List.replicate 2 .turn))
      = some (.obj [("create".toList, .num 2)]) := by
  obtain ⟨ps, hs, hr⟩ := preview_finds_partial sampleWorld sampleEvents
    [.lines [line0], .turn, .lines [line1]] sampleLog 2 (by decide)
  rw [hr]
  cases hs with
  | @cons _ p _ ps h0 hs =>
    obtain ⟨q, hq, hsh⟩ := h0.2
    have hsum : p.summary = some q := by rw [hq]
    have hfs : ∀ r, firstSummary (p :: r) = some (.obj [("create".toList, .num 2)]) := by
      intro r
      simp only [firstSummary, hsum]
      exact congrArg some hsh.2.2.1
    simp only [upto]
    split
    · exact hfs _
    · exact hfs _

/-- **C79 fails when the summary's line arrives in pieces**: the preview was
complete and the log has its summary, and `preview` raises `RuntimeError`. -/
theorem preview_summary_lost (w : World) (l : Text) (e : ApiEvent) (h : JsonLine w l e)
    (p q : Text) (hpq : l = p ++ q) (hp : p ≠ []) (hq : q ≠ []) (as : List Act) :
    previewResult (run w .start (.write p :: .turn :: as)) = none := by
  rw [previewResult_eq, (torn_line_loses w l e h p q hpq hp hq as).1]
  rfl

example : JsonLine sampleWorld line0 ⟨0, 1, .summary sampleSummary⟩ := by
  cases sampleLog.1; assumption

end Pulumi.Events
