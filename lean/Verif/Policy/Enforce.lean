/-
How the violations of policies that analyzers report are dealt with during a preview or an update.

Code: pkg/resource/deploy/step_generator.go:478-497 (failed checks), 536-581 (each resource), 1715-1778 (the stack),
deployment_executor.go:343-372 (the end).

The answers of the analyzers are given with the resources, in the order in which the program registers them; what a step
does is left out, but for whether any step failed (`stepFailed`) and whether the user cancelled.  A stack analysis that a
plugin does not implement is an answer without violations (analyzer_plugin.go:255-258).
-/
namespace Pulumi.Policy.Enforce

/-- `plugin.AnalyzeDiagnostic` -/
structure Diag where
  policy : String
  level : String
  /-- the resource it names, if any -/
  urn : String
  deriving DecidableEq

/-- What an analyzer answers: an error, or the violations -/
abbrev Answer := Except String (List Diag)

/-- A resource the program registers: whether the provider's check finds failures in its inputs, and the answers of the
analyzers, in their order -/
structure Res where
  urn : String
  checkFails : Bool
  answers : List Answer

/-- `invalid`, `sg.sawError`, and the violations reported -/
structure St where
  invalid : Bool
  sawError : Bool
  events : List (String × Diag)

/-- the loop over the violations of one analyzer (566-575) -/
def diagLoop (preview : Bool) (urn : String) : List Diag → St → St
  | [], st => st
  | d :: ds, st =>
    let st := if d.level == "mandatory" then
        { st with invalid := st.invalid || !preview, sawError := true }
      else st
    diagLoop preview urn ds { st with events := st.events ++ [(urn, d)] }

/-- the loop over the analyzers (537-576) -/
def answerLoop (preview : Bool) (urn : String) : List Answer → St → St × Option String
  | [], st => (st, none)
  | .error e :: _, st => (st, some e)
  | .ok ds :: as, st => answerLoop preview urn as (diagLoop preview urn ds st)

/-- why the loop over the events of the program ended -/
inductive Stop where
  | error (e : String)
  | bail
  deriving DecidableEq

/-- the resources that were given steps, `sg.sawError`, the violations reported, and why it stopped -/
structure Run where
  stepped : List String
  sawError : Bool
  events : List (String × Diag)
  stop : Option Stop

/-- the events of the program: each resource is analyzed, and given steps unless it is invalid (536-581); the first that
is not ends the loop -/
def resLoop (preview : Bool) : List Res → Run → Run
  | [], r => r
  | x :: xs, r =>
    match answerLoop preview x.urn x.answers { invalid := x.checkFails, sawError := r.sawError, events := r.events } with
    | (st, some e) => { r with sawError := st.sawError, events := st.events, stop := some (.error e) }
    | (st, none) =>
      if st.invalid then { r with sawError := st.sawError, events := st.events, stop := some .bail }
      else resLoop preview xs { r with stepped := r.stepped ++ [x.urn], sawError := st.sawError, events := st.events }

/-- the resource a violation of the stack is reported with (1762-1773) -/
def stackUrn (root : String) (news : List String) (d : Diag) : String :=
  if d.urn != "" && news.contains d.urn then d.urn else root

/-- `AnalyzeResources` (1756-1778) -/
def stackLoop (root : String) (news : List String) : List Answer → Run → Run × Option String
  | [], r => (r, none)
  | .error e :: _, r => (r, some e)
  | .ok ds :: as, r =>
    stackLoop root news as
      { r with sawError := r.sawError || ds.any (fun d => d.level == "mandatory"),
               events := r.events ++ ds.map (fun d => (stackUrn root news d, d)) }

structure World where
  root : String
  resources : List Res
  /-- the answers of the analyzers about the stack -/
  stack : List Answer
  stepFailed : Bool
  canceled : Bool

/-- `deploymentExecutor.Execute` from where the program ends (343-372): the run, and whether it succeeded -/
def execute (preview : Bool) (w : World) : Run × Bool :=
  let r := resLoop preview w.resources { stepped := [], sawError := false, events := [], stop := none }
  if r.stop = some .bail then (r, false)
  else if r.stop.isNone && !w.stepFailed then
    match stackLoop w.root (w.resources.map (·.urn)) w.stack r with
    | (r, some _) => (r, false)
    | (r, none) => (r, !(r.sawError || w.canceled))
  else (r, false)

/-! ## Specification -/

/-- the answers are no errors, and no violation among them is of a mandatory policy -/
def Complies (as : List Answer) : Prop := ∀ a ∈ as, ∃ ds, a = .ok ds ∧ ∀ d ∈ ds, d.level ≠ "mandatory"

/-- the violations in the answers, in their order -/
def violations : List Answer → List Diag
  | [] => []
  | .ok ds :: as => ds ++ violations as
  | .error _ :: as => violations as

/-! ## Lemmas -/

/-- whether there is a mandatory one -/
def hasMandatory (ds : List Diag) : Bool := ds.any (fun d => d.level == "mandatory")

theorem diagLoop_eq (preview : Bool) (urn : String) (ds : List Diag) (st : St) :
    diagLoop preview urn ds st =
      { invalid := st.invalid || (!preview && hasMandatory ds), sawError := st.sawError || hasMandatory ds,
        events := st.events ++ ds.map (fun d => (urn, d)) } := by
  induction ds generalizing st with
  | nil => simp [diagLoop, hasMandatory]
  | cons d ds ih =>
    unfold diagLoop
    simp only [ih]
    by_cases h : (d.level == "mandatory") = true
    · simp only [h, if_true, hasMandatory, List.any_cons, Bool.true_or, List.map_cons, List.append_assoc,
        List.singleton_append, Bool.or_true, Bool.and_true]
      cases preview <;> simp
    · simp only [h, Bool.false_eq_true, if_false, hasMandatory, List.any_cons] at *
      simp

/-- whether all answers came -/
def allOk (as : List Answer) : Bool := as.all (fun a => match a with | .ok _ => true | .error _ => false)

theorem answerLoop_ok (preview : Bool) (urn : String) (as : List Answer) (h : allOk as = true) (st : St) :
    answerLoop preview urn as st =
      ({ invalid := st.invalid || (!preview && hasMandatory (violations as)),
         sawError := st.sawError || hasMandatory (violations as),
         events := st.events ++ (violations as).map (fun d => (urn, d)) }, none) := by
  induction as generalizing st with
  | nil => simp [answerLoop, violations, hasMandatory]
  | cons a as ih =>
    unfold allOk at h
    rw [List.all_cons] at h
    simp only [Bool.and_eq_true] at h
    cases a with
    | error e => simp at h
    | ok ds =>
      unfold answerLoop
      rw [ih h.2, diagLoop_eq]
      simp only [violations, hasMandatory, List.any_append, List.map_append, List.append_assoc, Prod.mk.injEq, and_true,
        St.mk.injEq]
      refine ⟨?_, by rw [Bool.or_assoc]⟩
      cases st.invalid <;> cases preview <;> simp

theorem answerLoop_err (preview : Bool) (urn : String) (as : List Answer) (h : allOk as = false) (st : St) :
    ∃ st' e, answerLoop preview urn as st = (st', some e) := by
  induction as generalizing st with
  | nil => simp [allOk] at h
  | cons a as ih =>
    cases a with
    | error e => exact ⟨st, e, rfl⟩
    | ok ds =>
      unfold answerLoop
      apply ih
      unfold allOk at h ⊢
      simpa using h

theorem complies_iff (as : List Answer) : Complies as ↔ allOk as = true ∧ hasMandatory (violations as) = false := by
  induction as with
  | nil => simp [Complies, allOk, violations, hasMandatory]
  | cons a as ih =>
    have hc : Complies (a :: as) ↔ (∃ ds, a = .ok ds ∧ ∀ d ∈ ds, d.level ≠ "mandatory") ∧ Complies as := by
      simp [Complies]
    rw [hc, ih]
    cases a with
    | error e => simp [allOk]
    | ok ds =>
      simp only [Except.ok.injEq, exists_eq_left', allOk, List.all_cons, Bool.true_and, violations, hasMandatory,
        List.any_append, Bool.or_eq_false_iff, List.any_eq_false, beq_iff_eq]
      constructor
      · rintro ⟨h, hok, hrest⟩
        exact ⟨hok, h, hrest⟩
      · rintro ⟨hok, h, hrest⟩
        exact ⟨h, hok, hrest⟩

/-- A resource that is given steps -/
def Passes (preview : Bool) (x : Res) : Prop :=
  x.checkFails = false ∧ allOk x.answers = true ∧ (preview = false → hasMandatory (violations x.answers) = false)

instance (preview : Bool) (x : Res) : Decidable (Passes preview x) := by unfold Passes; infer_instance

theorem resLoop_pass (preview : Bool) (x : Res) (xs : List Res) (r : Run) (h : Passes preview x) :
    resLoop preview (x :: xs) r = resLoop preview xs
      { r with stepped := r.stepped ++ [x.urn], sawError := r.sawError || hasMandatory (violations x.answers),
               events := r.events ++ (violations x.answers).map (fun d => (x.urn, d)) } := by
  obtain ⟨h₁, h₂, h₃⟩ := h
  rw [resLoop, answerLoop_ok _ _ _ h₂]
  simp only [h₁, Bool.false_or]
  cases preview with
  | true => simp
  | false => simp [h₃ rfl]

theorem resLoop_stop (preview : Bool) (x : Res) (xs : List Res) (r : Run) (h : ¬ Passes preview x) :
    ∃ s, (resLoop preview (x :: xs) r).stop = some s ∧ (resLoop preview (x :: xs) r).stepped = r.stepped := by
  rw [resLoop]
  cases h₂ : allOk x.answers with
  | false =>
    obtain ⟨st, e, he⟩ := answerLoop_err preview x.urn x.answers h₂ { invalid := x.checkFails, sawError := r.sawError, events := r.events }
    rw [he]
    exact ⟨_, rfl, rfl⟩
  | true =>
    rw [answerLoop_ok _ _ _ h₂]
    have : (x.checkFails || (!preview && hasMandatory (violations x.answers))) = true := by
      unfold Passes at h
      cases hc : x.checkFails with
      | true => rfl
      | false =>
        cases preview with
        | true => exact absurd ⟨hc, h₂, by simp⟩ h
        | false =>
          cases hm : hasMandatory (violations x.answers) with
          | true => rfl
          | false => exact absurd ⟨hc, h₂, fun _ => hm⟩ h
    exact ⟨.bail, by simp only [this, if_true], by simp only [this, if_true]⟩

/-- The resources before the first that does not pass are those given steps. -/
theorem resLoop_split (preview : Bool) (xs : List Res) (r : Run) (hr : r.stop = none) :
    ∃ pre post, xs = pre ++ post ∧ (∀ x ∈ pre, Passes preview x) ∧
      (resLoop preview xs r).stepped = r.stepped ++ pre.map (·.urn) ∧
      ((post = [] ∧ (resLoop preview xs r).stop = none ∧
          (resLoop preview xs r).sawError = (r.sawError || pre.any (fun x => hasMandatory (violations x.answers))) ∧
          (resLoop preview xs r).events = r.events ++ pre.flatMap (fun x => (violations x.answers).map (fun d => (x.urn, d)))) ∨
       (∃ x rest, post = x :: rest ∧ ¬ Passes preview x ∧ (resLoop preview xs r).stop ≠ none)) := by
  induction xs generalizing r with
  | nil => exact ⟨[], [], rfl, by simp, by simp [resLoop], Or.inl ⟨rfl, by simpa [resLoop] using hr, by simp [resLoop], by simp [resLoop]⟩⟩
  | cons x xs ih =>
    by_cases hp : Passes preview x
    · rw [resLoop_pass preview x xs r hp]
      obtain ⟨pre, post, he, hpre, hst, hx⟩ := ih { r with stepped := r.stepped ++ [x.urn], sawError := r.sawError || hasMandatory (violations x.answers), events := r.events ++ (violations x.answers).map (fun d => (x.urn, d)) } hr
      refine ⟨x :: pre, post, by rw [he]; rfl, ?_, by rw [hst]; simp, ?_⟩
      · intro y hy
        rcases List.mem_cons.mp hy with h | h
        · subst h; exact hp
        · exact hpre y h
      · rcases hx with ⟨h₁, h₂, h₃, h₄⟩ | h
        · exact Or.inl ⟨h₁, h₂, by rw [h₃]; simp [Bool.or_assoc], by rw [h₄]; simp⟩
        · exact Or.inr h
    · obtain ⟨s, hs, hst⟩ := resLoop_stop preview x xs r hp
      exact ⟨[], x :: xs, rfl, by simp, by rw [hst]; simp, Or.inr ⟨x, xs, rfl, hp, by rw [hs]; simp⟩⟩

theorem stackLoop_ok (root : String) (news : List String) (as : List Answer) (h : allOk as = true) (r : Run) :
    stackLoop root news as r =
      ({ r with sawError := r.sawError || hasMandatory (violations as),
                events := r.events ++ (violations as).map (fun d => (stackUrn root news d, d)) }, none) := by
  induction as generalizing r with
  | nil => simp [stackLoop, violations, hasMandatory]
  | cons a as ih =>
    unfold allOk at h
    rw [List.all_cons] at h
    simp only [Bool.and_eq_true] at h
    cases a with
    | error e => simp at h
    | ok ds =>
      unfold stackLoop
      rw [ih h.2]
      simp only [violations, hasMandatory, List.any_append, List.map_append, List.append_assoc, Bool.or_assoc]

theorem stackLoop_err (root : String) (news : List String) (as : List Answer) (h : allOk as = false) (r : Run) :
    ∃ r' e, stackLoop root news as r = (r', some e) ∧ r'.stepped = r.stepped := by
  induction as generalizing r with
  | nil => simp [allOk] at h
  | cons a as ih =>
    cases a with
    | error e => exact ⟨r, e, rfl, rfl⟩
    | ok ds =>
      unfold stackLoop
      have h' : allOk as = false := by unfold allOk at h ⊢; simpa using h
      obtain ⟨r', e, he, hs⟩ := ih h' { r with sawError := r.sawError || ds.any (fun d => d.level == "mandatory"), events := r.events ++ ds.map (fun d => (stackUrn root news d, d)) }
      exact ⟨r', e, he, hs⟩

def start : Run := { stepped := [], sawError := false, events := [], stop := none }

theorem execute_stepped (preview : Bool) (w : World) :
    (execute preview w).1.stepped = (resLoop preview w.resources start).stepped := by
  unfold execute start
  simp only
  split
  · rfl
  · split
    · cases h : allOk w.stack with
      | true => rw [stackLoop_ok _ _ _ h]
      | false =>
        obtain ⟨r', e, he, hs⟩ := stackLoop_err w.root (w.resources.map (·.urn)) w.stack h
          (resLoop preview w.resources { stepped := [], sawError := false, events := [], stop := none })
        rw [he]
        exact hs
    · rfl

/-! ## What a user relies on -/

/-- During an update, a resource is given steps only if its inputs check, all analyzers answered, and none of them reported
a violation of a mandatory policy; and so did all resources before it.  The first that does not comply, and all after it,
are given none. -/
theorem update_steps_only_what_complies (w : World) :
    ∃ pre post, w.resources = pre ++ post ∧ (execute false w).1.stepped = pre.map (·.urn) ∧
      (∀ x ∈ pre, x.checkFails = false ∧ Complies x.answers) ∧
      (∀ x rest, post = x :: rest → x.checkFails = true ∨ ¬ Complies x.answers) := by
  rw [execute_stepped]
  obtain ⟨pre, post, he, hpre, hst, hx⟩ := resLoop_split false w.resources start rfl
  refine ⟨pre, post, he, by rw [hst]; simp [start], ?_, ?_⟩
  · intro x hxm
    obtain ⟨h₁, h₂, h₃⟩ := hpre x hxm
    exact ⟨h₁, (complies_iff _).mpr ⟨h₂, h₃ rfl⟩⟩
  · intro x rest hpost
    rcases hx with ⟨hn, _⟩ | ⟨y, rest', hy, hnp, _⟩
    · rw [hn] at hpost; cases hpost
    · rw [hy] at hpost
      cases hpost
      cases hc : x.checkFails with
      | true => exact Or.inl rfl
      | false =>
        refine Or.inr fun hcom => hnp ?_
        obtain ⟨h₂, h₃⟩ := (complies_iff _).mp hcom
        exact ⟨hc, h₂, fun _ => h₃⟩

/-- During a preview, violations keep no resource from being shown. -/
theorem preview_steps_all (w : World) (h : ∀ x ∈ w.resources, x.checkFails = false ∧ ∀ a ∈ x.answers, ∃ ds, a = .ok ds) :
    (execute true w).1.stepped = w.resources.map (·.urn) := by
  rw [execute_stepped]
  obtain ⟨pre, post, he, hpre, hst, hx⟩ := resLoop_split true w.resources start rfl
  rcases hx with ⟨hn, _⟩ | ⟨y, rest', hy, hnp, _⟩
  · rw [hst, he, hn]; simp [start]
  · refine absurd ?_ hnp
    have hy' : y ∈ w.resources := by rw [he, hy]; simp
    refine ⟨(h y hy').1, ?_, by simp⟩
    unfold allOk
    rw [List.all_eq_true]
    intro a ha
    obtain ⟨ds, hds⟩ := (h y hy').2 a ha
    rw [hds]

/-- A preview or an update succeeds exactly where the inputs of all resources check, no analyzer failed, no violation of a
mandatory policy was reported for a resource or for the stack, no step failed, and it was not cancelled. -/
theorem succeeds_iff (preview : Bool) (w : World) :
    (execute preview w).2 = true ↔
      (∀ x ∈ w.resources, x.checkFails = false ∧ Complies x.answers) ∧ Complies w.stack ∧ w.stepFailed = false ∧
        w.canceled = false := by
  unfold execute
  simp only
  obtain ⟨pre, post, he, hpre, hst, hx⟩ := resLoop_split preview w.resources start rfl
  unfold start at hx
  rcases hx with ⟨hn, hstop, hsaw, _⟩ | ⟨y, rest', hy, hnp, hstop⟩
  · simp only [hstop, reduceCtorEq, if_false, Option.isNone_none, Bool.true_and]
    have hall : w.resources = pre := by rw [he, hn]; simp
    cases hf : w.stepFailed with
    | true => simp
    | false =>
      simp only [Bool.not_false, if_true]
      cases hok : allOk w.stack with
      | false =>
        obtain ⟨r', e, hre, _⟩ := stackLoop_err w.root (w.resources.map (·.urn)) w.stack hok
          (resLoop preview w.resources { stepped := [], sawError := false, events := [], stop := none })
        rw [hre]
        simp only [Bool.false_eq_true, false_iff, not_and]
        intro _ hc
        rw [((complies_iff _).mp hc).1] at hok
        cases hok
      | true =>
        rw [stackLoop_ok _ _ _ hok]
        simp only [hsaw, Bool.false_or, Bool.not_eq_true', Bool.or_eq_false_iff, complies_iff, hok, true_and]
        rw [hall]
        constructor
        · rintro ⟨⟨h₁, h₂⟩, h₃⟩
          refine ⟨?_, h₂, h₃⟩
          intro x hxm
          refine ⟨(hpre x hxm).1, (hpre x hxm).2.1, ?_⟩
          rw [List.any_eq_false] at h₁
          simpa using h₁ x hxm
        · rintro ⟨h₁, h₂, h₃⟩
          refine ⟨⟨?_, h₂⟩, h₃⟩
          rw [List.any_eq_false]
          intro x hxm
          simp [(h₁ x hxm).2.2]
  · have hne : ¬ ((∀ x ∈ w.resources, x.checkFails = false ∧ Complies x.answers) ∧ Complies w.stack ∧ w.stepFailed = false ∧
        w.canceled = false) := by
      rintro ⟨h, _⟩
      have hy' : y ∈ w.resources := by rw [he, hy]; simp
      obtain ⟨h₁, h₂⟩ := h y hy'
      obtain ⟨h₃, h₄⟩ := (complies_iff _).mp h₂
      exact hnp ⟨h₁, h₃, fun _ => h₄⟩
    cases hs : (resLoop preview w.resources { stepped := [], sawError := false, events := [], stop := none }).stop with
    | none => exact absurd hs hstop
    | some s =>
      cases s with
      | bail => simp only [if_true, hne, iff_false]; simp
      | error e => simp [hne]

/-- A preview whose analyzers answer as those of the update do succeeds exactly where the update does. -/
theorem preview_tells_of_update (w : World) : (execute true w).2 = (execute false w).2 := by
  have := (succeeds_iff true w).trans (succeeds_iff false w).symm
  cases h : (execute true w).2 <;> cases h' : (execute false w).2 <;> simp_all

/-- Violations of policies that are not mandatory make no difference to what is done and to whether it succeeds. -/
theorem advisory_violations_do_not_matter (preview : Bool) (w : World) :
    let drop : List Answer → List Answer := List.map (fun a => match a with
      | .ok ds => .ok (ds.filter (fun d => d.level == "mandatory"))
      | .error e => .error e)
    let w' := { w with resources := w.resources.map (fun x => { x with answers := drop x.answers }), stack := drop w.stack }
    (execute preview w').2 = (execute preview w).2 ∧ (execute preview w').1.stepped = (execute preview w).1.stepped := by
  intro drop w'
  have hok : ∀ as, allOk (drop as) = allOk as := by
    intro as
    simp only [drop]
    induction as with
    | nil => rfl
    | cons a as ih =>
      unfold allOk at ih ⊢
      cases a <;> simp [ih]
  have hman : ∀ as, hasMandatory (violations (drop as)) = hasMandatory (violations as) := by
    intro as
    simp only [drop]
    induction as with
    | nil => rfl
    | cons a as ih =>
      cases a with
      | error e => simpa [violations] using ih
      | ok ds =>
        unfold hasMandatory at ih ⊢
        simp only [List.map_cons, violations, List.any_append, ih]
        congr 1
        rw [List.any_filter]
        congr 1
        funext d
        simp
  have hcom : ∀ as, Complies (drop as) ↔ Complies as := by
    intro as
    rw [complies_iff, complies_iff, hok, hman]
  constructor
  · have := (succeeds_iff preview w').trans (Iff.trans ?_ (succeeds_iff preview w).symm)
    · cases h : (execute preview w').2 <;> cases h' : (execute preview w).2 <;> simp_all
    · simp only [w', hcom]
      constructor
      · rintro ⟨h, hh⟩
        refine ⟨?_, hh⟩
        intro x hx
        obtain ⟨h₁, h₂⟩ := h _ (List.mem_map.mpr ⟨x, hx, rfl⟩)
        exact ⟨h₁, (hcom _).mp h₂⟩
      · rintro ⟨h, hh⟩
        refine ⟨?_, hh⟩
        intro x hx
        obtain ⟨y, hy, he⟩ := List.mem_map.mp hx
        rw [← he]
        exact ⟨(h y hy).1, (hcom _).mpr (h y hy).2⟩
  · rw [execute_stepped, execute_stepped]
    have hpass : ∀ x : Res, Passes preview { x with answers := drop x.answers } ↔ Passes preview x := by
      intro x
      unfold Passes
      rw [hok, hman]
    have key : ∀ (xs : List Res) (r r' : Run), r'.stepped = r.stepped →
        (resLoop preview (xs.map (fun x => { x with answers := drop x.answers })) r').stepped = (resLoop preview xs r).stepped := by
      intro xs
      induction xs with
      | nil => intro r r' h; exact h
      | cons x xs ih =>
        intro r r' h
        rw [List.map_cons]
        by_cases hp : Passes preview x
        · rw [resLoop_pass preview x xs r hp, resLoop_pass preview _ _ r' ((hpass x).mpr hp)]
          exact ih _ _ (by simp [h])
        · obtain ⟨_, _, h₁⟩ := resLoop_stop preview x xs r hp
          obtain ⟨_, _, h₂⟩ := resLoop_stop preview _ (xs.map (fun x => { x with answers := drop x.answers })) r' (fun hh => hp ((hpass x).mp hh))
          rw [h₁, h₂, h]
    exact key w.resources start start rfl

theorem allOk_iff (as : List Answer) : allOk as = true ↔ ∀ a ∈ as, ∃ ds, a = .ok ds := by
  unfold allOk
  rw [List.all_eq_true]
  constructor
  · intro h a ha
    have := h a ha
    cases a with
    | ok ds => exact ⟨ds, rfl⟩
    | error e => cases this
  · intro h a ha
    obtain ⟨ds, hds⟩ := h a ha
    rw [hds]

/-- Where all analyzers answer, no check and no step fails, and, during an update, no violation for a resource is of a
mandatory policy, all violations are reported, in their order: those of a resource with the resource, those of the stack with
the resource they name if the stack has it, and with the stack otherwise. -/
theorem all_violations_are_reported (preview : Bool) (w : World)
    (h₁ : ∀ x ∈ w.resources, x.checkFails = false ∧ (∀ a ∈ x.answers, ∃ ds, a = .ok ds) ∧ (preview = false → Complies x.answers))
    (h₂ : ∀ a ∈ w.stack, ∃ ds, a = .ok ds) (h₃ : w.stepFailed = false) :
    (execute preview w).1.events =
      w.resources.flatMap (fun x => (violations x.answers).map (fun d => (x.urn, d))) ++
      (violations w.stack).map (fun d =>
        (if d.urn ≠ "" ∧ d.urn ∈ w.resources.map (·.urn) then d.urn else w.root, d)) := by
  unfold execute
  simp only
  obtain ⟨pre, post, he, hpre, hst, hx⟩ := resLoop_split preview w.resources start rfl
  unfold start at hx
  rcases hx with ⟨hn, hstop, _, hev⟩ | ⟨y, rest', hy, hnp, hstop⟩
  · have hall : w.resources = pre := by rw [he, hn]; simp
    simp only [hstop, reduceCtorEq, if_false, Option.isNone_none, Bool.true_and, h₃, Bool.not_false, if_true]
    rw [stackLoop_ok _ _ _ ((allOk_iff _).mpr h₂)]
    simp only [hev, List.nil_append]
    rw [hall]
    congr 1
    refine List.map_congr_left fun d _ => ?_
    unfold stackUrn
    by_cases hu : d.urn ≠ "" ∧ d.urn ∈ pre.map (·.urn)
    · have : (d.urn != "" && (pre.map (·.urn)).contains d.urn) = true := by
        simp only [Bool.and_eq_true, bne_iff_ne, List.contains_iff_mem]
        exact hu
      rw [if_pos this, if_pos hu]
    · have : ¬ (d.urn != "" && (pre.map (·.urn)).contains d.urn) = true := by
        simp only [Bool.and_eq_true, bne_iff_ne, List.contains_iff_mem]
        exact hu
      rw [if_neg this, if_neg hu]
  · have hy' : y ∈ w.resources := by rw [he, hy]; simp
    obtain ⟨h₁, h₂, h₃⟩ := h₁ y hy'
    exact absurd ⟨h₁, (allOk_iff _).mpr h₂, fun hh => ((complies_iff _).mp (h₃ hh)).2⟩ hnp

theorem resLoop_reports (xs rest : List Res) (x : Res) (r : Run)
    (hpre : ∀ y ∈ xs, Passes false y) (hok : allOk x.answers = true) (hm : hasMandatory (violations x.answers) = true) :
    (resLoop false (xs ++ x :: rest) r).events =
      r.events ++ (xs ++ [x]).flatMap (fun x => (violations x.answers).map (fun d => (x.urn, d))) ∧
    (resLoop false (xs ++ x :: rest) r).stop = some .bail := by
  induction xs generalizing r with
  | nil =>
    rw [List.nil_append, resLoop, answerLoop_ok _ _ _ hok]
    simp [hm]
  | cons y xs ih =>
    rw [List.cons_append, resLoop_pass false y _ r (hpre y List.mem_cons_self)]
    obtain ⟨h₁, h₂⟩ := ih { r with stepped := r.stepped ++ [y.urn], sawError := r.sawError || hasMandatory (violations y.answers), events := r.events ++ (violations y.answers).map (fun d => (y.urn, d)) } (fun z hz => hpre z (List.mem_cons_of_mem _ hz))
    exact ⟨by rw [h₁]; simp, h₂⟩

/-- An update that a violation of a mandatory policy stops has reported all violations of that resource and of those before
it. -/
theorem stopping_violation_is_reported (w : World) (pre post : List Res) (x : Res) (hw : w.resources = pre ++ x :: post)
    (hpre : ∀ y ∈ pre, y.checkFails = false ∧ Complies y.answers) (hok : ∀ a ∈ x.answers, ∃ ds, a = .ok ds)
    (hm : ∃ d ∈ violations x.answers, d.level = "mandatory") :
    (execute false w).1.events = (pre ++ [x]).flatMap (fun x => (violations x.answers).map (fun d => (x.urn, d))) := by
  have hp : ∀ y ∈ pre, Passes false y := by
    intro y hy
    obtain ⟨h₁, h₂⟩ := hpre y hy
    obtain ⟨h₃, h₄⟩ := (complies_iff _).mp h₂
    exact ⟨h₁, h₃, fun _ => h₄⟩
  have hm' : hasMandatory (violations x.answers) = true := by
    unfold hasMandatory
    rw [List.any_eq_true]
    obtain ⟨d, hd, hl⟩ := hm
    exact ⟨d, hd, by simp [hl]⟩
  obtain ⟨h₁, h₂⟩ := resLoop_reports pre post x { stepped := [], sawError := false, events := [], stop := none } hp ((allOk_iff _).mpr hok) hm'
  unfold execute
  rw [hw]
  simp only [h₂, if_true, h₁, List.nil_append]

/-! ### Cases -/

def bucket : Res := { urn := "bucket", checkFails := false, answers := [.ok [⟨"tags", "advisory", ""⟩], .ok []] }
def open_ : Res := { urn := "public", checkFails := false, answers := [.ok [⟨"no-public", "mandatory", ""⟩]] }

def fine : World := { root := "stack", resources := [bucket], stack := [.ok [⟨"count", "advisory", "bucket"⟩]], stepFailed := false, canceled := false }
def violating : World := { root := "stack", resources := [bucket, open_, bucket], stack := [], stepFailed := false, canceled := false }

example : (execute false fine).2 = true ∧ (execute false fine).1.events.length = 2 := by decide
example : (execute false violating).1.stepped = ["bucket"] ∧ (execute false violating).2 = false := by decide
example : (execute true violating).1.stepped = ["bucket", "public", "bucket"] ∧ (execute true violating).2 = false := by decide
example : ∀ x ∈ violating.resources, x.checkFails = false ∧ ∀ a ∈ x.answers, ∃ ds, a = Except.ok ds := by
  simp [violating, bucket, open_]

/-- A mandatory policy about the whole stack keeps nothing from being made: it is looked at after all steps, and then the
update fails. -/
theorem stack_violation_comes_too_late :
    ∃ w : World, ¬ Complies w.stack ∧ (execute false w).1.stepped = w.resources.map (·.urn) ∧ w.resources ≠ [] ∧
      (execute false w).2 = false := by
  refine ⟨{ fine with stack := [.ok [⟨"count", "mandatory", ""⟩]] }, ?_, by decide, by decide, by decide⟩
  intro h
  obtain ⟨ds, he, hd⟩ := h _ List.mem_cons_self
  cases he
  exact hd _ List.mem_cons_self rfl

/-- Where a step failed, policies about the stack are not looked at. -/
theorem failed_step_skips_stack_policies (preview : Bool) (w : World) (h : w.stepFailed = true) (stack : List Answer) :
    (execute preview { w with stack := stack }).1.events = (execute preview w).1.events := by
  unfold execute
  simp [h]

end Pulumi.Policy.Enforce
