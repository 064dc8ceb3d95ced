import Verif.Verdict.Model
/-!
# When an update is taken to have succeeded (C225)
-/
namespace Pulumi.Verdict

/-! ## Specification -/

/-- A plan is fulfilled: nothing is left of it, but deletions of what was not there -/
def Fulfilled (prev : List String) (plan : Option (List (String × List String))) : Prop :=
  ∀ p, plan = some p → ∀ urn ops, (urn, ops) ∈ p → ops = [] ∨ (ops = ["delete"] ∧ urn ∉ prev)

/-- The main loop ended this way, after handling every event before it without a result -/
def EndsWith (obs : List Obs) (last : Obs) : Prop :=
  ∃ pre post, obs = pre ++ last :: post ∧ ∀ o ∈ pre, ∃ urn, o = .handled urn none

/-- What is asked before the program runs -/
structure Begins (e : Env) : Prop where
  refreshed : e.refresh = none ∨ e.refresh = some none
  replace : ∀ t ∈ e.replaceTargets, e.olds t = true
  destroy : ∀ t ∈ e.destroyTargets, e.olds t = true
  kinds : e.destroyTargets = [] ∨ (e.updateTargets = [] ∧ e.replaceTargets = [])
  source : e.iterate = none
  retired : e.retire = none

/-- What is asked after it -/
structure Holds (e : Env) : Prop where
  targets : ∀ t ∈ e.updateTargets, e.olds t = true ∨ e.news t = true
  plan : Fulfilled e.prev e.plan
  steps : e.stepErrored = false
  generator : e.genErrored = false
  policies : e.analyze = none

/-! ## The parts -/

theorem loop_ended {obs : List Obs} {c : Bool} {reps : List Report} :
    loop obs = some (c, none, reps) ↔ reps = [] ∧ ((c = false ∧ EndsWith obs (.ended none)) ∨ EndsWith obs (.done c)) := by
  induction obs with
  | nil => simp [loop, EndsWith]
  | cons o rest ih =>
    have key : ∀ last, (EndsWith (o :: rest) last ↔ o = last ∨ ((∃ urn, o = .handled urn none) ∧ EndsWith rest last)) := by
      intro last
      constructor
      · rintro ⟨pre, post, he, hp⟩
        cases pre with
        | nil => simp at he; exact .inl he.1
        | cons a as =>
          simp at he
          obtain ⟨rfl, he⟩ := he
          exact .inr ⟨hp o (by simp), as, post, he, fun x hx => hp x (by simp [hx])⟩
      · rintro (rfl | ⟨ho, pre, post, he, hp⟩)
        · exact ⟨[], rest, rfl, by simp⟩
        · refine ⟨o :: pre, post, by simp [he], ?_⟩
          intro x hx
          rcases List.mem_cons.1 hx with rfl | hx
          · exact ho
          · exact hp x hx
    rw [key, key]
    cases o with
    | sourceFailed r => simp [loop]
    | ended d => cases d <;> simp [loop, eq_comm, and_comm]
    | handled urn r =>
      cases r with
      | none => simp [loop, ih]
      | some r => simp [loop]
    | done c' => simp [loop, eq_comm, and_comm]

theorem loop_bail {obs : List Obs} {c : Bool} {r : Res} {reps : List Report} (h : loop obs = some (c, some r, reps)) :
    c = false ∧ r = .bail := by
  induction obs with
  | nil => simp [loop] at h
  | cons o rest ih =>
    cases o with
    | sourceFailed r => simp [loop] at h; exact ⟨by simp [h.1], h.2.1.symm⟩
    | ended d => cases d <;> simp [loop] at h; exact ⟨by simp [h.1], h.2.1.symm⟩
    | handled urn r =>
      cases r with
      | none => exact ih h
      | some r => simp [loop] at h; exact ⟨by simp [h.1], h.2.1.symm⟩
    | done c' => simp [loop] at h

theorem checkTargets_none {known : String → Bool} {targets : List String} :
    (checkTargets known targets).1 = none ↔ ∀ t ∈ targets, known t = true := by
  simp [checkTargets, List.filter_eq_nil_iff]

theorem planLeft_nil {prev : List String} {plan : Option (List (String × List String))} :
    planLeft prev (plan.getD []) = [] ↔ Fulfilled prev plan := by
  cases plan with
  | none => simp [planLeft, Fulfilled]
  | some p =>
    simp only [planLeft, Fulfilled, Option.getD_some, List.map_eq_nil_iff, List.filter_eq_nil_iff, Option.some.injEq, forall_eq', Prod.forall]
    constructor
    · intro h urn ops hm
      have := h urn ops hm
      simp at this
      by_cases ho : ops = []
      · exact .inl ho
      · exact .inr (this ho)
    · intro h urn ops hm
      rcases h urn ops hm with rfl | ⟨rfl, hu⟩
      · simp
      · simp [hu]

theorem conclude_success {e : Env} {c : Bool} {res : Option Res} (hr : res = none ∨ res = some .bail) :
    (conclude e c res).1 = .success ↔ res = none ∧ c = false ∧ e.stepErrored = false ∧ e.genErrored = false ∧ e.analyze = none := by
  rcases hr with rfl | rfl
  · simp only [conclude]
    cases hs : e.stepErrored <;> cases hg : e.genErrored <;> cases ha : e.analyze <;> cases c <;> simp
  · simp [conclude]

theorem finish_success {e : Env} {c : Bool} {res : Option Res} (hr : res = none ∨ res = some .bail) :
    (finish e c res).1 = .success ↔ res = none ∧ c = false ∧ Holds e := by
  rcases hr with rfl | rfl
  · simp only [finish, if_true]
    cases ht : (checkTargets (fun u => e.olds u || e.news u) e.updateTargets).1 with
    | some r =>
      have hb : r = .bail := by
        simp only [checkTargets] at ht
        split at ht
        · cases ht
        · cases ht; rfl
      subst hb
      simp only [reduceCtorEq, if_false, if_true]
      rw [conclude_success (.inr rfl)]
      constructor
      · rintro ⟨h, _⟩; cases h
      · rintro ⟨-, -, hh⟩
        have := checkTargets_none.2 (fun t htm => by simpa using hh.targets t htm : ∀ t ∈ e.updateTargets, (fun u => e.olds u || e.news u) t = true)
        rw [this] at ht; cases ht
    | none =>
      have htar := checkTargets_none.1 ht
      simp only [if_true]
      by_cases hp : planLeft e.prev (e.plan.getD []) = []
      · simp only [hp, if_true]
        rw [conclude_success (.inl rfl)]
        constructor
        · rintro ⟨-, hc, hs, hg, ha⟩
          exact ⟨by simp, hc, ⟨fun t h => by simpa using htar t h, planLeft_nil.1 hp, hs, hg, ha⟩⟩
        · rintro ⟨-, hc, hh⟩
          exact ⟨rfl, hc, hh.steps, hh.generator, hh.policies⟩
      · simp only [hp, if_false]
        rw [conclude_success (.inr rfl)]
        constructor
        · rintro ⟨h, _⟩; cases h
        · rintro ⟨-, -, hh⟩; exact absurd (planLeft_nil.2 hh.plan) hp
  · simp only [finish, reduceCtorEq, if_false, if_true]
    rw [conclude_success (.inr rfl)]
    simp

theorem afterRefresh_success {e : Env} (hf : e.refresh = none ∨ e.refresh = some none) :
    (∃ reps, afterRefresh e = some (.success, reps)) ↔
      Begins e ∧ Holds e ∧ (EndsWith e.obs (.ended none) ∨ EndsWith e.obs (.done false)) := by
  simp only [afterRefresh]
  have hrep := checkTargets_none (known := e.olds) (targets := e.replaceTargets)
  have hdes := checkTargets_none (known := e.olds) (targets := e.destroyTargets)
  cases h1 : checkTargets e.olds e.replaceTargets with
  | mk r1 p1 =>
  rw [h1] at hrep
  cases r1 with
  | some r =>
    simp only [Option.some.injEq, Prod.mk.injEq, reduceCtorEq, false_and, exists_false, false_iff]
    rintro ⟨hb, -⟩
    have := hrep.2 hb.replace
    cases this
  | none =>
  cases h2 : checkTargets e.olds e.destroyTargets with
  | mk r2 p2 =>
  rw [h2] at hdes
  cases r2 with
  | some r =>
    simp only [Option.some.injEq, Prod.mk.injEq, reduceCtorEq, false_and, exists_false, false_iff]
    rintro ⟨hb, -⟩
    have := hdes.2 hb.destroy
    cases this
  | none =>
  have hrep := hrep.1 rfl
  have hdes := hdes.1 rfl
  by_cases hk : (e.updateTargets ≠ [] ∨ e.replaceTargets ≠ []) ∧ e.destroyTargets ≠ []
  · rw [if_pos hk]
    simp only [Option.some.injEq, Prod.mk.injEq, reduceCtorEq, false_and, exists_false, false_iff]
    rintro ⟨hb, -⟩
    rcases hb.kinds with h | ⟨h, h'⟩
    · exact hk.2 h
    · rcases hk.1 with h1 | h1
      · exact h1 h
      · exact h1 h'
  · rw [if_neg hk]
    have hkinds : e.destroyTargets = [] ∨ (e.updateTargets = [] ∧ e.replaceTargets = []) := by
      by_cases hd : e.destroyTargets = []
      · exact .inl hd
      · right
        constructor
        · apply Classical.byContradiction; intro h; exact hk ⟨.inl h, hd⟩
        · apply Classical.byContradiction; intro h; exact hk ⟨.inr h, hd⟩
    cases hi : e.iterate with
    | some r =>
      simp only [Option.some.injEq, Prod.mk.injEq, reduceCtorEq, false_and, exists_false, false_iff]
      rintro ⟨hb, -⟩
      have := hb.source; rw [hi] at this; cases this
    | none =>
      cases ht : e.retire with
      | some r =>
        simp only [Option.some.injEq, Prod.mk.injEq, reduceCtorEq, false_and, exists_false, false_iff]
        rintro ⟨hb, -⟩
        have := hb.retired; rw [ht] at this; cases this
      | none =>
        have hbeg : Begins e := ⟨hf, hrep, hdes, hkinds, hi, ht⟩
        cases hl : loop e.obs with
        | none =>
          simp only [reduceCtorEq, exists_false, false_iff]
          rintro ⟨-, -, h | h⟩
          · have := loop_ended (c := false) (reps := []) |>.2 ⟨rfl, .inl ⟨rfl, h⟩⟩
            rw [hl] at this; cases this
          · have := loop_ended (c := false) (reps := []) |>.2 ⟨rfl, .inr h⟩
            rw [hl] at this; cases this
        | some x =>
          obtain ⟨c, res, reps⟩ := x
          have hr : res = none ∨ res = some .bail := by
            cases res with
            | none => exact .inl rfl
            | some r => rw [(loop_bail hl).2]; exact .inr rfl
          have hfin := finish_success (e := e) (c := c) hr
          simp only [Option.some.injEq, Prod.mk.injEq, exists_and_left, exists_eq', and_true]
          rw [hfin]
          constructor
          · rintro ⟨rfl, rfl, hh⟩
            refine ⟨hbeg, hh, ?_⟩
            rcases (loop_ended.1 hl).2 with ⟨-, h⟩ | h
            · exact .inl h
            · exact .inr h
          · rintro ⟨-, hh, hend⟩
            have : loop e.obs = some (false, none, []) := by
              rcases hend with h | h
              · exact loop_ended.2 ⟨rfl, .inl ⟨rfl, h⟩⟩
              · exact loop_ended.2 ⟨rfl, .inr h⟩
            rw [hl] at this
            cases this
            exact ⟨rfl, rfl, hh⟩

/-! ## The result of an update -/

/-- **C225.** An update that is more than a refresh succeeds exactly where everything it began with succeeded, every event the loop saw was
handled, the loop ended with the end of the program and its deletions or with the end of a context the caller did not end, all targets
were found, the plan was fulfilled, and neither a step, nor the step generator, nor a policy failed. -/
theorem success_iff {e : Env} (hi : e.importing = none) (ho : e.refreshOnly = false) :
    (∃ reps, execute e = some (.success, reps)) ↔
      Begins e ∧ Holds e ∧ (EndsWith e.obs (.ended none) ∨ EndsWith e.obs (.done false)) := by
  simp only [execute, hi]
  cases hr : e.refresh with
  | none =>
    rw [← afterRefresh_success (.inl hr)]
    simp only [Option.map_eq_some_iff, Prod.mk.injEq, Prod.exists]
    constructor
    · rintro ⟨_, o, reps, h, rfl, -⟩; exact ⟨reps, h⟩
    · rintro ⟨reps, h⟩; exact ⟨_, _, reps, h, rfl, rfl⟩
  | some x =>
    cases x with
    | none => simp only [ho, Bool.false_eq_true, if_false]; exact afterRefresh_success (.inr hr)
    | some r =>
      simp only [Option.some.injEq, Prod.mk.injEq, reduceCtorEq, false_and, exists_false, false_iff]
      rintro ⟨hb, -⟩
      rcases hb.refreshed with h | h <;> (rw [hr] at h; cases h)

/-- **C225.** Since a context ends by itself only where a step failed, an update that succeeds has seen the program to its end: it handled
every event of it, then made its deletions. -/
theorem success_saw_the_end {e : Env} {reps : List Report} (hi : e.importing = none) (ho : e.refreshOnly = false)
    (hctx : .done false ∈ e.obs → e.stepErrored = true) (h : execute e = some (.success, reps)) : EndsWith e.obs (.ended none) := by
  obtain ⟨-, hh, h | h⟩ := (success_iff hi ho).1 ⟨reps, h⟩
  · exact h
  · obtain ⟨pre, post, he, -⟩ := h
    have := hctx (by rw [he]; simp)
    rw [hh.steps] at this; cases this

/-- **C225.** What fails makes the update fail: an error of the program, of an event, of the deletions, or the user's cancellation where
the loop sees it. -/
theorem failure_fails {e : Env} {reps : List Report} (hi : e.importing = none) (ho : e.refreshOnly = false) {last : Obs}
    (hl : EndsWith e.obs last) (hb : (∃ r, last = .sourceFailed r) ∨ (∃ r, last = .ended (some r)) ∨ (∃ u r, last = .handled u (some r)) ∨ last = .done true) :
    execute e ≠ some (.success, reps) := by
  intro h
  obtain ⟨-, -, hend⟩ := (success_iff hi ho).1 ⟨reps, h⟩
  have uniq : ∀ {obs : List Obs} {a b : Obs}, EndsWith obs a → EndsWith obs b → (∀ u, a ≠ .handled u none) → (∀ u, b ≠ .handled u none) → a = b := by
    intro obs
    induction obs with
    | nil => rintro a b ⟨pre, post, h, -⟩; simp at h
    | cons o rest ih =>
      rintro a b ⟨p1, q1, h1, a1⟩ ⟨p2, q2, h2, a2⟩ na nb
      cases p1 with
      | nil =>
        cases p2 with
        | nil => simp at h1 h2; rw [← h1.1, ← h2.1]
        | cons x xs =>
          simp at h1 h2
          obtain ⟨u, hu⟩ := a2 x (by simp)
          exact absurd (h1.1.symm.trans (h2.1.trans hu)) (na u)
      | cons y ys =>
        simp at h1
        cases p2 with
        | nil =>
          simp at h2
          obtain ⟨u, hu⟩ := a1 y (by simp)
          exact absurd (h2.1.symm.trans (h1.1.trans hu)) (nb u)
        | cons x xs =>
          simp at h2
          exact ih ⟨ys, q1, h1.2, fun z hz => a1 z (by simp [hz])⟩ ⟨xs, q2, h2.2, fun z hz => a2 z (by simp [hz])⟩ na nb
  have hnl : ∀ u, last ≠ .handled u none := by
    rintro u rfl
    rcases hb with ⟨r, h⟩ | ⟨r, h⟩ | ⟨_, r, h⟩ | h <;> cases h
  rcases hend with h | h <;>
    (have := uniq hl h hnl (by simp); subst this; rcases hb with ⟨r, h⟩ | ⟨r, h⟩ | ⟨_, r, h⟩ | h <;> cases h)

/-- a plain update of a program with these observations -/
def plain (obs : List Obs) : Env where
  importing := none
  refresh := none
  refreshOnly := false
  preview := false
  pendingOps := false
  updateTargets := []
  replaceTargets := []
  destroyTargets := []
  olds := fun _ => true
  news := fun _ => true
  iterate := none
  retire := none
  obs := obs
  prev := []
  plan := none
  stepErrored := false
  genErrored := false
  analyze := none

example : execute (plain [.handled "a" none, .handled "b" none, .ended none]) = some (.success, []) := by decide

example : EndsWith [.handled "a" none, .done true] (.done true) := ⟨[.handled "a" none], [], rfl, by simp⟩

/-! ## What is reported -/

theorem checkTargets_reports {known : String → Bool} {targets : List String} {r : Res} {reps : List Report}
    (h : checkTargets known targets = (some r, reps)) : reps ≠ [] := by
  simp only [checkTargets, Prod.mk.injEq] at h
  obtain ⟨h1, rfl⟩ := h
  split at h1
  · cases h1
  · rename_i hn; simpa using hn

theorem finish_reports {e : Env} {c : Bool} {r : Res} (h : (finish e c none).1 = .failed r) (ha : e.analyze ≠ some .bail) :
    (finish e c none).2 ≠ [] := by
  simp only [finish, if_true] at h ⊢
  cases ht : checkTargets (fun u => e.olds u || e.news u) e.updateTargets with
  | mk tr trep =>
  simp only [ht] at h ⊢
  cases tr with
  | some x =>
    intro hn
    simp only [List.append_eq_nil_iff] at hn
    exact checkTargets_reports ht hn.1.1
  | none =>
    simp only [if_true] at h ⊢
    by_cases hp : planLeft e.prev (e.plan.getD []) = []
    · simp only [hp, if_true] at h ⊢
      simp only [conclude] at h ⊢
      cases hs : e.stepErrored <;> cases hg : e.genErrored <;> cases haz : e.analyze <;> cases c <;>
        simp_all [execReport] <;> (rename_i x; cases x <;> simp_all [reportOf])
    · simp [hp]

/-- **C225.** A failure is never silent: where an update fails without one of its parts having bailed, which is to have reported it,
something is reported. -/
theorem failure_reported {e : Env} {r : Res} {reps : List Report} (hi : e.importing = none)
    (hf : ∀ r, e.refresh ≠ some (some r)) (hit : e.iterate = none) (hre : e.retire = none) (ha : e.analyze ≠ some .bail)
    (hob : ∀ o ∈ e.obs, o ≠ .sourceFailed .bail ∧ o ≠ .ended (some .bail) ∧ ∀ u, o ≠ .handled u (some .bail))
    (h : execute e = some (.failed r, reps)) : reps ≠ [] := by
  have hloop : ∀ {obs : List Obs} {c : Bool} {r : Res} {reps : List Report},
      (∀ o ∈ obs, o ≠ .sourceFailed .bail ∧ o ≠ .ended (some .bail) ∧ ∀ u, o ≠ .handled u (some .bail)) →
      loop obs = some (c, some r, reps) → reps ≠ [] := by
    intro obs
    induction obs with
    | nil => intro c r reps _ h; simp [loop] at h
    | cons o rest ih =>
      intro c r reps hob h
      have ho := hob o (by simp)
      cases o with
      | sourceFailed x => cases x <;> simp_all [loop, reportOf]; rw [← h.2.2]; simp
      | ended d =>
        cases d with
        | none => simp [loop] at h
        | some x => cases x <;> simp_all [loop, reportOf]; rw [← h.2.2]; simp
      | handled u x =>
        cases x with
        | none => exact ih (fun o ho => hob o (by simp [ho])) h
        | some x => cases x <;> simp_all [loop, reportOf]; rw [← h.2.2]; simp
      | done c' => simp [loop] at h
  have main : ∀ {r reps}, afterRefresh e = some (.failed r, reps) → reps ≠ [] := by
    intro r reps h
    simp only [afterRefresh, hit, hre] at h
    split at h
    · rename_i x rp hx; cases h; exact checkTargets_reports hx
    · split at h
      · rename_i x rp hx; cases h; exact checkTargets_reports hx
      · split at h
        · simp at h
        · split at h
          · cases h
          · rename_i c res rp hl
            simp only [Option.some.injEq, Prod.mk.injEq] at h
            obtain ⟨h1, rfl⟩ := h
            cases res with
            | some x =>
              intro hn
              exact hloop hob hl (List.append_eq_nil_iff.1 hn).1
            | none =>
              intro hn
              exact finish_reports h1 ha (List.append_eq_nil_iff.1 hn).2
  simp only [execute, hi] at h
  cases hr : e.refresh with
  | none =>
    rw [hr] at h
    simp only [Option.map_eq_some_iff, Prod.mk.injEq] at h
    obtain ⟨o, ho, h1, rfl⟩ := h
    obtain ⟨o1, o2⟩ := o
    simp only at h1; subst h1
    intro hn
    exact main ho (List.append_eq_nil_iff.1 hn).2
  | some x =>
    cases x with
    | some r' => exact absurd hr (hf r')
    | none =>
      rw [hr] at h
      simp only at h
      split at h
      · simp at h
      · exact main h

example : execute { plain [.done true] with preview := true } = some (.failed .bail, [.error "" "preview canceled"]) := by decide

/-- **C225.** An import ends as importing does, and an update whose refresh fails as the refresh does; one that only refreshes succeeds where the
refresh does, whatever else is asked. -/
theorem passed_on (e : Env) :
    (∀ r, e.importing = some (some r) → execute e = some (.failed r, [])) ∧ (e.importing = some none → execute e = some (.success, [])) ∧
    (e.importing = none → ∀ r, e.refresh = some (some r) → execute e = some (.failed r, [])) ∧
    (e.importing = none → e.refresh = some none → e.refreshOnly = true → execute e = some (.success, [])) := by
  refine ⟨?_, ?_, ?_, ?_⟩ <;> intros <;> simp_all [execute]

theorem loop_no_warning {obs : List Obs} {c : Bool} {res : Option Res} {reps : List Report} (h : loop obs = some (c, res, reps)) :
    .pendingWarning ∉ reps := by
  have hr : ∀ u r, Report.pendingWarning ∉ reportOf u r := by intro u r; cases r <;> simp [reportOf]
  induction obs with
  | nil => simp [loop] at h
  | cons o rest ih =>
    cases o with
    | sourceFailed r => simp only [loop, Option.some.injEq, Prod.mk.injEq] at h; rw [← h.2.2]; exact hr _ _
    | ended d => cases d <;> simp only [loop, Option.some.injEq, Prod.mk.injEq] at h <;> rw [← h.2.2]; · simp
                 · exact hr _ _
    | handled u r =>
      cases r with
      | none => exact ih h
      | some r => simp only [loop, Option.some.injEq, Prod.mk.injEq] at h; rw [← h.2.2]; exact hr _ _
    | done c => simp only [loop, Option.some.injEq, Prod.mk.injEq] at h; rw [← h.2.2]; simp

theorem finish_no_warning (e : Env) (c : Bool) (res : Option Res) : .pendingWarning ∉ (finish e c res).2 := by
  have hr : ∀ u r, Report.pendingWarning ∉ reportOf u r := by intro u r; cases r <;> simp [reportOf]
  have hc : ∀ res, Report.pendingWarning ∉ (conclude e c res).2 := by
    intro res
    simp only [conclude]
    split
    · simp
    · split
      · exact hr _ _
      · split
        · simp [execReport]
        · split <;> simp [execReport]
  simp only [finish, List.mem_append, not_or]
  refine ⟨⟨?_, by simp⟩, hc _⟩
  split <;> simp [checkTargets]

/-- **C225.** The warning that operations of an earlier update were interrupted is given exactly by an update, not a preview, that does not refresh
and starts from a snapshot with such operations, however the update then ends. -/
theorem pending_warned {e : Env} {o : Outcome} {reps : List Report} (hi : e.importing = none) (h : execute e = some (o, reps)) :
    .pendingWarning ∈ reps ↔ e.refresh = none ∧ e.pendingOps = true ∧ e.preview = false := by
  have main : ∀ {o reps}, afterRefresh e = some (o, reps) → .pendingWarning ∉ reps := by
    intro o reps h
    simp only [afterRefresh] at h
    have hct : ∀ {k t r rp}, checkTargets k t = (r, rp) → Report.pendingWarning ∉ rp := by
      intro k t r rp h
      simp only [checkTargets, Prod.mk.injEq] at h
      rw [← h.2]; simp
    split at h
    · rename_i x rp hx; cases h; exact hct hx
    · split at h
      · rename_i x rp hx; cases h; exact hct hx
      · split at h
        · cases h; simp
        · split at h
          · cases h; simp
          · split at h
            · cases h; simp
            · split at h
              · cases h
              · rename_i c res rp hl
                cases h
                simp only [List.mem_append, not_or]
                exact ⟨loop_no_warning hl, finish_no_warning e c res⟩
  simp only [execute, hi] at h
  cases hr : e.refresh with
  | none =>
    rw [hr] at h
    simp only [Option.map_eq_some_iff, Prod.mk.injEq] at h
    obtain ⟨⟨o1, o2⟩, ho, -, rfl⟩ := h
    have := main ho
    cases e.pendingOps <;> cases e.preview <;> simp [this]
  | some x =>
    rw [hr] at h
    cases x with
    | some r' => cases h; simp
    | none =>
      simp only at h
      split at h
      · cases h; simp
      · simp [main h]

example : execute { plain [.handled "a" (some (.err "no such property"))] with pendingOps := true } =
    some (.failed .bail, [.pendingWarning, .error "a" "no such property"]) := by decide

/-- **C225, what is wrong.** A cancellation that comes while the deletions are made is not noticed: those that were not begun are left out, the
deletions give no result, and the update is taken to have succeeded, with nothing reported. -/
theorem canceled_deletes_succeed (sets : List (List String)) (i : Nat) (hi : i + 1 < sets.length) :
    (performDeletes (.ok sets) (some i)).2 ≠ sets ∧
      execute (plain [.ended (performDeletes (.ok sets) (some i)).1]) = some (.success, []) := by
  refine ⟨?_, by simp only [performDeletes]; decide⟩
  intro h
  have := congrArg List.length h
  simp only [performDeletes, List.length_take] at this
  omega

/-- All deletions are begun where nothing ends the context -/
theorem deletes_all (sets : List (List String)) : performDeletes (.ok sets) none = (none, sets) := rfl

/-- **C225, what is wrong.** A failed step leaves no result, so the operations of the plan it kept from being made are reported too, each as an
error of its own, and that the update failed is not. -/
theorem failed_step_blames_the_plan (urn : String) (ops : List String) (hne : ops ≠ []) (hd : ops ≠ ["delete"]) :
    execute { plain [.done false] with stepErrored := true, plan := some [(urn, ops)] } =
      some (.failed .bail, [.error urn ("expected resource operations for " ++ urn ++ " but none were seen")]) := by
  have hl : planLeft [] [(urn, ops)] = [urn] := by simp [planLeft, hne, hd]
  simp [execute, afterRefresh, plain, checkTargets, loop, finish, conclude, hl]

/-- **C225, what is wrong.** So, where the user cancels, is a target that was yet to be created: that it was canceled is not reported. -/
theorem canceled_blames_the_target (t : String) :
    execute { plain [.done true] with updateTargets := [t], olds := fun _ => false, news := fun _ => false } =
      some (.failed .bail, [.unknownTarget t]) := by
  simp [execute, afterRefresh, plain, checkTargets, loop, finish, conclude]

/-- **C225.** Where no target is missing and the plan is fulfilled, a failed step is reported as a failed update, and a cancellation as one. -/
theorem plain_reports {e : Env} (c : Bool) (ht : ∀ t ∈ e.updateTargets, e.olds t = true ∨ e.news t = true) (hp : Fulfilled e.prev e.plan) :
    (e.stepErrored = true → finish e c none = (.failed .bail, [.error "" ((if e.preview = true then "preview" else "update") ++ " failed")])) ∧
    (e.stepErrored = false → e.genErrored = false → e.analyze = none → c = true →
      finish e c none = (.failed .bail, [.error "" ((if e.preview = true then "preview" else "update") ++ " canceled")])) := by
  have h1 : (checkTargets (fun u => e.olds u || e.news u) e.updateTargets) = (none, []) := by
    have hf : e.updateTargets.filter (fun t => !(e.olds t || e.news t)) = [] := by
      rw [List.filter_eq_nil_iff]; intro t h; have := ht t h; simp; intro h'; simpa [h'] using this
    simp only [checkTargets, hf, if_true, List.map_nil]
  have h2 := planLeft_nil.2 hp
  constructor
  · intro hs
    simp only [finish, if_true, h1, h2, conclude, hs]
    cases hpv : e.preview <;> simp [execReport] <;> decide
  · intro hs hg ha hc
    simp only [finish, if_true, h1, h2, conclude, hs, hg, ha, hc]
    cases hpv : e.preview <;> simp [execReport] <;> decide

end Pulumi.Verdict
