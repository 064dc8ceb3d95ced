/-!
# Preview, confirmation and execution (C213)

Models `/repo/pkg/backend/apply.go:83-231` (`PreviewThenPrompt`, `confirmBeforeUpdating`, `PreviewThenPromptThenExecute`) and what the commands make of their flags
(`/repo/pkg/cmd/pulumi/up.go:398-408` and the same lines of destroy.go, refresh.go and import.go, `updateFlagsToOptions`, `/repo/pkg/cmd/pulumi/util.go:818-828`). Plans are of any type; running the
engine is a parameter that gets a plan and says whether it succeeded, what it planned and what the plan that it was given looks like afterwards: plans are changed as they are checked. What is
displayed, the locks and the events are left out.
-/
namespace Pulumi.Display

/-- What the one who is asked does (169-192): chooses, or makes the question fail, such as with Ctrl+C -/
inductive Reply where
  | yes
  | no
  | details
  | cancel
deriving DecidableEq, Repr

/-- How it ends. `waiting` is while the question has no reply. -/
inductive Outcome where
  | ok
  | failed
  | bailed
  | cancelled
  | waiting
deriving DecidableEq, Repr

/-- One run of the engine: whether nothing is changed, and the plan that it is given -/
structure Run (π : Type) where
  dryRun : Bool
  plan : Option π
deriving DecidableEq, Repr

/-- What comes of it: an error or not, the plan that was made, and what became of the one that was given -/
structure Result (π : Type) where
  ok : Bool
  made : Option π
  given : Option π

/-- `UpdateOptions`, as far as it is used here, and whether the kind of update is a preview -/
structure Opts (π : Type) where
  autoApprove : Bool
  skipPreview : Bool
  experimentalPlans : Bool
  previewOnly : Bool
  plan : Option π

/-- `confirmBeforeUpdating` (135-194) -/
def confirm : List Reply → Outcome
  | [] => .waiting
  | .cancel :: _ => .cancelled
  | .no :: _ => .bailed
  | .yes :: _ => .ok
  | .details :: l => confirm l

/-- `PreviewThenPrompt` (83-132) -/
def previewThenPrompt {π : Type} (apply : Run π → Result π) (o : Opts π) (replies : List Reply) : List (Run π) × Option π × Outcome :=
  let r := apply ⟨true, o.plan⟩
  let runs := [⟨true, o.plan⟩]
  if !r.ok then (runs, r.made, .failed)
  else if o.autoApprove || o.previewOnly then (runs, r.made, .ok)
  else (runs, r.made, confirm replies)

/-- The last part (223-231) -/
def execute {π : Type} (apply : Run π → Result π) (plan : Option π) : List (Run π) × Outcome := ([⟨false, plan⟩], if (apply ⟨false, plan⟩).ok then .ok else .failed)

/-- `PreviewThenPromptThenExecute` (196-231). The plan of the options is behind a pointer: after the preview it is what the engine made of it, and so it is copied before (205-208). -/
def updateStack {π : Type} (apply : Run π → Result π) (o : Opts π) (replies : List Reply) : List (Run π) × Outcome :=
  if !o.skipPreview then
    let originalPlan := o.plan
    let p := previewThenPrompt apply o replies
    if p.2.2 ≠ .ok ∨ o.previewOnly = true then (p.1, p.2.2)
    else
      let afterPreview := (apply ⟨true, o.plan⟩).given
      let plan := if originalPlan.isSome then originalPlan else if o.experimentalPlans then p.2.1 else afterPreview
      let e := execute apply plan
      (p.1 ++ e.1, e.2)
  else execute apply o.plan

/-- What a command is given: `--yes`, `--skip-preview`, whether there is a terminal, and `PULUMI_SKIP_CONFIRMATIONS` -/
structure Flags where
  yes : Bool
  skipPreview : Bool
  interactive : Bool
  skipConfirmations : Bool
deriving DecidableEq, Repr

/-- A command (up.go:398-408, util.go:818-828); `none` is that it is refused. -/
def command {π : Type} (apply : Run π → Result π) (f : Flags) (experimental : Bool) (plan : Option π) (replies : List Reply) : Option (List (Run π) × Outcome) :=
  let yes := f.yes || f.skipPreview || f.skipConfirmations
  if !f.interactive && !yes then none
  else some (updateStack apply ⟨yes, f.skipPreview, experimental, false, plan⟩ replies)

/-! ## What is said about it -/

theorem confirm_ok {l : List Reply} : confirm l = .ok ↔ ∃ k m, l = List.replicate k .details ++ .yes :: m := by
  constructor
  · intro h
    induction l with
    | nil => cases h
    | cons r l ih =>
      cases r with
      | yes => exact ⟨0, l, rfl⟩
      | no => cases h
      | cancel => cases h
      | details =>
        obtain ⟨k, m, rfl⟩ := ih h
        exact ⟨k + 1, m, rfl⟩
  · rintro ⟨k, m, rfl⟩
    induction k with
    | zero => rfl
    | succ k ih => exact ih

/-- **C213** Nothing is changed without consent: if a command runs the engine for real, then it was given `--yes` or `--skip-preview`, or the environment says to skip confirmations, or the preview
succeeded and the question was answered with yes, after nothing but requests for details. -/
theorem nothing_without_consent {π : Type} {apply : Run π → Result π} {f : Flags} {experimental : Bool} {plan : Option π} {replies : List Reply} {runs : List (Run π)} {out : Outcome}
    (h : command apply f experimental plan replies = some (runs, out)) {r : Run π} (hr : r ∈ runs) (hd : r.dryRun = false) :
    f.yes = true ∨ f.skipPreview = true ∨ f.skipConfirmations = true ∨
    (f.interactive = true ∧ (apply ⟨true, plan⟩).ok = true ∧ ∃ k m, replies = List.replicate k .details ++ .yes :: m) := by
  by_cases hy : (f.yes || f.skipPreview || f.skipConfirmations) = true
  · simp only [Bool.or_eq_true] at hy
    rcases hy with (hy | hy) | hy
    · exact .inl hy
    · exact .inr (.inl hy)
    · exact .inr (.inr (.inl hy))
  · have hy' : (f.yes || f.skipPreview || f.skipConfirmations) = false := by simpa using hy
    have hsp : f.skipPreview = false := by
      cases hs : f.skipPreview
      · rfl
      · simp [hs] at hy'
    refine .inr (.inr (.inr ?_))
    unfold command at h
    simp only [hy'] at h
    split at h
    · cases h
    · rename_i hi
      refine ⟨by simpa using hi, ?_⟩
      injection h with h
      unfold updateStack at h
      simp only [hsp, Bool.not_false, if_true] at h
      split at h
      · exfalso
        have := congrArg (·.1) h
        simp only [previewThenPrompt] at this
        have hruns : runs = [⟨true, plan⟩] := by
          rw [← this]; split
          · rfl
          · split <;> rfl
        rw [hruns, List.mem_singleton] at hr
        rw [hr] at hd; cases hd
      · rename_i hne
        have hok : (previewThenPrompt apply ⟨false, false, experimental, false, plan⟩ replies).2.2 = .ok := by
          apply Classical.byContradiction
          intro hno
          exact hne (.inl hno)
        unfold previewThenPrompt at hok
        simp only at hok
        split at hok
        · cases hok
        · rename_i h1
          simp only [Bool.or_self, Bool.false_eq_true, if_false] at hok
          exact ⟨by simpa using h1, confirm_ok.mp hok⟩

/-- **C213** Without a terminal, and without one of the flags, the command is refused and the engine is not run at all. -/
theorem refused_without_terminal {π : Type} (apply : Run π → Result π) (experimental : Bool) (plan : Option π) (replies : List Reply) : command apply ⟨false, false, false, false⟩ experimental plan replies = none := rfl

/-- **C213** The engine is run for real at most once and as the last thing, and before that it has previewed the same plan, unless the preview is to be skipped. -/
theorem preview_first {π : Type} {apply : Run π → Result π} {o : Opts π} {replies : List Reply} {runs : List (Run π)} {out : Outcome} (h : updateStack apply o replies = (runs, out)) :
    (runs = [⟨true, o.plan⟩] ∧ o.skipPreview = false) ∨ (∃ p, runs = [⟨true, o.plan⟩, ⟨false, p⟩] ∧ o.skipPreview = false ∧ o.previewOnly = false ∧ (apply ⟨true, o.plan⟩).ok = true) ∨
    (runs = [⟨false, o.plan⟩] ∧ o.skipPreview = true) := by
  have hruns : (previewThenPrompt apply o replies).1 = [⟨true, o.plan⟩] := by
    unfold previewThenPrompt
    simp only
    split
    · rfl
    · split <;> rfl
  unfold updateStack at h
  split at h
  · rename_i hs
    have hs' : o.skipPreview = false := by simpa using hs
    simp only at h
    split at h
    · exact .inl ⟨by rw [← hruns]; exact (congrArg Prod.fst h).symm, hs'⟩
    · rename_i hne
      refine .inr (.inl ⟨_, (congrArg Prod.fst h).symm.trans (by rw [hruns]; rfl), hs', ?_, ?_⟩)
      · cases hp : o.previewOnly
        · rfl
        · exact absurd (.inr hp) hne
      · cases ha : (apply ⟨true, o.plan⟩).ok
        · exact absurd (.inl (by unfold previewThenPrompt; simp [ha])) hne
        · rfl
  · rename_i hs
    exact .inr (.inr ⟨(congrArg (·.1) h).symm, by simpa using hs⟩)

/-- **C213** If a plan was given, that plan is what the engine is held to when it is run for real, as it was before the preview; if none was given, it is the one of the preview if plans are enabled. -/
theorem held_to_the_plan {π : Type} {apply : Run π → Result π} {o : Opts π} {replies : List Reply} {r : Run π} (hr : r ∈ (updateStack apply o replies).1) (hd : r.dryRun = false) :
    (o.plan.isSome = true → r.plan = o.plan) ∧ (o.plan = none → o.skipPreview = false → o.experimentalPlans = true → r.plan = (apply ⟨true, none⟩).made) := by
  have hruns : (previewThenPrompt apply o replies).1 = [⟨true, o.plan⟩] := by
    unfold previewThenPrompt
    simp only
    split
    · rfl
    · split <;> rfl
  have hmade : (previewThenPrompt apply o replies).2.1 = (apply ⟨true, o.plan⟩).made := by
    unfold previewThenPrompt
    simp only
    split
    · rfl
    · split <;> rfl
  unfold updateStack at hr
  split at hr
  · simp only at hr
    split at hr
    · rw [hruns, List.mem_singleton] at hr
      rw [hr] at hd; cases hd
    · rw [hruns] at hr
      simp only [execute, List.singleton_append, List.mem_cons, List.not_mem_nil, or_false] at hr
      rcases hr with rfl | rfl
      · cases hd
      · refine ⟨fun hp => by simp only [hp, if_true], fun hp _ he => ?_⟩
        rw [hmade, hp]
        simp [he]
  · rename_i hs
    simp only [execute, List.mem_singleton] at hr
    subst hr
    exact ⟨fun _ => rfl, fun _ h => by rw [h] at hs; simp at hs⟩

/-- **C213** A preview changes nothing. -/
theorem previews_change_nothing {π : Type} {apply : Run π → Result π} {o : Opts π} {replies : List Reply} (hp : o.previewOnly = true) (hs : o.skipPreview = false) :
    ∀ r ∈ (updateStack apply o replies).1, r.dryRun = true := by
  intro r hr
  generalize he : updateStack apply o replies = e at hr
  rcases preview_first (runs := e.1) (out := e.2) he with ⟨h, -⟩ | ⟨p, -, -, h, -⟩ | ⟨-, h⟩
  · rw [h, List.mem_singleton] at hr; rw [hr]
  · rw [hp] at h; cases h
  · rw [hs] at h; cases h

/-- **C213** Success is reported only if the last run succeeded, and what was declined, cancelled or not answered is not reported as success. -/
theorem success_is_real {π : Type} {apply : Run π → Result π} {o : Opts π} {replies : List Reply} (h : (updateStack apply o replies).2 = .ok) :
    ∃ r, (updateStack apply o replies).1.getLast? = some r ∧ (apply r).ok = true ∧ r.dryRun = (o.previewOnly && !o.skipPreview) := by
  have hruns : (previewThenPrompt apply o replies).1 = [⟨true, o.plan⟩] := by
    unfold previewThenPrompt
    simp only
    split
    · rfl
    · split <;> rfl
  unfold updateStack at h ⊢
  split
  · rename_i hs
    rw [if_pos hs] at h
    simp only at h ⊢
    have hs' : o.skipPreview = false := by simpa using hs
    split
    · rename_i hne
      rw [if_pos hne] at h
      simp only at h
      have hp : o.previewOnly = true := by
        rcases hne with hne | hne
        · exact absurd h hne
        · exact hne
      rw [hruns]
      refine ⟨⟨true, o.plan⟩, rfl, ?_, by simp [hp, hs']⟩
      cases ha : (apply ⟨true, o.plan⟩).ok
      · unfold previewThenPrompt at h; simp [ha] at h
      · rfl
    · rename_i hne
      rw [if_neg hne] at h
      simp only [execute] at h ⊢
      have hp : o.previewOnly = false := by
        cases hp : o.previewOnly
        · rfl
        · exact absurd (.inr hp) hne
      generalize (if o.plan.isSome = true then o.plan else if o.experimentalPlans = true then (previewThenPrompt apply o replies).2.1 else (apply ⟨true, o.plan⟩).given) = q at h ⊢
      refine ⟨⟨false, q⟩, by rw [List.getLast?_append]; rfl, ?_, by simp [hp]⟩
      apply Classical.byContradiction
      intro hno
      rw [if_neg hno] at h
      cases h
  · rename_i hs
    rw [if_neg hs] at h
    have hs' : o.skipPreview = true := by simpa using hs
    simp only [execute] at h ⊢
    refine ⟨⟨false, o.plan⟩, rfl, ?_, by simp [hs']⟩
    apply Classical.byContradiction
    intro hno
    rw [if_neg hno] at h
    cases h

/-- A plan is a number; the engine counts it down as it checks it, and plans 9. Details, then yes: the plan that was given is used up by the preview, and is as before for the update. -/
example : command (fun r : Run Nat => ⟨true, some 9, r.plan.map (· - 1)⟩) ⟨false, false, true, false⟩ true (some 3) [.details, .yes] = some ([⟨true, some 3⟩, ⟨false, some 3⟩], .ok) := by decide

example : command (fun r : Run Nat => ⟨true, some 9, r.plan⟩) ⟨false, false, true, false⟩ true none [.yes] = some ([⟨true, none⟩, ⟨false, some 9⟩], .ok) := by decide

example : command (fun r : Run Nat => ⟨true, some 9, r.plan⟩) ⟨false, false, true, false⟩ true none [.details, .no] = some ([⟨true, none⟩], .bailed) := by decide

end Pulumi.Display
