import Verif.Settings.Spec
namespace Pulumi.Settings

theorem upd_same {α β : Type} [DecidableEq α] (f : α → β) (a : α) (b : β) : upd f a b a = b := by simp [upd]

theorem upd_ne {α β : Type} [DecidableEq α] {f : α → β} {a x : α} {b : β} (h : x ≠ a) : upd f a b x = f x := by simp [upd, h]

theorem set_vars (s : State) (c f v) : (s.set c f v).vars = upd s.vars c (upd (s.vars c) f (some v)) := by
  unfold State.set; split <;> rfl

theorem set_heap (s : State) (c f v) : (s.set c f v).heap = s.heap := by unfold State.set; split <;> rfl
theorem set_next (s : State) (c f v) : (s.set c f v).next = s.next := by unfold State.set; split <;> rfl
theorem set_root (s : State) (c f v) : (s.set c f v).root = s.root := by unfold State.set; split <;> rfl
theorem set_pending (s : State) (c f v) : (s.set c f v).pending = s.pending := by unfold State.set; split <;> rfl

theorem set_vars_same (s : State) (c f v) : (s.set c f v).vars c f = some v := by
  rw [set_vars, upd_same, upd_same]

theorem set_vars_field (s : State) {c f f' v} (h : f' ≠ f) : (s.set c f v).vars c f' = s.vars c f' := by
  rw [set_vars, upd_same, upd_ne h]

theorem set_vars_other (s : State) {c c' f v} (h : c' ≠ c) : (s.set c f v).vars c' = s.vars c' := by
  rw [set_vars, upd_ne h]

theorem get_of_var {s : State} {c f v} (h : s.vars c f = some v) : s.get c f = v := by simp [State.get, h]

theorem newFeatures_same (s : State) (c) : (s.newFeatures c).vars c .features = some (.addr s.next) := by
  unfold State.newFeatures; exact set_vars_same ..

theorem newFeatures_field (s : State) {c f} (h : f ≠ .features) : (s.newFeatures c).vars c f = s.vars c f := by
  unfold State.newFeatures; rw [set_vars_field _ h]

theorem newFeatures_other (s : State) {c c'} (h : c' ≠ c) : (s.newFeatures c).vars c' = s.vars c' := by
  unfold State.newFeatures; rw [set_vars_other _ h]

theorem newFeatures_heap (s : State) (c) : (s.newFeatures c).heap = upd s.heap s.next [] := by
  unfold State.newFeatures; rw [set_heap]

theorem newFeatures_next (s : State) (c) : (s.newFeatures c).next = s.next + 1 := by
  unfold State.newFeatures; rw [set_next]

theorem newFeatures_root (s : State) (c) : (s.newFeatures c).root = s.root := by
  unfold State.newFeatures; rw [set_root]

theorem newFeatures_pending (s : State) (c) : (s.newFeatures c).pending = s.pending := by
  unfold State.newFeatures; rw [set_pending]

theorem legacy_same (s : State) {c e v} (h : s.vars c .legacyApply = some v) :
    (s.legacyFromEnv c e).vars c .legacyApply = some (if v = .none then .bool e else v) := by
  unfold State.legacyFromEnv
  rw [get_of_var h]
  by_cases hn : v = .none
  · rw [if_pos hn, if_pos hn]; exact set_vars_same ..
  · rw [if_neg hn, if_neg hn]; exact h

theorem legacy_field (s : State) {c e f} (h : f ≠ .legacyApply) : (s.legacyFromEnv c e).vars c f = s.vars c f := by
  unfold State.legacyFromEnv; split
  · exact set_vars_field _ h
  · rfl

theorem legacy_other (s : State) {c c' e} (h : c' ≠ c) : (s.legacyFromEnv c e).vars c' = s.vars c' := by
  unfold State.legacyFromEnv; split
  · exact set_vars_other _ h
  · rfl

theorem legacy_heap (s : State) (c e) : (s.legacyFromEnv c e).heap = s.heap := by
  unfold State.legacyFromEnv; split
  · exact set_heap ..
  · rfl

theorem legacy_next (s : State) (c e) : (s.legacyFromEnv c e).next = s.next := by
  unfold State.legacyFromEnv; split
  · exact set_next ..
  · rfl

theorem legacy_root (s : State) (c e) : (s.legacyFromEnv c e).root = s.root := by
  unfold State.legacyFromEnv; split
  · exact set_root ..
  · rfl

theorem legacy_pending (s : State) (c e) : (s.legacyFromEnv c e).pending = s.pending := by
  unfold State.legacyFromEnv; split
  · exact set_pending ..
  · rfl

/-- Everything about `Settings(...)`. -/
theorem mkSettings_spec (s : State) (c : Nat) (a : Args) (e : Bool) :
    (∀ f v, a.shows e f = some v → (mkSettings s c a e).vars c f = some v) ∧
    (mkSettings s c a e).vars c .features = some (.addr s.next) ∧
    (∀ c', c' ≠ c → (mkSettings s c a e).vars c' = s.vars c') ∧
    (mkSettings s c a e).heap = upd s.heap s.next [] ∧ (mkSettings s c a e).next = s.next + 1 ∧
    (mkSettings s c a e).root = s.root ∧ (mkSettings s c a e).pending = s.pending := by
  unfold mkSettings
  simp only
  have hl : ∀ s : State, ((s.set c .legacyApply a.legacyApply).newFeatures c |>.set c .organization a.organization).vars c .legacyApply = some a.legacyApply := by
    intro s
    rw [set_vars_field _ (by decide), newFeatures_field _ (by decide), set_vars_same]
  refine ⟨?_, ?_, ?_, ?_, ?_, ?_, ?_⟩
  · intro f v h
    cases f with
    | legacyApply =>
      simp only [Args.shows, Option.some.injEq] at h; subst h
      rw [set_vars_field _ (by decide), set_vars_field _ (by decide)]
      exact legacy_same _ (hl _)
    | features => simp [Args.shows] at h
    | _ =>
      simp only [Args.shows, Option.some.injEq] at h; subst h
      simp only [set_vars_same, set_vars_field, legacy_field, newFeatures_field, ne_eq, reduceCtorEq, not_false_eq_true]
  · simp only [set_vars_field, legacy_field, newFeatures_same, set_next, ne_eq, reduceCtorEq, not_false_eq_true]
  · intro c' hc
    simp only [set_vars_other _ hc, legacy_other _ hc, newFeatures_other _ hc]
  · simp only [set_heap, legacy_heap, newFeatures_heap, set_next]
  · simp only [set_next, legacy_next, newFeatures_next]
  · simp only [set_root, legacy_root, newFeatures_root]
  · simp only [set_pending, legacy_pending, newFeatures_pending]

/-- Operations in other contexts do not change the variables of a context. -/
theorem step_vars_other {s : State} {op : Op} {c : Nat} (h : op.context ≠ c) : (step s op).vars c = s.vars c ∧ (step s op).root c = s.root c := by
  have h' := Ne.symm h
  cases op with
  | settings c' a e =>
    obtain ⟨_, _, h3, _, _, h6, _⟩ := mkSettings_spec s c' a e
    exact ⟨h3 c h', congrFun h6 c⟩
  | reset c' a e =>
    obtain ⟨_, _, h3, _, _, h6, _⟩ := mkSettings_spec { s with root := upd s.root c' none } c' a e
    exact ⟨h3 c h', (congrFun h6 c).trans (upd_ne h')⟩
  | mock c' m e p t dr =>
    simp only [Op.context] at h'
    simp only [step, mockSettings, set_vars_other _ h', set_root, and_self]
  | assign c' f v =>
    simp only [Op.context] at h'
    simp only [step, set_vars_other _ h', set_root, and_self]
  | setRoot c' r => exact ⟨rfl, upd_ne h'⟩
  | fork c0 c' => exact ⟨upd_ne h', upd_ne h'⟩
  | thread c' => exact ⟨upd_ne h', upd_ne h'⟩
  | ask c' f =>
    simp only [step, ask]
    split
    · split
      · exact ⟨rfl, rfl⟩
      · split <;> exact ⟨rfl, rfl⟩
    · exact ⟨rfl, rfl⟩
  | answer c' f m ans =>
    simp only [Op.context] at h'
    simp only [step, answer]
    split
    · exact ⟨rfl, rfl⟩
    · split
      · simp only [set_vars_other _ h', set_root, and_self]
      · exact ⟨rfl, rfl⟩

theorem run_vars_other {ops : List Op} {s : State} {c : Nat} (h : ∀ op ∈ ops, op.context ≠ c) :
    (run s ops).vars c = s.vars c ∧ (run s ops).root c = s.root c := by
  induction ops generalizing s with
  | nil => exact ⟨rfl, rfl⟩
  | cons op ops ih =>
    obtain ⟨h1, h2⟩ := step_vars_other (s := s) (h op (by simp))
    obtain ⟨h3, h4⟩ := ih (s := step s op) (fun o ho => h o (by simp [ho]))
    exact ⟨h3.trans h1, h4.trans h2⟩

end Pulumi.Settings
