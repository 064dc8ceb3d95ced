import Verif.Interrupt.Model
/-!
# What interrupting an update does (C226)
-/
namespace Pulumi.Interrupt

variable {R : Type}

/-- What holds at every moment of a run -/
structure Inv (s : St R) : Prop where
  presses : s.received ≤ s.pressed
  cancels : s.cancel = true → 1 ≤ s.received
  terminates : s.terminate = true → 2 ≤ s.received ∧ s.cancel = true
  calm : s.busy = true → 1 ≤ s.received ∧ (s.cancel = true → 2 ≤ s.received)
  acted : 1 ≤ s.received → s.busy = false → s.cancel = true
  acted2 : 2 ≤ s.received → s.busy = false → s.terminate = true
  waits : s.busy = true → 2 ≤ s.received → s.cancel = true
  passes : s.execCanceled = true → s.cancel = true
  ends : ∀ x, s.ending = some x → (x = .terminated ∧ s.terminate = true) ∨ (∃ r, x = .walked r ∧ s.walk = some r)
  records : ∃ lost, s.finished = s.written ++ lost ∧ (s.terminate = false → lost = [])
  silent : s.shown = []

theorem inv_init : Inv (St.init R) := by
  constructor <;> simp [St.init]

theorem inv_step {s s' : St R} {a : Act R} (hi : Inv s) (h : step s a = some s') : Inv s' := by
  obtain ⟨h1, h2, h3, h4, h5, h6, h7, h8, h9, h10, h11⟩ := hi
  have hseen : s.canceledSeen = s.cancel := by
    cases ht : s.terminate with
    | false => simp [St.canceledSeen, ht]
    | true => simp [St.canceledSeen, (h3 ht).2]
  cases a with
  | press =>
    simp only [step] at h
    split at h
    · cases h
    · split at h
      · cases h
        exact ⟨by simp only; omega, h2, h3, h4, h5, h6, h7, h8, h9, h10, h11⟩
      · rename_i hb
        have hb : s.busy = false := by simpa using hb
        cases h
        refine ⟨by simp only; omega, fun h => ?_, fun h => ⟨?_, (h3 h).2⟩, fun _ => ⟨by simp only; omega, fun h => ?_⟩, fun _ h => by simp at h, fun _ h => by simp at h, fun _ h => ?_, h8, h9, h10, h11⟩
        · have := h2 h; simp only; omega
        · have := (h3 h).1; simp only; omega
        · have := h2 h; simp only; omega
        · simp only at h; exact h5 (by omega) hb
  | handle =>
    simp only [step] at h
    split at h
    · rename_i hb
      cases h
      simp only [onSignal, hseen]
      cases hc : s.cancel with
      | false =>
        have ht : s.terminate = false := by
          cases ht : s.terminate with
          | false => rfl
          | true => rw [(h3 ht).2] at hc; cases hc
        have hr : s.received < 2 := by
          apply Classical.byContradiction; intro hn
          have := h7 hb (by omega); rw [hc] at this; cases this
        simp only [if_true]
        refine ⟨h1, fun _ => (h4 hb).1, fun h => ?_, fun h => by simp at h, fun _ _ => rfl, fun h _ => ?_, fun h => by simp at h, fun _ => rfl, h9, h10, h11⟩
        · simp only at h; rw [ht] at h; cases h
        · simp only at h; omega
      | true =>
        simp only [Bool.true_eq_false, if_false]
        refine ⟨h1, fun _ => h2 hc, fun _ => ⟨(h4 hb).2 hc, rfl⟩, fun h => by simp at h, fun _ _ => rfl, fun _ _ => rfl, fun h => by simp at h, fun _ => rfl, ?_, ?_, h11⟩
        · intro x hx
          rcases h9 x hx with ⟨h, _⟩ | h
          · exact .inl ⟨h, rfl⟩
          · exact .inr h
        · obtain ⟨l, hl, -⟩ := h10
          exact ⟨l, hl, by simp⟩
    · cases h
  | pass =>
    simp only [step, hseen] at h
    split at h
    · rename_i hp
      cases h
      simp at hp
      exact ⟨h1, h2, h3, h4, h5, h6, h7, fun _ => hp.1, h9, h10, h11⟩
    · cases h
  | listenerEnds =>
    simp only [step] at h
    split at h
    · cases h
      exact ⟨h1, h2, h3, h4, h5, h6, h7, h8, h9, h10, h11⟩
    · cases h
  | stepDone u =>
    simp only [step] at h
    obtain ⟨l, hl, hlost⟩ := h10
    split at h
    · cases h
    · split at h
      · rename_i ht
        cases h
        exact ⟨h1, h2, h3, h4, h5, h6, h7, h8, h9, ⟨l ++ [u], by simp [hl], by simp [ht]⟩, h11⟩
      · rename_i ht
        have ht : s.terminate = false := by simpa using ht
        cases h
        have := hlost ht
        subst this
        exact ⟨h1, h2, h3, h4, h5, h6, h7, h8, h9, ⟨[], by simp [hl], by simp⟩, h11⟩
  | walkEnds r =>
    simp only [step] at h
    split at h
    · cases h
    · rename_i hw
      cases h
      refine ⟨h1, h2, h3, h4, h5, h6, h7, h8, ?_, h10, h11⟩
      intro x hx
      rcases h9 x hx with h | ⟨r', _, h⟩
      · exact .inl h
      · rw [h] at hw; simp at hw
  | seeTerminated =>
    simp only [step] at h
    split at h
    · rename_i ht
      cases h
      simp at ht
      refine ⟨h1, h2, h3, h4, h5, h6, h7, h8, ?_, h10, h11⟩
      intro x hx
      cases hx
      exact .inl ⟨rfl, ht.1⟩
    · cases h
  | seeDone =>
    simp only [step] at h
    split at h
    · cases h
    · rename_i r hw
      split at h
      · cases h
        refine ⟨h1, h2, h3, h4, h5, h6, h7, h8, ?_, h10, h11⟩
        intro x hx
        cases hx
        exact .inr ⟨r, rfl, hw⟩
      · cases h
  | close =>
    simp only [step] at h
    split at h
    · cases h
      exact ⟨h1, h2, h3, h4, h5, h6, h7, h8, h9, h10, h11⟩
    · cases h

theorem inv_run {acts : List (Act R)} {s s' : St R} (hi : Inv s) (h : run s acts = some s') : Inv s' := by
  induction acts generalizing s with
  | nil => cases h; exact hi
  | cons a rest ih =>
    simp only [run, Option.bind_eq_some_iff] at h
    obtain ⟨m, hm, h⟩ := h
    exact ih (inv_step hi hm) h

/-- **C226.** Without `^C` nothing is canceled: the deployment's context goes on, and what the update ends with is the result of the deployment. -/
theorem untouched {acts : List (Act R)} {s : St R} (h : run (.init R) acts = some s) (hp : s.pressed = 0) :
    s.execCanceled = false ∧ s.canceledSeen = false ∧ s.finished = s.written ∧ ∀ x, s.ending = some x → ∃ r, x = .walked r ∧ s.walk = some r := by
  have hi := inv_run inv_init h
  have hr : s.received = 0 := by have := hi.presses; omega
  have hc : s.cancel = false := by
    cases hc : s.cancel with
    | false => rfl
    | true => have := hi.cancels hc; omega
  have ht : s.terminate = false := by
    cases ht : s.terminate with
    | false => rfl
    | true => have := (hi.terminates ht).1; omega
  refine ⟨?_, by simp [St.canceledSeen, hc, ht], ?_, ?_⟩
  · cases he : s.execCanceled with
    | false => rfl
    | true => have := hi.passes he; rw [hc] at this; cases this
  · obtain ⟨l, hl, hl'⟩ := hi.records
    simpa [hl' ht] using hl
  · intro x hx
    rcases hi.ends x hx with ⟨_, h⟩ | h
    · rw [ht] at h; cases h
    · exact h

/-- **C226.** One `^C` never gives up on what is under way: however the goroutines run, the update then ends only with the deployment, with its
result, and every step that completed was written to the checkpoint. -/
theorem one_interrupt_is_safe {acts : List (Act R)} {s : St R} (h : run (.init R) acts = some s) (hp : s.pressed ≤ 1) :
    s.terminate = false ∧ s.finished = s.written ∧ ∀ x, s.ending = some x → ∃ r, x = .walked r ∧ s.walk = some r := by
  have hi := inv_run inv_init h
  have ht : s.terminate = false := by
    cases ht : s.terminate with
    | false => rfl
    | true => have := (hi.terminates ht).1; have := hi.presses; omega
  refine ⟨ht, ?_, ?_⟩
  · obtain ⟨l, hl, hl'⟩ := hi.records
    simpa [hl' ht] using hl
  · intro x hx
    rcases hi.ends x hx with ⟨_, h⟩ | h
    · rw [ht] at h; cases h
    · exact h

/-- **C226.** An update that returns before its deployment ended was interrupted twice or more, and one canceled at least once. -/
theorem early_end_needs_two {acts : List (Act R)} {s : St R} {x : Ending R} (h : run (.init R) acts = some s) (hx : s.ending = some x)
    (hw : s.walk = none) : x = .terminated ∧ 2 ≤ s.pressed := by
  have hi := inv_run inv_init h
  rcases hi.ends x hx with ⟨h1, h2⟩ | ⟨r, _, h2⟩
  · have := (hi.terminates h2).1; have := hi.presses
    exact ⟨h1, by omega⟩
  · rw [hw] at h2; cases h2

/-- **C226.** Once a `^C` was acted upon the update is canceled, and once a second was received and acted upon it is terminated; then the cancellation
can be passed on to the deployment, and the update can return, whatever the deployment does. -/
theorem interrupts_work {acts : List (Act R)} {s : St R} (h : run (.init R) acts = some s) (hb : s.busy = false) :
    (1 ≤ s.received → s.canceledSeen = true ∧ (s.passed = false → ∃ s', step s .pass = some s' ∧ s'.execCanceled = true)) ∧
    (2 ≤ s.received → s.terminate = true ∧ (s.ending = none → ∃ s', step s .seeTerminated = some s' ∧ s'.ending = some .terminated)) := by
  have hi := inv_run inv_init h
  constructor
  · intro hr
    have hc := hi.acted hr hb
    have hs : s.canceledSeen = true := by simp [St.canceledSeen, hc]
    refine ⟨hs, fun hp => ?_⟩
    simp only [step, hs, hp]
    exact ⟨_, rfl, rfl⟩
  · intro hr
    have ht := hi.acted2 hr hb
    refine ⟨ht, fun he => ?_⟩
    simp only [step, ht, he]
    exact ⟨_, rfl, rfl⟩

/-- **C226.** A `^C` that comes while the program receives signals is received, and one that was received is acted upon. -/
theorem interrupt_received {s : St R} (hc : s.closed = false) (hb : s.busy = false) :
    ∃ s₁ s₂, step s .press = some s₁ ∧ s₁.received = s.received + 1 ∧ step s₁ .handle = some s₂ ∧ s₂.busy = false ∧ s₂.received = s.received + 1 := by
  refine ⟨{ s with pressed := s.pressed + 1, received := s.received + 1, busy := true }, { onSignal { s with pressed := s.pressed + 1, received := s.received + 1, busy := true } with busy := false }, by simp [step, hc, hb], rfl, by simp [step], rfl, ?_⟩
  simp only [onSignal]
  split <;> rfl

/-- **C226.** What the checkpoint is told of is always the beginning of what completed: nothing is written out of order or without having completed. -/
theorem written_is_a_prefix {acts : List (Act R)} {s : St R} (h : run (.init R) acts = some s) : s.written <+: s.finished := by
  obtain ⟨l, hl, -⟩ := (inv_run inv_init h).records
  exact ⟨l, hl.symm⟩

/-- an update, interrupted once while a step is under way, that completes it and ends -/
def once : List (Act String) := [.stepDone "a", .press, .handle, .pass, .stepDone "b", .walkEnds "canceled", .seeDone, .close]

example : (run (.init String) once).map (fun s => (s.pressed, s.written, s.ending)) = some (1, ["a", "b"], some (.walked "canceled")) := by decide

/-- the same, interrupted again -/
def twice : List (Act String) := [.stepDone "a", .press, .handle, .press, .handle, .seeTerminated, .stepDone "b"]

example : (run (.init String) twice).map (fun s => (s.pressed, s.walk, s.ending)) = some (2, none, some .terminated) := by decide

/-- **C226, what is wrong.** The messages on `^C`, that another one terminates at once and may orphan resources, are built but never sent: no run
shows any. -/
theorem never_shown {acts : List (Act R)} {s : St R} (h : run (.init R) acts = some s) : s.shown = [] :=
  (inv_run inv_init h).silent

/-- **C226, what is wrong.** A step that completes after the second `^C` is not written to the checkpoint: for any step there is a run in which it was
made and is not recorded. The code means this (`update.go:532-533`). -/
theorem terminated_loses_steps (u : String) (r : R) : ∃ s, run (.init R) [.press, .handle, .press, .handle, .stepDone u, .walkEnds r, .seeTerminated] = some s ∧
    s.finished = [u] ∧ s.written = [] ∧ s.walk = some r := ⟨_, rfl, rfl, rfl, rfl⟩

/-- **C226, what is wrong.** A `^C` can be lost: pressed again while the first is acted upon, it does not terminate. -/
theorem interrupt_lost : ∃ s, run (.init R) [.press, .press, .handle] = some s ∧ s.pressed = 2 ∧ s.busy = false ∧ s.terminate = false := ⟨_, rfl, rfl, rfl, rfl⟩

/-- **C226, what is wrong.** What an update ends with that was terminated as its deployment ended depends on which is seen first: from the same state it
ends with the result of the deployment or with the error of the termination. -/
theorem ending_depends (r : R) : ∃ s, run (.init R) [.press, .handle, .press, .handle, .walkEnds r] = some s ∧
    (step s .seeDone).map (·.ending) = some (some (.walked r)) ∧ (step s .seeTerminated).map (·.ending) = some (some .terminated) := ⟨_, rfl, rfl, rfl⟩

end Pulumi.Interrupt
