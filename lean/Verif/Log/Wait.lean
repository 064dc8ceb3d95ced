import Verif.Log.Inv

namespace Pulumi.Log

open Loop (mainTop_cases mem_outstanding again_ne_waiting)

/-- What the loop knows of the tasks of `_log` while it waits, and when it has returned. -/
structure Wait (s : State) : Prop where
  waiting : ∀ f ids, s.loop.main = .waiting f ids →
    (∀ (k : Nat) (p : Made) (i : Nat), k < s.looked → s.calls[k]? = some p → p.task = some i → s.loop.resultOf i ≠ none ∨ i ∈ ids) ∧
    (∀ (k : Nat) (p : Made), s.calls[k]? = some p → p.byProgram = true → k < s.looked)
  returned : s.loop.main = .returned →
    (∀ (k : Nat) (p : Made) (i : Nat), k < s.looked → s.calls[k]? = some p → p.task = some i → s.loop.resultOf i ≠ none) ∧
    (∀ (k : Nat) (p : Made), s.calls[k]? = some p → p.byProgram = true → k < s.looked)

theorem wait_init : Wait State.init := by
  constructor
  · intro f ids h; cases h
  · intro h; cases h

theorem not_returned_of_runs {l : Loop.State} (h : Runs l) : l.main ≠ .returned := by
  intro e
  rcases h with h | ⟨h, _⟩
  · rw [e] at h; cases h
  · rw [e] at h; exact h rfl

theorem isUser_waiting {l : Loop.State} {f : Option Nat} {ids : List Nat} (h : l.main = .waiting f ids) : isUser l = false := by
  unfold isUser
  rw [h]

/-- A new call. -/
theorem wait_add {s : State} (hi : Inv s) (hw : Wait s) (c : Call) (ti : Option Nat) (l : Loop.State) (sent : List (Nat × Msg))
    (refused : List Nat) (hruns : Runs s.loop) (hmain : l.main = s.loop.main)
    (hres : ∀ i, i < s.loop.tasks.length → l.resultOf i = s.loop.resultOf i) :
    Wait { s.add c ti with loop := l, sent := sent, refused := refused } := by
  constructor
  · intro f ids hm
    replace hm : l.main = _ := hm
    rw [hmain] at hm
    obtain ⟨h1, h2⟩ := hw.waiting f ids hm
    constructor
    · intro k p i hk hp ht
      rcases (getElem?_snoc _ _ _ _).1 hp with h | ⟨h, _⟩
      · show l.resultOf i ≠ none ∨ _
        rw [hres i (hi.task_lt k p i h ht)]
        exact h1 k p i hk h ht
      · have := hi.looked_le
        have : k < s.looked := hk
        omega
    · intro k p hp hb
      rcases (getElem?_snoc _ _ _ _).1 hp with h | ⟨_, rfl⟩
      · exact h2 k p h hb
      · replace hb : isUser s.loop = true := hb
        rw [isUser_waiting hm] at hb
        cases hb
  · intro hm
    replace hm : l.main = _ := hm
    rw [hmain] at hm
    exact absurd hm (not_returned_of_runs hruns)

/-- A task of `_log` ends. -/
theorem wait_finish {s : State} (hi : Inv s) (hw : Wait s) (j : Nat) (r : Loop.Result) (sent : List (Nat × Msg)) (refused : List Nat)
    (hne : ¬ s.loop.main.ended) :
    Wait { s with sent := sent, refused := refused, loop := { s.loop with tasks := Loop.finish s.loop.tasks j r } } := by
  constructor
  · intro f ids hm
    obtain ⟨h1, h2⟩ := hw.waiting f ids hm
    refine ⟨?_, h2⟩
    intro k p i hk hp ht
    show Loop.State.resultOf { s.loop with tasks := Loop.finish s.loop.tasks j r } i ≠ none ∨ _
    rw [resultOf_finish _ _ _ _ (hi.task_lt k p i hp ht)]
    rcases h1 k p i hk hp ht with h | h
    · refine .inl ?_
      split
      · simp
      · exact h
    · exact .inr h
  · intro hm
    replace hm : s.loop.main = _ := hm
    rw [hm] at hne
    exact absurd rfl hne

theorem wait_other {s : State} (hi : Inv s) (hw : Wait s) {l : Loop.State} (hs : Loop.Step true s.loop l)
    (hr : ∀ (k : Nat) (p : Made) (i : Nat), s.calls[k]? = some p → p.task = some i → l.resultOf i = s.loop.resultOf i) :
    Wait { s with loop := l, looked := if looks s.loop then s.calls.length else s.looked } := by
  have keep : l.main = s.loop.main → ¬ s.loop.main.ended → 
      Wait { s with loop := l, looked := if looks s.loop then s.calls.length else s.looked } := by
    intro hmain hne
    constructor
    · intro f ids hm
      replace hm : l.main = _ := hm
      rw [hmain] at hm
      have hl : looks s.loop = false := by unfold looks; rw [hm]
      simp only [hl]
      obtain ⟨h1, h2⟩ := hw.waiting f ids hm
      refine ⟨?_, h2⟩
      intro k p i hk hp ht
      show l.resultOf i ≠ none ∨ _
      rw [hr k p i hp ht]
      exact h1 k p i hk hp ht
    · intro hm
      replace hm : l.main = _ := hm
      rw [hmain] at hm
      rw [hm] at hne
      exact absurd rfl hne
  have none : (∀ f ids, l.main ≠ .waiting f ids) → l.main ≠ .returned →
      Wait { s with loop := l, looked := if looks s.loop then s.calls.length else s.looked } := by
    intro h1 h2
    constructor
    · intro f ids hm; exact absurd hm (h1 f ids)
    · intro hm; exact absurd hm h2
  cases hs with
  | userSpawn hm _ => exact keep rfl (by rw [hm]; decide)
  | taskSpawn hm => exact keep rfl hm
  | taskEnd hm => exact keep rfl hm
  | wrapStart hm => exact keep rfl hm
  | wrapEnd hm => exact keep rfl hm
  | userEnd => exact none (by intro f ids h; cases h) (by intro h; cases h)
  | @popped g hg =>
    refine none ?_ ?_
    · intro f ids h; simp only at h; split at h <;> cases h
    · intro h; simp only at h; split at h <;> cases h
  | @awaited g i r hg _ =>
    refine none ?_ ?_
    · intro f ids h; cases r <;> cases h
    · intro h; cases r <;> cases h
  | waitRaised => exact none (by intro f ids h; cases h) (by intro h; cases h)
  | @top f hm =>
    rcases mainTop_cases true s.loop f with ⟨_, h2⟩ | ⟨_, e, h1, h2⟩ | ⟨h0, hu, _, _, h2⟩ | ⟨h0, hu, h1, h2⟩
    · refine none ?_ ?_
      · intro f ids h; simp only [h2] at h; cases h
      · intro h; simp only [h2] at h; cases h
    · refine none ?_ ?_
      · intro f ids h; simp only [h2] at h; cases h
      · intro h; simp only [h2] at h; cases h
    · have hl : looks s.loop = true := by unfold looks; rw [hm, h0, hu]; rfl
      simp only [hl]
      constructor
      · intro g ids h
        simp only [h2] at h
        cases h
        refine ⟨?_, fun k p hp _ => lt_of_some hp⟩
        intro k p i _ hp ht
        show Loop.State.resultOf _ i ≠ _ ∨ _
        rw [hr k p i hp ht]
        by_cases hx : s.loop.resultOf i = Option.none
        · exact .inr (mem_outstanding.2 ⟨hi.task_lt k p i hp ht, hx⟩)
        · exact .inl hx
      · intro h; simp only [h2] at h; cases h
    · have hl : looks s.loop = true := by unfold looks; rw [hm, h0, hu]; rfl
      simp only [hl]
      constructor
      · intro g ids h
        simp only [h2] at h
        cases f <;> cases h
      · intro _
        refine ⟨?_, fun k p hp _ => lt_of_some hp⟩
        intro k p i _ hp ht
        show Loop.State.resultOf _ i ≠ _
        rw [hr k p i hp ht]
        intro hx
        have := mem_outstanding.2 ⟨hi.task_lt k p i hp ht, hx⟩
        rw [h1 rfl] at this
        cases this
  | @waitDone f ids hm hall =>
    have hl : looks s.loop = false := by unfold looks; rw [hm]
    simp only [hl]
    obtain ⟨h1, h2⟩ := hw.waiting f ids hm
    constructor
    · intro g ids' h
      exact absurd h again_ne_waiting
    · intro _
      refine ⟨?_, h2⟩
      intro k p i hk hp ht
      rcases h1 k p i hk hp ht with h | h
      · exact h
      · show s.loop.resultOf i ≠ _
        rw [hall i h]
        simp

theorem wait_step {s t : State} (hi : Inv s) (hw : Wait s) (h : Step s t) : Wait t := by
  cases h with
  | now hr he => exact wait_add hi hw _ _ s.loop _ s.refused hr rfl (fun _ _ => rfl)
  | nowRefused hr he => exact wait_add hi hw _ _ s.loop s.sent _ hr rfl (fun _ _ => rfl)
  | later hr he => exact wait_add hi hw _ _ (Loop.spawn s.loop .plain) s.sent s.refused hr rfl (fun i h => resultOf_spawn _ _ _ h)
  | urn _ => exact ⟨hw.waiting, hw.returned⟩
  | send hne => exact wait_finish hi hw _ .ok _ s.refused hne
  | @sendRefused k i r e _ _ hne => exact wait_finish hi hw i (.exn e) s.sent _ hne
  | @urnFailed k i r e _ hne => exact wait_finish hi hw i (.exn e) s.sent s.refused hne
  | other hs hr => exact wait_other hi hw hs hr

theorem wait_steps {s : State} (h : Steps State.init s) : Wait s := by
  induction h with
  | refl => exact wait_init
  | tail h hs ih => exact wait_step (inv_steps h) ih hs

end Pulumi.Log
