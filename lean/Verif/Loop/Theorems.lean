import Verif.Loop.Lemmas

/-!
# Waiting for RPCs: the properties
-/
namespace Pulumi.Loop

variable {aw : Bool}

/-- Task `i` is an RPC that has been started. -/
def State.IsRpc (s : State) (i : Nat) : Prop := ∃ t : Task, s.tasks[i]? = some t ∧ t.kind = .rpc

/-- **C39** When the program's run returns normally, every RPC ever started, also by other RPCs, has completed without an
exception, whatever the program does and however tasks interleave. -/
theorem returned_complete {s : State} (h : Steps aw State.init s) (hr : s.main = .returned) :
    (∀ i, s.IsRpc i → s.resultOf i = some .ok) ∧ s.unhandled = none := by
  have hi := inv_steps inv_init h
  have hall : ∀ (i : Nat) (t : Task), s.tasks[i]? = some t → t.kind = .rpc → t.result = some .ok := by
    intro i t ht hk
    rcases hi.tracked i t ht hk with h1 | h1 | ⟨f, h1⟩ | ⟨e, h1⟩
    · rw [hi.returned hr] at h1; cases h1
    · exact h1
    · rw [hr] at h1; cases h1
    · rw [hr] at h1; cases h1
  constructor
  · rintro i ⟨t, ht, hk⟩
    simp [State.resultOf, ht, hall i t ht hk]
  · cases hu : s.unhandled with
    | none => rfl
    | some e =>
      obtain ⟨i, t, h1, h2, h3⟩ := hi.recorded e hu
      rw [hall i t h1 h2] at h3
      cases h3

/-- A run that returns normally: the program asks for an RPC and ends, the loop waits for the RPC's wrapper, which begins
the RPC, both finish, and the loop pops and awaits the RPC. -/
theorem normal_run : Steps true State.init ⟨[⟨.wrapper (some 1), some .ok⟩, ⟨.rpc, some .ok⟩], [], none, .returned⟩ := by
  have a1 : Steps true State.init ⟨[⟨.wrapper none, none⟩], [], none, .user⟩ :=
    .tail .refl (.userSpawn (k := .wrapper none) rfl rfl)
  have a2 : Steps true State.init ⟨[⟨.wrapper none, none⟩], [], none, .top none⟩ := .tail a1 (.userEnd rfl)
  have a3 : Steps true State.init ⟨[⟨.wrapper none, none⟩], [], none, .waiting none [0]⟩ := .tail a2 (.top rfl)
  have a4 : Steps true State.init ⟨[⟨.wrapper (some 1), none⟩, ⟨.rpc, none⟩], [1], none, .waiting none [0]⟩ :=
    .tail a3 (.wrapStart (i := 0) (by decide) rfl)
  have a5 : Steps true State.init ⟨[⟨.wrapper (some 1), none⟩, ⟨.rpc, some .ok⟩], [1], none, .waiting none [0]⟩ :=
    .tail a4 (.taskEnd (i := 1) (r := .ok) (by decide) rfl rfl rfl)
  have a6 : Steps true State.init ⟨[⟨.wrapper (some 1), some .ok⟩, ⟨.rpc, some .ok⟩], [1], none, .waiting none [0]⟩ :=
    .tail a5 (.wrapEnd (i := 0) (j := 1) (r := .ok) (by decide) rfl rfl)
  have a7 : Steps true State.init ⟨[⟨.wrapper (some 1), some .ok⟩, ⟨.rpc, some .ok⟩], [1], none, .top none⟩ :=
    .tail a6 (.waitDone (f := none) (ids := [0]) rfl (by intro i hi; cases hi with | head => rfl | tail _ h => cases h))
  have a8 : Steps true State.init ⟨[⟨.wrapper (some 1), some .ok⟩, ⟨.rpc, some .ok⟩], [1], none, .sleeping none⟩ :=
    .tail a7 (.top (f := none) rfl)
  have a9 : Steps true State.init ⟨[⟨.wrapper (some 1), some .ok⟩, ⟨.rpc, some .ok⟩], [], none, .awaiting none 1⟩ :=
    .tail a8 (.popped (f := none) rfl)
  have a10 : Steps true State.init ⟨[⟨.wrapper (some 1), some .ok⟩, ⟨.rpc, some .ok⟩], [], none, .top none⟩ :=
    .tail a9 (.awaited (f := none) (r := .ok) rfl rfl)
  exact .tail a10 (.top (f := none) rfl)

/-- The hypotheses of `returned_complete` are met, with an RPC in it. -/
example : ∃ s, Steps true State.init s ∧ s.main = .returned ∧ s.IsRpc 1 :=
  ⟨_, normal_run, rfl, _, rfl, rfl⟩

/-- A run that raises because of an RPC, without `await_all_outstanding_tasks`: the RPC was begun before the wait. The
exception stays recorded. -/
theorem failing_run :
    Steps false State.init ⟨[⟨.wrapper (some 1), some .ok⟩, ⟨.rpc, some (.exn 7)⟩], [], some 7, .raised 7⟩ := by
  have a1 : Steps false State.init ⟨[⟨.wrapper none, none⟩], [], none, .user⟩ :=
    .tail .refl (.userSpawn (k := .wrapper none) rfl rfl)
  have a4 : Steps false State.init ⟨[⟨.wrapper (some 1), none⟩, ⟨.rpc, none⟩], [1], none, .user⟩ :=
    .tail a1 (.wrapStart (i := 0) (by decide) rfl)
  have a5 : Steps false State.init ⟨[⟨.wrapper (some 1), none⟩, ⟨.rpc, some (.exn 7)⟩], [1], none, .user⟩ :=
    .tail a4 (.taskEnd (i := 1) (r := .exn 7) (by decide) rfl rfl rfl)
  have a6 : Steps false State.init ⟨[⟨.wrapper (some 1), some .ok⟩, ⟨.rpc, some (.exn 7)⟩], [1], some 7, .user⟩ :=
    .tail a5 (.wrapEnd (i := 0) (j := 1) (r := .exn 7) (by decide) rfl rfl)
  have a7 : Steps false State.init ⟨[⟨.wrapper (some 1), some .ok⟩, ⟨.rpc, some (.exn 7)⟩], [1], some 7, .top none⟩ :=
    .tail a6 (.userEnd rfl)
  have a8 : Steps false State.init ⟨[⟨.wrapper (some 1), some .ok⟩, ⟨.rpc, some (.exn 7)⟩], [1], some 7, .sleeping none⟩ :=
    .tail a7 (.top (f := none) rfl)
  have a9 : Steps false State.init ⟨[⟨.wrapper (some 1), some .ok⟩, ⟨.rpc, some (.exn 7)⟩], [], some 7, .awaiting none 1⟩ :=
    .tail a8 (.popped (f := none) rfl)
  exact .tail a9 (.awaited (f := none) (r := .exn 7) rfl rfl)

/-- **C39** Once an RPC has failed, the run cannot return normally any more: not even if the program caught the failure,
as it can for `invoke`. -/
theorem failed_rpc_reported {s s' : State} (h : Steps aw State.init s) (i e : Nat) (hi : s.IsRpc i)
    (hf : s.resultOf i = some (.exn e)) (h' : Steps aw s s') : s'.main ≠ .returned := by
  intro hr
  obtain ⟨t, ht, hk⟩ := hi
  obtain ⟨t', g1, g2, _⟩ := steps_grows h' ht
  have := (returned_complete (steps_trans h h') hr).1 i ⟨t', g1, by rw [g2 (by rw [hk]; rfl), hk]⟩
  rw [resultOf_stays_steps h' hf] at this
  cases this

example : ∃ s, Steps false State.init s ∧ s.IsRpc 1 ∧ s.resultOf 1 = some (.exn 7) :=
  ⟨_, failing_run, ⟨_, rfl, rfl⟩, rfl⟩

/-- The program itself ended with exception `e` before `s`. -/
def ProgramRaised (aw : Bool) (s : State) (e : Nat) : Prop :=
  ∃ s0, Steps aw State.init s0 ∧ s0.main = .user ∧ Steps aw { s0 with main := .top (some e) } s

theorem carries_raised {s : State} (h : Steps aw State.init s) :
    (∀ e, s.main.carries = some (some e) → ProgramRaised aw s e) ∧
    (∀ e, s.main = .raised e → ProgramRaised aw s e ∨ ∃ i, s.resultOf i = some (.exn e)) := by
  induction h with
  | refl => simp [State.init, Main.carries]
  | @tail t u h hstep ih =>
    have hinv := inv_steps inv_init h
    have prog : ∀ e, ProgramRaised aw t e → ProgramRaised aw u e := by
      rintro e ⟨s0, h1, h2, h3⟩
      exact ⟨s0, h1, h2, .tail h3 hstep⟩
    have same : u.main = t.main → (∀ e, u.main.carries = some (some e) → ProgramRaised aw u e) ∧
        (∀ e, u.main = .raised e → ProgramRaised aw u e ∨ ∃ i, u.resultOf i = some (.exn e)) := by
      intro he
      rw [he]
      refine ⟨fun e hc => prog e (ih.1 e hc), fun e hr => ?_⟩
      rcases ih.2 e hr with h1 | ⟨i, h1⟩
      · exact .inl (prog e h1)
      · exact .inr ⟨i, resultOf_stays hstep h1⟩
    have left : ∀ f, t.main.carries = some f → u.main = leave f →
        (∀ e, u.main.carries = some (some e) → ProgramRaised aw u e) ∧
        (∀ e, u.main = .raised e → ProgramRaised aw u e ∨ ∃ i, u.resultOf i = some (.exn e)) := by
      intro f hf he
      rw [he]
      cases f with
      | none => simp [leave, Main.carries]
      | some e0 =>
        refine ⟨by simp [leave, Main.carries], fun e hr => ?_⟩
        simp only [leave, Main.raised.injEq] at hr
        subst hr
        exact .inl (prog _ (ih.1 _ hf))
    have carried : ∀ f, t.main.carries = some f → u.main.carries = some f → (∀ e, u.main ≠ .raised e) →
        (∀ e, u.main.carries = some (some e) → ProgramRaised aw u e) ∧
        (∀ e, u.main = .raised e → ProgramRaised aw u e ∨ ∃ i, u.resultOf i = some (.exn e)) := by
      intro f hf hf' hne
      refine ⟨fun e he => ?_, fun e he => absurd he (hne e)⟩
      rw [hf'] at he
      cases he
      exact prog e (ih.1 e hf)
    have raised : ∀ e0, u.main = .raised e0 → (∃ i, u.resultOf i = some (.exn e0)) →
        (∀ e, u.main.carries = some (some e) → ProgramRaised aw u e) ∧
        (∀ e, u.main = .raised e → ProgramRaised aw u e ∨ ∃ i, u.resultOf i = some (.exn e)) := by
      intro e0 he hx
      rw [he]
      refine ⟨by simp [Main.carries], fun e hr => ?_⟩
      simp only [Main.raised.injEq] at hr
      subst hr
      exact .inr hx
    cases hstep with
    | userSpawn => exact same rfl
    | taskSpawn => exact same rfl
    | taskEnd => exact same rfl
    | wrapStart => exact same rfl
    | wrapEnd => exact same rfl
    | @userEnd f hm =>
      refine ⟨fun e he => ?_, fun e he => by cases he⟩
      simp only [Main.carries, Option.some.injEq] at he
      subst he
      exact ⟨t, h, hm, .refl⟩
    | @top f hm =>
      have hc : t.main.carries = some f := by rw [hm]; rfl
      rcases mainTop_cases aw t f with ⟨_, h2⟩ | ⟨_, e, h1, h2⟩ | ⟨_, _, _, _, h2⟩ | ⟨_, _, _, h2⟩
      · exact carried f hc (by rw [h2]; rfl) (by rw [h2]; simp)
      · refine raised e h2 ?_
        obtain ⟨i, t0, g1, _, g3⟩ := hinv.recorded e h1
        exact ⟨i, by simp [State.resultOf, g1, g3]⟩
      · exact carried f hc (by rw [h2]; rfl) (by rw [h2]; simp)
      · exact left f hc h2
    | @popped f hm =>
      have hc : t.main.carries = some f := by rw [hm]; rfl
      have hne := hinv.sleeping f hm
      obtain ⟨j, hj⟩ : ∃ j, t.rpcs.getLast? = some j := ⟨_, List.getLast?_eq_some_getLast hne⟩
      exact carried f hc (by simp only [hj]; rfl) (by simp [hj])
    | @awaited f i r hm hr =>
      have hc : t.main.carries = some f := by rw [hm]; rfl
      cases r with
      | ok => exact carried f hc rfl (by simp [afterAwait])
      | exn e => exact raised e rfl ⟨i, hr⟩
    | @waitRaised f ids i e hm _ hr => exact raised e rfl ⟨i, hr⟩
    | @waitDone f ids hm _ =>
      have hc : t.main.carries = some f := by rw [hm]; rfl
      by_cases h0 : t.rpcs.length = 0
      · exact left f hc (by simp [again, h0])
      · exact carried f hc (by simp [again, h0]; rfl) (by simp [again, h0])

/-- **C39** If the run raises, what it raises is the program's own exception or that of an RPC or other task that failed. -/
theorem raised_cause {s : State} (h : Steps aw State.init s) (e : Nat) (hr : s.main = .raised e) :
    ProgramRaised aw s e ∨ ∃ i, s.resultOf i = some (.exn e) :=
  (carries_raised h).2 e hr

example : ∃ s, Steps false State.init s ∧ s.main = .raised 7 := ⟨_, failing_run, rfl⟩

/-- A program that raises before doing anything else: its exception is what is raised. -/
example : ProgramRaised true ⟨[], [], none, .raised 3⟩ 3 :=
  ⟨State.init, .refl, rfl, .tail .refl (.top (f := some 3) rfl)⟩

/-- **C39** If the program itself raised, the run never returns normally. -/
theorem program_exception_reported {s : State} (e : Nat) (h : ProgramRaised aw s e) : s.main ≠ .returned := by
  obtain ⟨s0, _, _, h⟩ := h
  have : s.main.carries = some (some e) ∨ ∃ e', s.main = .raised e' := by
    induction h with
    | refl => exact .inl rfl
    | @tail t u _ hstep ih =>
      have hnu : t.main ≠ .user := by
        intro hh; rw [hh] at ih; rcases ih with h1 | ⟨e', h1⟩ <;> cases h1
      have carry : ∀ {f}, t.main.carries = some f → f = some e := by
        intro f hf
        rcases ih with h1 | ⟨e', h1⟩
        · rw [h1] at hf; cases hf; rfl
        · rw [h1] at hf; cases hf
      cases hstep with
      | userSpawn hm => exact absurd hm hnu
      | userEnd hm => exact absurd hm hnu
      | taskSpawn => exact ih
      | taskEnd => exact ih
      | wrapStart => exact ih
      | wrapEnd => exact ih
      | @top f hm =>
        have hf : f = some e := carry (by rw [hm]; rfl)
        subst hf
        show (mainTop aw t (some e)).carries = _ ∨ _
        rcases mainTop_cases aw t (some e) with ⟨_, h2⟩ | ⟨_, e', h1, h2⟩ | ⟨_, _, _, _, h2⟩ | ⟨_, _, _, h2⟩
        · rw [h2]; exact .inl rfl
        · exact .inr ⟨e', h2⟩
        · rw [h2]; exact .inl rfl
        · exact .inr ⟨e, h2⟩
      | @popped f hm =>
        have hf : f = some e := carry (by rw [hm]; rfl)
        subst hf
        cases hl : t.rpcs.getLast? with
        | none => exact .inr ⟨0, by simp⟩
        | some i => exact .inl (by simp [Main.carries])
      | @awaited f i r hm hr =>
        have hf : f = some e := carry (by rw [hm]; rfl)
        subst hf
        cases r with
        | ok => exact .inl rfl
        | exn e' => exact .inr ⟨e', rfl⟩
      | @waitRaised f ids i e' hm _ hr => exact .inr ⟨e', rfl⟩
      | @waitDone f ids hm _ =>
        have hf : f = some e := carry (by rw [hm]; rfl)
        subst hf
        by_cases h0 : t.rpcs.length = 0
        · exact .inr ⟨e, by simp [again, h0, leave]⟩
        · exact .inl (by simp [again, h0, Main.carries])
  intro hr
  rw [hr] at this
  rcases this with h1 | ⟨e', h1⟩ <;> cases h1

/-! ## The loop does not hang by itself -/

/-- All tasks are done. -/
def Quiet (s : State) : Prop := ∀ (i : Nat) (t : Task), s.tasks[i]? = some t → t.result ≠ none

/-- How far the loop is from its end. -/
def distance (s : State) : Nat :=
  match s.main with
  | .user => 3 * s.rpcs.length + 5
  | .top _ => 3 * s.rpcs.length + 2
  | .sleeping _ => 3 * s.rpcs.length + 1
  | .awaiting _ _ => 3 * s.rpcs.length + 3
  | .waiting _ _ => 3 * s.rpcs.length + 3
  | .returned => 0
  | .raised _ => 0

theorem quiet_step {s s' : State} (hq : Quiet s) (hi : Inv s) (hu : s.main ≠ .user) (h : Step aw s s') :
    Quiet s' ∧ s'.main ≠ .user ∧ distance s' < distance s := by
  have hout : outstanding s = [] := by
    rw [List.eq_nil_iff_forall_not_mem]
    intro i hm
    obtain ⟨h1, h2⟩ := mem_outstanding.1 hm
    have h3 := List.getElem?_eq_getElem h1
    unfold State.resultOf at h2
    rw [h3] at h2
    exact hq i _ h3 h2
  cases h with
  | userSpawn hm => exact absurd hm hu
  | userEnd hm => exact absurd hm hu
  | taskSpawn _ h1 _ h2 => exact absurd h2 (hq _ _ h1)
  | taskEnd _ h1 _ h2 => exact absurd h2 (hq _ _ h1)
  | wrapStart _ h1 => exact absurd rfl (hq _ _ h1)
  | wrapEnd _ h1 => exact absurd rfl (hq _ _ h1)
  | @top f hm =>
    refine ⟨hq, ?_, ?_⟩
    · show mainTop aw s f ≠ .user
      rcases mainTop_cases aw s f with ⟨_, h2⟩ | ⟨_, e, h1, h2⟩ | ⟨_, _, _, _, h2⟩ | ⟨_, _, _, h2⟩ <;> rw [h2]
      · simp
      · simp
      · simp
      · cases f <;> simp [leave]
    · unfold distance
      rw [hm]
      rcases mainTop_cases aw s f with ⟨_, h2⟩ | ⟨_, e, h1, h2⟩ | ⟨_, _, _, h1, h2⟩ | ⟨_, _, _, h2⟩
      · simp only [h2]; omega
      · simp only [h2]; omega
      · exact absurd hout h1
      · cases f <;> simp only [h2, leave] <;> omega
  | @popped f hm =>
    have hne := hi.sleeping f hm
    obtain ⟨j, hj⟩ : ∃ j, s.rpcs.getLast? = some j := ⟨_, List.getLast?_eq_some_getLast hne⟩
    refine ⟨hq, by simp [hj], ?_⟩
    unfold distance
    rw [hm]
    simp only [hj, List.length_dropLast]
    have : 0 < s.rpcs.length := List.length_pos_iff.2 hne
    omega
  | @awaited f i r hm hr =>
    cases r with
    | ok =>
      refine ⟨hq, by simp [afterAwait], ?_⟩
      simp only [distance, hm, afterAwait]; omega
    | exn e =>
      refine ⟨hq, by simp [afterAwait], ?_⟩
      simp only [distance, hm, afterAwait]; omega
  | @waitRaised f ids i e hm _ hr =>
    refine ⟨hq, by simp, ?_⟩
    simp only [distance, hm]; omega
  | @waitDone f ids hm _ =>
    refine ⟨hq, ?_, ?_⟩
    · show again s f ≠ .user
      unfold again leave
      split
      · cases f <;> simp
      · simp
    · unfold distance again
      rw [hm]
      by_cases h0 : s.rpcs.length = 0
      · cases f <;> simp [h0, leave]
      · simp [h0]

/-- A quiet loop that has not ended can take a step. -/
theorem quiet_progress {s : State} (hq : Quiet s) (hi : Inv s) (hu : s.main ≠ .user) (he : ¬ s.main.ended) :
    ∃ s', Step aw s s' := by
  have done : ∀ i, i < s.tasks.length → ∃ r, s.resultOf i = some r := by
    intro i hlt
    have h3 := List.getElem?_eq_getElem hlt
    obtain ⟨r, hr⟩ := Option.ne_none_iff_exists'.1 (hq i _ h3)
    exact ⟨r, by simp [State.resultOf, h3, hr]⟩
  cases hm : s.main with
  | user => exact absurd hm hu
  | top f => exact ⟨_, .top hm⟩
  | sleeping f => exact ⟨_, .popped hm⟩
  | awaiting f i =>
    obtain ⟨t, h1, _⟩ := hi.awaited f i hm
    obtain ⟨r, hr⟩ := done i (List.getElem?_eq_some_iff.1 h1).1
    exact ⟨_, .awaited hm hr⟩
  | waiting f ids =>
    by_cases hx : ∃ i ∈ ids, ∃ e, s.resultOf i = some (.exn e)
    · obtain ⟨i, h1, e, h2⟩ := hx
      exact ⟨_, .waitRaised hm h1 h2⟩
    · refine ⟨_, .waitDone hm fun i hmem => ?_⟩
      obtain ⟨r, hr⟩ := done i (hi.waited f ids hm i hmem)
      cases r with
      | ok => exact hr
      | exn e => exact absurd ⟨i, hmem, e, hr⟩ hx
  | returned => rw [hm] at he; exact absurd rfl he
  | raised e => rw [hm] at he; exact absurd rfl he

/-- **C39** Once all tasks are done the loop ends, in as many steps as its distance at most, whichever steps are taken:
a step is always possible before the end, and each brings the end nearer. -/
theorem quiet_terminates {s : State} (h : Steps aw State.init s) (hq : Quiet s) (hu : s.main ≠ .user) :
    (¬ s.main.ended → ∃ s', Step aw s s') ∧ (∀ s', Step aw s s' → Quiet s' ∧ distance s' < distance s) ∧
    ∃ s', Steps aw s s' ∧ s'.main.ended := by
  have hi := inv_steps inv_init h
  refine ⟨quiet_progress hq hi hu, fun s' hs => ⟨(quiet_step hq hi hu hs).1, (quiet_step hq hi hu hs).2.2⟩, ?_⟩
  have key : ∀ (n : Nat) (s : State), distance s ≤ n → Quiet s → Inv s → s.main ≠ .user → ∃ s', Steps aw s s' ∧ s'.main.ended := by
    intro n
    induction n with
    | zero =>
      intro s hd hq hi hu
      by_cases he : s.main.ended
      · exact ⟨s, .refl, he⟩
      · obtain ⟨s', hs⟩ := quiet_progress (aw := aw) hq hi hu he
        have := (quiet_step hq hi hu hs).2.2
        omega
    | succ n ih =>
      intro s hd hq hi hu
      by_cases he : s.main.ended
      · exact ⟨s, .refl, he⟩
      · obtain ⟨s', hs⟩ := quiet_progress (aw := aw) hq hi hu he
        obtain ⟨h1, h2, h3⟩ := quiet_step hq hi hu hs
        obtain ⟨s'', h4, h5⟩ := ih s' (by omega) h1 (inv_step hi hs) h2
        exact ⟨s'', steps_trans (.tail .refl hs) h4, h5⟩
  exact key _ s (Nat.le_refl _) hq hi hu

/-- A state all of whose tasks are done, with an RPC still listed. -/
example : ∃ s, Steps false State.init s ∧ Quiet s ∧ s.main ≠ .user ∧ ¬ s.main.ended ∧ s.rpcs = [1] := by
  refine ⟨⟨[⟨.wrapper (some 1), some .ok⟩, ⟨.rpc, some .ok⟩], [1], none, .top none⟩, ?_, ?_, by simp, by simp [Main.ended], rfl⟩
  · have a1 : Steps false State.init ⟨[⟨.wrapper none, none⟩], [], none, .user⟩ :=
      .tail .refl (.userSpawn (k := .wrapper none) rfl rfl)
    have a4 : Steps false State.init ⟨[⟨.wrapper (some 1), none⟩, ⟨.rpc, none⟩], [1], none, .user⟩ :=
      .tail a1 (.wrapStart (i := 0) (by decide) rfl)
    have a5 : Steps false State.init ⟨[⟨.wrapper (some 1), none⟩, ⟨.rpc, some .ok⟩], [1], none, .user⟩ :=
      .tail a4 (.taskEnd (i := 1) (r := .ok) (by decide) rfl rfl rfl)
    have a6 : Steps false State.init ⟨[⟨.wrapper (some 1), some .ok⟩, ⟨.rpc, some .ok⟩], [1], none, .user⟩ :=
      .tail a5 (.wrapEnd (i := 0) (j := 1) (r := .ok) (by decide) rfl rfl)
    exact .tail a6 (.userEnd rfl)
  · intro i t h
    rcases i with _ | _ | i <;> simp at h <;> subst h <;> simp

/-! ## What the loop leaves behind -/

/-- **C50** With `await_all_outstanding_tasks`, when the run returns normally, every task that existed when the loop last
found no outstanding RPC has finished without an exception or before that. -/
theorem outstanding_awaited_partial {s : State} (h : Steps true State.init s) (hr : s.main = .returned) :
    ∃ s1, Steps true State.init s1 ∧ Steps true s1 s ∧ s1.rpcs = [] ∧
      ∀ i, i < s1.tasks.length → ∃ r, s.resultOf i = some r := by
  have wait : ∀ {s}, Steps true State.init s → ∀ f ids, s.main = .waiting f ids →
      ∃ s1, Steps true State.init s1 ∧ Steps true s1 s ∧ s1.rpcs = [] ∧ ids = outstanding s1 := by
    intro s h
    induction h with
    | refl => intro f ids hm; cases hm
    | @tail t u h hstep ih =>
      intro f ids hm
      have same : u.main = t.main → ∃ s1, Steps true State.init s1 ∧ Steps true s1 u ∧ s1.rpcs = [] ∧ ids = outstanding s1 := by
        intro he
        rw [he] at hm
        obtain ⟨s1, h1, h2, h3⟩ := ih f ids hm
        exact ⟨s1, h1, .tail h2 hstep, h3⟩
      cases hstep with
      | userSpawn => exact same rfl
      | taskSpawn => exact same rfl
      | taskEnd => exact same rfl
      | wrapStart => exact same rfl
      | wrapEnd => exact same rfl
      | userEnd => cases hm
      | @top g hg =>
        rcases mainTop_cases true t g with ⟨_, h2⟩ | ⟨_, e, h1, h2⟩ | ⟨h0, _, _, _, h2⟩ | ⟨_, _, _, h2⟩
        · simp only [h2] at hm; cases hm
        · simp only [h2] at hm; cases hm
        · simp only [h2] at hm
          cases hm
          exact ⟨t, h, .tail .refl (.top hg), h0, rfl⟩
        · simp only [h2] at hm; cases g <;> cases hm
      | @popped g hg => simp only at hm; split at hm <;> cases hm
      | @awaited g i r hg _ => cases r <;> cases hm
      | waitRaised => cases hm
      | waitDone => exact absurd hm again_ne_waiting
  cases h with
  | refl => cases hr
  | @tail t u h hstep =>
    have bad : t.main = .returned → ¬ t.main.ended → False := by intro h1 h2; rw [h1] at h2; exact h2 rfl
    cases hstep with
    | userSpawn hm => change t.main = _ at hr; rw [hm] at hr; cases hr
    | taskSpawn hm => exact (bad hr hm).elim
    | taskEnd hm => exact (bad hr hm).elim
    | wrapStart hm => exact (bad hr hm).elim
    | wrapEnd hm => exact (bad hr hm).elim
    | userEnd => cases hr
    | @top f hm =>
      rcases mainTop_cases true t f with ⟨_, h2⟩ | ⟨_, e, h1, h2⟩ | ⟨_, _, _, _, h2⟩ | ⟨h0, _, h1, h2⟩
      · simp only [h2] at hr; cases hr
      · simp only [h2] at hr; cases hr
      · simp only [h2] at hr; cases hr
      · refine ⟨t, h, .tail .refl (.top hm), h0, fun i hlt => ?_⟩
        show ∃ r, t.resultOf i = some r
        cases hx : t.resultOf i with
        | some r => exact ⟨r, rfl⟩
        | none =>
          have := mem_outstanding.2 ⟨hlt, hx⟩
          rw [h1 rfl] at this
          cases this
    | @popped g hg => simp only at hr; split at hr <;> cases hr
    | @awaited g i r hg _ => cases r <;> cases hr
    | waitRaised => cases hr
    | @waitDone f ids hm hall =>
      obtain ⟨s1, h1, h2, h3, h4⟩ := wait h f ids hm
      refine ⟨s1, h1, .tail h2 (.waitDone hm hall), h3, fun i hlt => ?_⟩
      show ∃ r, t.resultOf i = some r
      cases hx : s1.resultOf i with
      | some r => exact ⟨r, resultOf_stays_steps h2 hx⟩
      | none =>
        subst h4
        exact ⟨_, hall i (mem_outstanding.2 ⟨hlt, hx⟩)⟩

/-- **Not so** that nothing is left pending: a coroutine creates another one while the loop waits, the loop returns when
the first is done, and the second is abandoned. -/
theorem work_left_behind :
    ∃ s, Steps true State.init s ∧ s.main = .returned ∧ ∃ i, i < s.tasks.length ∧ s.resultOf i = none := by
  refine ⟨⟨[⟨.plain, some .ok⟩, ⟨.plain, none⟩], [], none, .returned⟩, ?_, rfl, 1, by decide, rfl⟩
  have a1 : Steps true State.init ⟨[⟨.plain, none⟩], [], none, .user⟩ := .tail .refl (.userSpawn (k := .plain) rfl rfl)
  have a2 : Steps true State.init ⟨[⟨.plain, none⟩], [], none, .top none⟩ := .tail a1 (.userEnd rfl)
  have a3 : Steps true State.init ⟨[⟨.plain, none⟩], [], none, .waiting none [0]⟩ := .tail a2 (.top rfl)
  have a4 : Steps true State.init ⟨[⟨.plain, none⟩, ⟨.plain, none⟩], [], none, .waiting none [0]⟩ :=
    .tail a3 (.taskSpawn (i := 0) (k := .plain) (by decide) rfl rfl rfl rfl)
  have a5 : Steps true State.init ⟨[⟨.plain, some .ok⟩, ⟨.plain, none⟩], [], none, .waiting none [0]⟩ :=
    .tail a4 (.taskEnd (i := 0) (by decide) rfl rfl rfl)
  exact .tail a5 (.waitDone (f := none) (ids := [0]) rfl (by intro i hi; cases hi with | head => rfl | tail _ h => cases h))

/-- **Not so** without `await_all_outstanding_tasks`, as component providers wait: RPCs that have been asked for but not
begun are not waited for. -/
theorem unstarted_rpc_missed :
    ∃ s, Steps false State.init s ∧ s.main = .returned ∧ s.tasks = [⟨.wrapper none, none⟩] := by
  refine ⟨⟨[⟨.wrapper none, none⟩], [], none, .returned⟩, ?_, rfl, rfl⟩
  have a1 : Steps false State.init ⟨[⟨.wrapper none, none⟩], [], none, .user⟩ :=
    .tail .refl (.userSpawn (k := .wrapper none) rfl rfl)
  have a2 : Steps false State.init ⟨[⟨.wrapper none, none⟩], [], none, .top none⟩ := .tail a1 (.userEnd rfl)
  exact .tail a2 (.top (f := none) rfl)

/-! ## Which failure is reported -/

/-- The loop looks at one RPC at a time: until the one it awaits is done, no failure is reported. -/
theorem failure_waits {s s' : State} (f : Option Nat) (i : Nat) (h : Step aw s s') (hm : s.main = .awaiting f i)
    (hn : s.resultOf i = none) : s'.main = .awaiting f i := by
  cases h with
  | userSpawn h1 => exact hm
  | userEnd h1 => rw [hm] at h1; cases h1
  | taskSpawn => exact hm
  | taskEnd => exact hm
  | wrapStart => exact hm
  | wrapEnd => exact hm
  | top h1 => rw [hm] at h1; cases h1
  | popped h1 => rw [hm] at h1; cases h1
  | awaited h1 h2 => rw [hm] at h1; cases h1; rw [hn] at h2; cases h2
  | waitRaised h1 => rw [hm] at h1; cases h1
  | waitDone h1 => rw [hm] at h1; cases h1

/-- **Not so** that the first failure recorded is the one raised: the program starts two RPCs, the first fails with 1 and
is recorded, the second fails with 2 afterwards, and the run raises 2. -/
theorem later_failure_reported :
    ∃ s1 s, Steps true State.init s1 ∧ Steps true s1 s ∧
      s1.resultOf 2 = some (.exn 1) ∧ s1.resultOf 3 = none ∧ s1.unhandled = some 1 ∧
      s.unhandled = some 1 ∧ s.main = .raised 2 := by
  let w (j : Nat) (r : Option Result) : Task := ⟨.wrapper (some j), r⟩
  let q (r : Option Result) : Task := ⟨.rpc, r⟩
  have a1 : Steps true State.init ⟨[⟨.wrapper none, none⟩], [], none, .user⟩ :=
    .tail .refl (.userSpawn (k := .wrapper none) rfl rfl)
  have a2 : Steps true State.init ⟨[⟨.wrapper none, none⟩, ⟨.wrapper none, none⟩], [], none, .user⟩ :=
    .tail a1 (.userSpawn (k := .wrapper none) rfl rfl)
  have a3 : Steps true State.init ⟨[⟨.wrapper none, none⟩, ⟨.wrapper none, none⟩], [], none, .top none⟩ :=
    .tail a2 (.userEnd rfl)
  have a4 : Steps true State.init ⟨[⟨.wrapper none, none⟩, ⟨.wrapper none, none⟩], [], none, .waiting none [0, 1]⟩ :=
    .tail a3 (.top rfl)
  have a5 : Steps true State.init ⟨[w 2 none, ⟨.wrapper none, none⟩, q none], [2], none, .waiting none [0, 1]⟩ :=
    .tail a4 (.wrapStart (i := 0) (by decide) rfl)
  have a6 : Steps true State.init ⟨[w 2 none, w 3 none, q none, q none], [2, 3], none, .waiting none [0, 1]⟩ :=
    .tail a5 (.wrapStart (i := 1) (by decide) rfl)
  have a7 : Steps true State.init ⟨[w 2 none, w 3 none, q (some (.exn 1)), q none], [2, 3], none, .waiting none [0, 1]⟩ :=
    .tail a6 (.taskEnd (i := 2) (by decide) rfl rfl rfl)
  have a8 : Steps true State.init ⟨[w 2 (some .ok), w 3 none, q (some (.exn 1)), q none], [2, 3], some 1, .waiting none [0, 1]⟩ :=
    .tail a7 (.wrapEnd (i := 0) (j := 2) (r := .exn 1) (by decide) rfl rfl)
  refine ⟨_, ⟨[w 2 (some .ok), w 3 (some .ok), q (some (.exn 1)), q (some (.exn 2))], [2], some 1, .raised 2⟩,
    a8, ?_, rfl, rfl, rfl, rfl, rfl⟩
  have b1 : Steps true ⟨[w 2 (some .ok), w 3 none, q (some (.exn 1)), q none], [2, 3], some 1, .waiting none [0, 1]⟩ ⟨[w 2 (some .ok), w 3 none, q (some (.exn 1)), q (some (.exn 2))], [2, 3], some 1, .waiting none [0, 1]⟩ :=
    .tail .refl (.taskEnd (i := 3) (r := .exn 2) (t := q none) (by simp [Main.ended]) rfl rfl rfl)
  have b2 : Steps true _ ⟨[w 2 (some .ok), w 3 (some .ok), q (some (.exn 1)), q (some (.exn 2))], [2, 3], some 1, .waiting none [0, 1]⟩ :=
    .tail b1 (.wrapEnd (i := 1) (j := 3) (r := .exn 2) (by decide) rfl rfl)
  have b3 : Steps true _ ⟨[w 2 (some .ok), w 3 (some .ok), q (some (.exn 1)), q (some (.exn 2))], [2, 3], some 1, .top none⟩ :=
    .tail b2 (.waitDone rfl (by
      intro i hi
      cases hi with
      | head => rfl
      | tail _ h => cases h with
        | head => rfl
        | tail _ h => cases h))
  have b4 : Steps true _ ⟨[w 2 (some .ok), w 3 (some .ok), q (some (.exn 1)), q (some (.exn 2))], [2, 3], some 1, .sleeping none⟩ :=
    .tail b3 (.top rfl)
  have b5 : Steps true _ ⟨[w 2 (some .ok), w 3 (some .ok), q (some (.exn 1)), q (some (.exn 2))], [2], some 1, .awaiting none 3⟩ :=
    .tail b4 (.popped rfl)
  exact .tail b5 (.awaited (r := .exn 2) rfl rfl)

/-- **C52, in part** If all failures there are are the same exception, that is the one raised. -/
theorem only_failure_reported_partial {s : State} (h : Steps aw State.init s) (e : Nat)
    (hone : ∀ i e', s.resultOf i = some (.exn e') → e' = e) (hprog : ∀ e', ¬ ProgramRaised aw s e')
    (hend : s.main.ended) (hr : s.main ≠ .returned) : s.main = .raised e := by
  cases hm : s.main with
  | raised e' =>
    rcases raised_cause h e' hm with h1 | ⟨i, h1⟩
    · exact absurd h1 (hprog e')
    · rw [hone i e' h1]
  | returned => exact absurd hm hr
  | _ => rw [hm] at hend; cases hend

/-! ## One failure and the requests after it -/

/-- Requests to a component provider, one after the other: when one has ended the next begins, with the tasks and the
`RPC_MANAGER` as they are; nothing clears it (`provider/server.py:66-116`, `197-241`). -/
inductive Served : State → State → Prop
  | refl {s} : Served s s
  | step {s t u} : Served s t → Step false t u → Served s u
  /-- the body of a request raises; unlike for programs nothing waits then -/
  | abort {s t} (e : Nat) : Served s t → t.main = .user → Served s { t with main := .raised e }
  | next {s t} : Served s t → t.main.ended → Served s { t with main := .user }

/-- Requests of which all but the last have succeeded. -/
inductive ServedOk : State → State → Prop
  | refl {s} : ServedOk s s
  | step {s t u} : ServedOk s t → Step false t u → ServedOk s u
  | next {s t} : ServedOk s t → t.main = .returned → ServedOk s { t with main := .user }

/-- **C51, in part** As long as no request fails, each starts with a manager as in a fresh process, and each that returns
has seen all its RPCs succeed. -/
theorem requests_independent_partial {s : State} (h : ServedOk State.init s) (hr : s.main = .returned) :
    (∀ i, s.IsRpc i → s.resultOf i = some .ok) ∧ s.unhandled = none ∧ s.rpcs = [] := by
  have hi : Inv s := by
    clear hr
    induction h with
    | refl => exact inv_init
    | step _ hs ih => exact inv_step ih hs
    | @next t _ hm ih =>
      refine ⟨?_, ih.listed, by simp, by simp, by simp, ih.wrapped, ih.recorded, by simp⟩
      intro i t1 h1 h2
      rcases ih.tracked i t1 h1 h2 with h3 | h3 | ⟨f, h3⟩ | ⟨e, h3⟩
      · exact .inl h3
      · exact .inr (.inl h3)
      · rw [hm] at h3; cases h3
      · rw [hm] at h3; cases h3
  have hall : ∀ (i : Nat) (t : Task), s.tasks[i]? = some t → t.kind = .rpc → t.result = some .ok := by
    intro i t ht hk
    rcases hi.tracked i t ht hk with h1 | h1 | ⟨f, h1⟩ | ⟨e, h1⟩
    · rw [hi.returned hr] at h1; cases h1
    · exact h1
    · rw [hr] at h1; cases h1
    · rw [hr] at h1; cases h1
  refine ⟨?_, ?_, hi.returned hr⟩
  · rintro i ⟨t, ht, hk⟩
    simp [State.resultOf, ht, hall i t ht hk]
  · cases hu : s.unhandled with
    | none => rfl
    | some e =>
      obtain ⟨i, t, h1, h2, h3⟩ := hi.recorded e hu
      rw [hall i t h1 h2] at h3
      cases h3

theorem served_not_waiting {s t : State} (h : Served s t) (hs : ∀ f ids, s.main ≠ .waiting f ids) :
    ∀ f ids, t.main ≠ .waiting f ids := by
  induction h with
  | refl => exact hs
  | abort => simp
  | next => simp
  | @step t u h hstep ih =>
    cases hstep with
    | userSpawn hm => exact ih
    | taskSpawn => exact ih
    | taskEnd => exact ih
    | wrapStart => exact ih
    | wrapEnd => exact ih
    | userEnd => simp
    | @top f hm =>
      rcases mainTop_cases false t f with ⟨_, h2⟩ | ⟨_, e, h1, h2⟩ | ⟨_, _, h1, _⟩ | ⟨_, _, _, h2⟩
      · simp [h2]
      · simp [h2]
      · cases h1
      · cases f <;> simp [h2, leave]
    | @popped f hm => intro g ids; simp only; split <;> simp
    | @awaited f i r hm hr => cases r <;> simp [afterAwait]
    | waitRaised => simp
    | @waitDone f ids hm _ => exact absurd hm (ih f ids)

theorem unhandled_stays {s s' : State} (h : Served s s') (e : Nat) (hu : s.unhandled = some e) :
    s'.unhandled = some e := by
  induction h with
  | refl => exact hu
  | next _ _ ih => exact ih
  | abort _ _ _ ih => exact ih
  | step _ hstep ih =>
    cases hstep with
    | wrapEnd => rename_i r _ _ _; cases r <;> simp [wrapperEnd, record, ih]
    | _ => exact ih

/-- **C51, not so**: requests do not stand on their own. Once an exception has been recorded, no later request to the same
provider process succeeds, whatever it does. -/
theorem failure_poisons_later_requests {s s' : State} (e : Nat) (hu : s.unhandled = some e) (_he : s.main.ended)
    (h : Served { s with main := .user } s') : s'.main ≠ .returned := by
  have key : ∀ {s0 s'}, Served s0 s' → s0.main = .user → s0.unhandled = some e → s'.main ≠ .returned := by
    intro s0 s' h
    induction h with
    | refl => intro h _; simp [h]
    | next => simp
    | abort => simp
    | @step t u h hstep ih =>
      intro hne hu0
      have ih := ih hne hu0
      have hut := unhandled_stays h e hu0
      cases hstep with
      | userSpawn hm => exact ih
      | taskSpawn => exact ih
      | taskEnd => exact ih
      | wrapStart => exact ih
      | wrapEnd => exact ih
      | userEnd => simp
      | @top f hm =>
        rcases mainTop_cases false t f with ⟨_, h2⟩ | ⟨_, e, h1, h2⟩ | ⟨_, h1, _⟩ | ⟨_, h1, _⟩
        · simp [h2]
        · simp [h2]
        · rw [hut] at h1; cases h1
        · rw [hut] at h1; cases h1
      | @popped f hm => simp only; split <;> simp
      | @awaited f i r hm hr => cases r <;> simp [afterAwait]
      | waitRaised => simp
      | @waitDone f ids hm _ => exact absurd hm (served_not_waiting h (by simp [hne]) f ids)
  exact key h rfl hu

/-- Such a state is reached by one failing request, and the next request, which does nothing at all, raises the old
exception. -/
theorem poisoned_request :
    ∃ s s', Steps false State.init s ∧ s.main = .raised 7 ∧ s.unhandled = some 7 ∧
      Served { s with main := .user } s' ∧ s'.tasks = s.tasks ∧ s'.main = .raised 7 :=
  ⟨_, ⟨[⟨.wrapper (some 1), some .ok⟩, ⟨.rpc, some (.exn 7)⟩], [], some 7, .raised 7⟩, failing_run, rfl, rfl,
    .step (.step .refl (.userEnd (f := none) rfl)) (.top (f := none) rfl), rfl, rfl⟩

end Pulumi.Loop
