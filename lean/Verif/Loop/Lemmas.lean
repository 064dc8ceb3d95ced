import Verif.Loop.Model

/-!
# Lemmas about waiting for RPCs
-/
namespace Pulumi.Loop

variable {aw : Bool}

/-- The exception of the program that the main task carries. -/
def Main.carries : Main → Option (Option Nat)
  | .top f => some f
  | .sleeping f => some f
  | .awaiting f _ => some f
  | .waiting f _ => some f
  | _ => none

/-! ## Results stay -/

theorem getElem?_finish (ts : List Task) (i j : Nat) (r : Result) :
    (finish ts i r)[j]? = if i = j then (ts[j]?).map (fun t => { t with result := some r }) else ts[j]? := by
  unfold finish
  rw [List.getElem?_modify]
  split <;> simp

theorem step_grows {s s' : State} (h : Step aw s s') {i : Nat} {t : Task} (ht : s.tasks[i]? = some t) :
    ∃ t', s'.tasks[i]? = some t' ∧ (t.kind.free → t'.kind = t.kind) ∧ (∀ r, t.result = some r → t'.result = some r) := by
  have hlt : i < s.tasks.length := (List.getElem?_eq_some_iff.1 ht).1
  have same : ∃ t', s.tasks[i]? = some t' ∧ (t.kind.free → t'.kind = t.kind) ∧ (∀ r, t.result = some r → t'.result = some r) :=
    ⟨t, ht, fun _ => rfl, fun _ h => h⟩
  have spawned : ∀ k, ∃ t', (spawn s k).tasks[i]? = some t' ∧ (t.kind.free → t'.kind = t.kind) ∧ (∀ r, t.result = some r → t'.result = some r) := by
    intro k
    refine ⟨t, ?_, fun _ => rfl, fun _ h => h⟩
    simp only [spawn, List.getElem?_append_left hlt, ht]
  cases h with
  | userSpawn => exact spawned _
  | userEnd => exact same
  | taskSpawn => exact spawned _
  | @taskEnd i' t0 r _ h0 hf hn =>
    show ∃ t', (finish s.tasks i' r)[i]? = some t' ∧ _
    rw [getElem?_finish, ht]
    by_cases he : i' = i
    · subst he
      rw [h0] at ht
      cases ht
      refine ⟨{ t with result := some r }, by simp, fun _ => rfl, fun r' hr => ?_⟩
      rw [hn] at hr
      cases hr
    · exact ⟨t, by simp [he], fun _ => rfl, fun _ h => h⟩
  | @wrapStart i' _ h0 =>
    show ∃ t', ((s.tasks.modify i' _) ++ _)[i]? = some t' ∧ _
    rw [List.getElem?_append_left (by simpa using hlt), List.getElem?_modify, ht]
    by_cases he : i' = i
    · subst he
      rw [h0] at ht
      cases ht
      refine ⟨⟨.wrapper (some s.tasks.length), none⟩, by simp, fun hf => ?_, fun r' hr => hr⟩
      cases hf
    · exact ⟨t, by simp [he], fun _ => rfl, fun _ h => h⟩
  | @wrapEnd i' j r _ h0 _ =>
    show ∃ t', (finish s.tasks i' .ok)[i]? = some t' ∧ _
    rw [getElem?_finish, ht]
    by_cases he : i' = i
    · subst he
      rw [h0] at ht
      cases ht
      refine ⟨⟨.wrapper (some j), some .ok⟩, by simp, fun _ => rfl, fun r' hr => by cases hr⟩
    · exact ⟨t, by simp [he], fun _ => rfl, fun _ h => h⟩
  | top => exact same
  | popped => exact same
  | awaited => exact same
  | waitRaised => exact same
  | waitDone => exact same

theorem steps_grows {s s' : State} (h : Steps aw s s') {i : Nat} {t : Task} (ht : s.tasks[i]? = some t) :
    ∃ t', s'.tasks[i]? = some t' ∧ (t.kind.free → t'.kind = t.kind) ∧ (∀ r, t.result = some r → t'.result = some r) := by
  induction h with
  | refl => exact ⟨t, ht, fun _ => rfl, fun _ h => h⟩
  | tail _ hstep ih =>
    obtain ⟨t1, h1, h2, h3⟩ := ih
    obtain ⟨t2, g1, g2, g3⟩ := step_grows hstep h1
    refine ⟨t2, g1, fun hf => ?_, fun r hr => g3 r (h3 r hr)⟩
    rw [g2 (by rw [h2 hf]; exact hf), h2 hf]

theorem resultOf_stays {s s' : State} (h : Step aw s s') {i : Nat} {r : Result} (hr : s.resultOf i = some r) :
    s'.resultOf i = some r := by
  unfold State.resultOf at *
  cases ht : s.tasks[i]? with
  | none => rw [ht] at hr; cases hr
  | some t =>
    rw [ht] at hr
    obtain ⟨t', h1, _, h3⟩ := step_grows h ht
    rw [h1]
    exact h3 r hr

theorem resultOf_stays_steps {s s' : State} (h : Steps aw s s') {i : Nat} {r : Result} (hr : s.resultOf i = some r) :
    s'.resultOf i = some r := by
  induction h with
  | refl => exact hr
  | tail _ hstep ih => exact resultOf_stays hstep ih

theorem steps_trans {a b c : State} (h : Steps aw a b) (h' : Steps aw b c) : Steps aw a c := by
  induction h' with
  | refl => exact h
  | tail _ hs ih => exact .tail ih hs

/-- A task that is an RPC after a step was one before, or the step created it. -/
theorem rpc_after {s s' : State} (h : Step aw s s') {i : Nat} {t' : Task} (ht : s'.tasks[i]? = some t')
    (hk : t'.kind = .rpc) :
    (∃ t, s.tasks[i]? = some t ∧ t.kind = .rpc) ∨ (i = s.tasks.length ∧ t'.result = none ∧ s'.rpcs = s.rpcs ++ [i] ∧ s'.main = s.main) := by
  have spawned : ∀ {k}, k.fresh → (spawn s k).tasks[i]? = some t' → ∃ t, s.tasks[i]? = some t ∧ t.kind = .rpc := by
    intro k hf h1
    simp only [spawn] at h1
    by_cases hlt : i < s.tasks.length
    · rw [List.getElem?_append_left hlt] at h1
      exact ⟨t', h1, hk⟩
    · rw [List.getElem?_append_right (by omega)] at h1
      by_cases h0 : i - s.tasks.length = 0
      · rw [h0] at h1
        simp only [List.getElem?_cons_zero, Option.some.injEq] at h1
        subst h1
        simp only at hk
        subst hk
        cases hf
      · obtain ⟨m, hm⟩ := Nat.exists_eq_succ_of_ne_zero h0
        rw [hm] at h1
        simp at h1
  have finished : ∀ {i' r}, (finish s.tasks i' r)[i]? = some t' → ∃ t, s.tasks[i]? = some t ∧ t.kind = .rpc := by
    intro i' r h1
    rw [getElem?_finish] at h1
    by_cases he : i' = i
    · simp only [he, if_true, Option.map_eq_some_iff] at h1
      obtain ⟨t, h2, rfl⟩ := h1
      exact ⟨t, h2, hk⟩
    · simp only [he, if_false] at h1
      exact ⟨t', h1, hk⟩
  cases h with
  | userSpawn _ hf => exact .inl (spawned hf ht)
  | userEnd => exact .inl ⟨t', ht, hk⟩
  | taskSpawn _ _ _ _ hf => exact .inl (spawned hf ht)
  | taskEnd => exact .inl (finished ht)
  | @wrapStart i' _ h0 =>
    change ((s.tasks.modify i' _) ++ _)[i]? = some t' at ht
    by_cases hlt : i < s.tasks.length
    · rw [List.getElem?_append_left (by simpa using hlt), List.getElem?_modify] at ht
      by_cases he : i' = i
      · subst he
        simp only [h0, if_true, Option.map_eq_map, Option.map_some, Option.some.injEq] at ht
        subst ht
        cases hk
      · simp only [he, if_false, Option.map_eq_map, Option.map_id_fun', id_eq] at ht
        exact .inl ⟨t', ht, hk⟩
    · rw [List.getElem?_append_right (by simp; omega)] at ht
      simp only [List.length_modify] at ht
      by_cases h1 : i - s.tasks.length = 0
      · rw [h1] at ht
        simp only [List.getElem?_cons_zero, Option.some.injEq] at ht
        subst ht
        have hi : i = s.tasks.length := by omega
        exact .inr ⟨hi, rfl, by rw [hi]; rfl, rfl⟩
      · obtain ⟨m, hm⟩ := Nat.exists_eq_succ_of_ne_zero h1
        rw [hm] at ht
        simp at ht
  | wrapEnd => exact .inl (finished ht)
  | top => exact .inl ⟨t', ht, hk⟩
  | popped => exact .inl ⟨t', ht, hk⟩
  | awaited => exact .inl ⟨t', ht, hk⟩
  | waitRaised => exact .inl ⟨t', ht, hk⟩
  | waitDone => exact .inl ⟨t', ht, hk⟩

theorem again_ne_sleeping {s : State} {f g : Option Nat} : again s f ≠ .sleeping g := by
  unfold again leave
  split
  · cases f <;> simp
  · simp

theorem again_ne_waiting {s : State} {f g : Option Nat} {ids : List Nat} : again s f ≠ .waiting g ids := by
  unfold again leave
  split
  · cases f <;> simp
  · simp

theorem again_returned {s : State} {f : Option Nat} (h : again s f = .returned) : s.rpcs = [] ∧ f = none := by
  unfold again leave at h
  split at h
  · rename_i h0
    refine ⟨List.length_eq_zero_iff.1 h0, ?_⟩
    cases f
    · rfl
    · cases h
  · cases h

theorem mainTop_cases (aw : Bool) (s : State) (f : Option Nat) :
    (s.rpcs ≠ [] ∧ mainTop aw s f = .sleeping f) ∨
    (s.rpcs = [] ∧ (∃ e, s.unhandled = some e ∧ mainTop aw s f = .raised e)) ∨
    (s.rpcs = [] ∧ s.unhandled = none ∧ aw = true ∧ outstanding s ≠ [] ∧ mainTop aw s f = .waiting f (outstanding s)) ∨
    (s.rpcs = [] ∧ s.unhandled = none ∧ (aw = true → outstanding s = []) ∧ mainTop aw s f = leave f) := by
  unfold mainTop
  by_cases h : s.rpcs.length > 0
  · exact .inl ⟨fun he => by simp [he] at h, by simp [h]⟩
  · have hr : s.rpcs = [] := List.length_eq_zero_iff.1 (by omega)
    simp only [h, if_false]
    cases hu : s.unhandled with
    | some e => exact .inr (.inl ⟨hr, e, rfl, rfl⟩)
    | none =>
      cases aw with
      | false => exact .inr (.inr (.inr ⟨hr, rfl, by simp, by simp [again, hr]⟩))
      | true =>
        by_cases ho : (outstanding s).length = 0
        · exact .inr (.inr (.inr ⟨hr, rfl, fun _ => List.length_eq_zero_iff.1 ho, by simp [ho, again, hr]⟩))
        · refine .inr (.inr (.inl ⟨hr, rfl, rfl, fun he => ho (by simp [he]), by simp [ho]⟩))

theorem leave_returned {f : Option Nat} : leave f = .returned ↔ f = none := by
  cases f <;> simp [leave]

theorem mem_outstanding {s : State} {i : Nat} : i ∈ outstanding s ↔ i < s.tasks.length ∧ s.resultOf i = none := by
  unfold outstanding State.resultOf
  rw [List.mem_filter, List.mem_range]
  constructor
  · rintro ⟨h1, h2⟩
    refine ⟨h1, ?_⟩
    rw [List.getElem?_eq_getElem h1] at *
    simpa using h2
  · rintro ⟨h1, h2⟩
    refine ⟨h1, ?_⟩
    rw [List.getElem?_eq_getElem h1] at *
    simpa using h2

/-! ## The invariant -/

/-- Which RPCs the loop has yet to look at. -/
structure Inv (s : State) : Prop where
  /-- an RPC is listed, or being awaited, or was seen to succeed, or made the loop raise -/
  tracked : ∀ (i : Nat) (t : Task), s.tasks[i]? = some t → t.kind = .rpc →
    i ∈ s.rpcs ∨ t.result = some .ok ∨ (∃ f, s.main = .awaiting f i) ∨ ∃ e, s.main = .raised e
  listed : ∀ i ∈ s.rpcs, ∃ t : Task, s.tasks[i]? = some t ∧ t.kind = .rpc
  awaited : ∀ f i, s.main = .awaiting f i → ∃ t : Task, s.tasks[i]? = some t ∧ t.kind = .rpc
  sleeping : ∀ f, s.main = .sleeping f → s.rpcs ≠ []
  returned : s.main = .returned → s.rpcs = []
  wrapped : ∀ (i j : Nat) (r : Option Result), s.tasks[i]? = some (Task.mk (.wrapper (some j)) r) → ∃ t : Task, s.tasks[j]? = some t ∧ t.kind = .rpc
  recorded : ∀ e, s.unhandled = some e → ∃ (i : Nat) (t : Task), s.tasks[i]? = some t ∧ t.kind = .rpc ∧ t.result = some (.exn e)
  waited : ∀ f ids, s.main = .waiting f ids → ∀ i ∈ ids, i < s.tasks.length

theorem inv_init : Inv State.init := by
  refine ⟨?_, ?_, ?_, ?_, ?_, ?_, ?_, ?_⟩ <;> simp [State.init]

theorem kind_rpc_stays {s s' : State} (h : Step aw s s') {i : Nat} (ht : ∃ t, s.tasks[i]? = some t ∧ t.kind = .rpc) :
    ∃ t, s'.tasks[i]? = some t ∧ t.kind = .rpc := by
  obtain ⟨t, h1, h2⟩ := ht
  obtain ⟨t', g1, g2, _⟩ := step_grows h h1
  exact ⟨t', g1, by rw [g2 (by rw [h2]; rfl), h2]⟩

theorem mem_dropLast_or {l : List Nat} {i j : Nat} (hl : l.getLast? = some j) (hi : i ∈ l) : i ∈ l.dropLast ∨ i = j := by
  obtain ⟨l', rfl⟩ := List.getLast?_eq_some_iff.1 hl
  simpa using hi

theorem inv_step {s s' : State} (hi : Inv s) (h : Step aw s s') : Inv s' := by
  have listedStays : ∀ i, i ∈ s.rpcs → ∃ t, s'.tasks[i]? = some t ∧ t.kind = .rpc :=
    fun i hm => kind_rpc_stays h (hi.listed i hm)
  have recStays : ∀ e, s.unhandled = some e → ∃ (i : Nat) (t : Task), s'.tasks[i]? = some t ∧ t.kind = .rpc ∧ t.result = some (.exn e) := by
    intro e he
    obtain ⟨i, t, h1, h2, h3⟩ := hi.recorded e he
    obtain ⟨t', g1, g2, g3⟩ := step_grows h h1
    exact ⟨i, t', g1, by rw [g2 (by rw [h2]; rfl), h2], g3 _ h3⟩
  /- a task that is an RPC now and was one before -/
  have old : ∀ (i : Nat) (t' : Task), s'.tasks[i]? = some t' → t'.kind = .rpc → (∃ t, s.tasks[i]? = some t ∧ t.kind = .rpc) →
      i ∈ s.rpcs ∨ t'.result = some .ok ∨ (∃ f, s.main = .awaiting f i) ∨ ∃ e, s.main = .raised e := by
    intro i t' ht' hk' ⟨t, ht, hk⟩
    rcases hi.tracked i t ht hk with h1 | h1 | h1 | h1
    · exact .inl h1
    · obtain ⟨t2, g1, _, g3⟩ := step_grows h ht
      rw [ht'] at g1
      cases g1
      exact .inr (.inl (g3 _ h1))
    · exact .inr (.inr (.inl h1))
    · exact .inr (.inr (.inr h1))
  /- steps of tasks that leave the list and the main task alone -/
  have easy : s'.rpcs = s.rpcs → s'.main = s.main → s'.unhandled = s.unhandled →
      (∀ (i j : Nat) (r : Option Result), s'.tasks[i]? = some (Task.mk (.wrapper (some j)) r) →
        ∃ r', s.tasks[i]? = some (Task.mk (.wrapper (some j)) r')) →
      Inv s' := by
    intro e1 e2 e3 e4
    refine ⟨?_, ?_, ?_, ?_, ?_, ?_, ?_, ?_⟩
    · intro i t' ht' hk'
      rw [e1, e2]
      rcases rpc_after h ht' hk' with h1 | ⟨rfl, _, h3, _⟩
      · exact old i t' ht' hk' h1
      · rw [e1] at h3
        exact absurd h3 (by intro hh; have := congrArg List.length hh; simp at this)
    · rw [e1]; exact listedStays
    · intro f i hm
      rw [e2] at hm
      exact kind_rpc_stays h (hi.awaited f i hm)
    · intro f hm; rw [e2] at hm; rw [e1]; exact hi.sleeping f hm
    · intro hm; rw [e2] at hm; rw [e1]; exact hi.returned hm
    · intro i j r hm
      obtain ⟨r', h1⟩ := e4 i j r hm
      exact kind_rpc_stays h (hi.wrapped i j r' h1)
    · intro e he; rw [e3] at he; exact recStays e he
    · intro f ids hm i hmem
      rw [e2] at hm
      have := hi.waited f ids hm i hmem
      obtain ⟨t', g1, _⟩ := step_grows h (List.getElem?_eq_getElem this)
      exact (List.getElem?_eq_some_iff.1 g1).1
  have spawnedW : ∀ {k : Kind}, k.fresh → ∀ (i j : Nat) (r : Option Result), (spawn s k).tasks[i]? = some (Task.mk (.wrapper (some j)) r) →
      ∃ r', s.tasks[i]? = some (Task.mk (.wrapper (some j)) r') := by
    intro k hf i j r h1
    simp only [spawn] at h1
    by_cases hlt : i < s.tasks.length
    · rw [List.getElem?_append_left hlt] at h1
      exact ⟨r, h1⟩
    · rw [List.getElem?_append_right (by omega)] at h1
      by_cases h0 : i - s.tasks.length = 0
      · rw [h0] at h1
        simp only [List.getElem?_cons_zero, Option.some.injEq, Task.mk.injEq] at h1
        rw [h1.1] at hf
        cases hf
      · obtain ⟨m, hm⟩ := Nat.exists_eq_succ_of_ne_zero h0
        rw [hm] at h1
        simp at h1
  have finishedW : ∀ {i' : Nat} {r' : Result} (i j : Nat) (r : Option Result),
      (finish s.tasks i' r')[i]? = some (Task.mk (.wrapper (some j)) r) →
      ∃ r', s.tasks[i]? = some (Task.mk (.wrapper (some j)) r') := by
    intro i' r' i j r h1
    rw [getElem?_finish] at h1
    by_cases he : i' = i
    · simp only [he, if_true, Option.map_eq_some_iff] at h1
      obtain ⟨t, h2, h3⟩ := h1
      obtain ⟨k, r0⟩ := t
      simp only [Task.mk.injEq] at h3
      exact ⟨r0, by rw [h2, h3.1]⟩
    · simp only [he, if_false] at h1
      exact ⟨r, h1⟩
  /- steps of the main task that leave tasks and exceptions alone -/
  have mainStep : ∀ (m : Main) (l : List Nat), s' = { s with main := m, rpcs := l } →
      (∀ i ∈ l, i ∈ s.rpcs) → (∀ (i : Nat) (t : Task), s.tasks[i]? = some t → t.kind = .rpc →
        i ∈ l ∨ t.result = some .ok ∨ (∃ f, m = .awaiting f i) ∨ ∃ e, m = .raised e) →
      (∀ f i, m = .awaiting f i → i ∈ s.rpcs) → (∀ f, m = .sleeping f → l ≠ []) → (m = .returned → l = []) →
      (∀ f ids, m = .waiting f ids → ∀ i ∈ ids, i < s.tasks.length) → Inv s' := by
    intro m l he hl htr haw hsl hret hwait
    subst he
    exact ⟨htr, fun i hm => hi.listed i (hl i hm), fun f i hm => hi.listed i (haw f i hm), hsl, hret, hi.wrapped,
      hi.recorded, hwait⟩
  cases h with
  | userSpawn _ hf => exact easy rfl rfl rfl (spawnedW hf)
  | taskSpawn _ _ _ _ hf => exact easy rfl rfl rfl (spawnedW hf)
  | taskEnd => exact easy rfl rfl rfl finishedW
  | userEnd hm =>
    refine mainStep _ s.rpcs rfl (fun _ h => h) ?_ (by simp) (by simp) (by simp) (by simp)
    intro i t ht hk
    rcases hi.tracked i t ht hk with h1 | h1 | ⟨f, h1⟩ | ⟨e, h1⟩
    · exact .inl h1
    · exact .inr (.inl h1)
    · rw [hm] at h1; cases h1
    · rw [hm] at h1; cases h1
  | @wrapStart i' hne h0 =>
    have hlen : i' < s.tasks.length := (List.getElem?_eq_some_iff.1 h0).1
    have hnew : (wrapperStart s i').tasks[s.tasks.length]? = some ⟨.rpc, none⟩ := by
      show ((s.tasks.modify i' _) ++ _)[s.tasks.length]? = _
      rw [List.getElem?_append_right (by simp)]
      simp
    have hstep : Step aw s (wrapperStart s i') := .wrapStart hne h0
    refine ⟨?_, ?_, ?_, ?_, ?_, ?_, recStays, ?_⟩
    · intro i t' ht' hk'
      rcases rpc_after hstep ht' hk' with h1 | ⟨rfl, _⟩
      · rcases old i t' ht' hk' h1 with h2 | h2 | h2 | h2
        · exact .inl (List.mem_append_left _ h2)
        · exact .inr (.inl h2)
        · exact .inr (.inr (.inl h2))
        · exact .inr (.inr (.inr h2))
      · exact .inl (List.mem_append_right _ (.head _))
    · intro i hm
      rcases List.mem_append.1 hm with h1 | h1
      · exact listedStays i h1
      · rw [List.mem_singleton] at h1
        subst h1
        exact ⟨_, hnew, rfl⟩
    · intro f i hm
      exact kind_rpc_stays hstep (hi.awaited f i hm)
    · intro f hm
      show s.rpcs ++ _ ≠ []
      simp
    · intro hm
      have hm' : s.main = .returned := hm
      rw [hm'] at hne
      exact absurd rfl hne
    · intro i j r hm
      change ((s.tasks.modify i' _) ++ _)[i]? = some _ at hm
      by_cases hlt : i < s.tasks.length
      · rw [List.getElem?_append_left (by simpa using hlt), List.getElem?_modify] at hm
        by_cases he : i' = i
        · subst he
          simp only [h0, if_true, Option.map_eq_map, Option.map_some, Option.some.injEq, Task.mk.injEq, Kind.wrapper.injEq] at hm
          rw [← hm.1]
          exact ⟨_, hnew, rfl⟩
        · simp only [he, if_false, Option.map_eq_map, Option.map_id_fun', id_eq] at hm
          exact kind_rpc_stays hstep (hi.wrapped i j r hm)
      · rw [List.getElem?_append_right (by simp; omega)] at hm
        simp only [List.length_modify] at hm
        by_cases h1 : i - s.tasks.length = 0
        · rw [h1] at hm
          simp at hm
        · obtain ⟨m, hm'⟩ := Nat.exists_eq_succ_of_ne_zero h1
          rw [hm'] at hm
          simp at hm
    · intro f ids hm i hmem
      have := hi.waited f ids hm i hmem
      obtain ⟨t', g1, _⟩ := step_grows hstep (List.getElem?_eq_getElem this)
      exact (List.getElem?_eq_some_iff.1 g1).1
  | @wrapEnd i' j r hne h0 hr =>
    have hstep : Step aw s (wrapperEnd s i' r) := .wrapEnd hne h0 hr
    have base : Inv { s with tasks := finish s.tasks i' .ok } := by
      refine ⟨?_, ?_, ?_, ?_, ?_, ?_, ?_, ?_⟩
      · intro i t' ht' hk'
        rcases rpc_after hstep ht' hk' with h1 | ⟨rfl, _, h3, _⟩
        · exact old i t' ht' hk' h1
        · change s.rpcs = s.rpcs ++ _ at h3
          exact absurd h3 (by intro hh; have := congrArg List.length hh; simp at this)
      · exact listedStays
      · intro f i hm; exact kind_rpc_stays hstep (hi.awaited f i hm)
      · exact hi.sleeping
      · exact hi.returned
      · intro i j r hm
        obtain ⟨r', h1⟩ := finishedW i j r hm
        exact kind_rpc_stays hstep (hi.wrapped i j r' h1)
      · exact recStays
      · intro f ids hm i hmem
        have := hi.waited f ids hm i hmem
        obtain ⟨t', g1, _⟩ := step_grows hstep (List.getElem?_eq_getElem this)
        exact (List.getElem?_eq_some_iff.1 g1).1
    refine ⟨base.tracked, base.listed, base.awaited, base.sleeping, base.returned, base.wrapped, ?_, base.waited⟩
    intro e he
    cases r with
    | ok => exact base.recorded e he
    | exn e' =>
      simp only [wrapperEnd, record] at he
      cases hu : s.unhandled with
      | some e0 =>
        simp only [hu, Option.isNone_some] at he
        exact base.recorded e (by rw [← he]; exact hu)
      | none =>
        simp only [hu, Option.isNone_none, if_true, Option.some.injEq] at he
        subst he
        obtain ⟨t, h1, h2⟩ := hi.wrapped i' j none h0
        have h3 : t.result = some (.exn e') := by
          unfold State.resultOf at hr
          rw [h1] at hr
          exact hr
        obtain ⟨t', g1, g2, g3⟩ := step_grows hstep h1
        exact ⟨j, t', g1, by rw [g2 (by rw [h2]; rfl), h2], g3 _ h3⟩
  | @top f hm =>
    have notMain : ∀ (i : Nat) (t : Task), s.tasks[i]? = some t → t.kind = .rpc → i ∈ s.rpcs ∨ t.result = some .ok := by
      intro i t ht hk
      rcases hi.tracked i t ht hk with h1 | h1 | ⟨f', h1⟩ | ⟨e, h1⟩
      · exact .inl h1
      · exact .inr h1
      · rw [hm] at h1; cases h1
      · rw [hm] at h1; cases h1
    refine mainStep (mainTop aw s f) s.rpcs rfl (fun _ h => h) ?_ ?_ ?_ ?_ ?_
    · intro i t ht hk
      rcases notMain i t ht hk with h1 | h1
      · exact .inl h1
      · exact .inr (.inl h1)
    · intro g i he
      rcases mainTop_cases aw s f with ⟨_, h2⟩ | ⟨_, e, _, h2⟩ | ⟨_, _, _, _, h2⟩ | ⟨_, _, _, h2⟩
      · rw [h2] at he; cases he
      · rw [h2] at he; cases he
      · rw [h2] at he; cases he
      · rw [h2] at he; unfold leave at he; cases f <;> cases he
    · intro g he
      rcases mainTop_cases aw s f with ⟨h1, h2⟩ | ⟨_, e, _, h2⟩ | ⟨_, _, _, _, h2⟩ | ⟨_, _, _, h2⟩
      · exact h1
      · rw [h2] at he; cases he
      · rw [h2] at he; cases he
      · rw [h2] at he; unfold leave at he; cases f <;> cases he
    · intro he
      rcases mainTop_cases aw s f with ⟨_, h2⟩ | ⟨h1, _⟩ | ⟨h1, _⟩ | ⟨h1, _⟩
      · rw [h2] at he; cases he
      · exact h1
      · exact h1
      · exact h1
    · intro g ids he i hmem
      rcases mainTop_cases aw s f with ⟨_, h2⟩ | ⟨_, e, _, h2⟩ | ⟨_, _, _, _, h2⟩ | ⟨_, _, _, h2⟩
      · rw [h2] at he; cases he
      · rw [h2] at he; cases he
      · rw [h2] at he
        cases he
        exact (mem_outstanding.1 hmem).1
      · rw [h2] at he; unfold leave at he; cases f <;> cases he
  | @popped f hm =>
    have hne := hi.sleeping f hm
    obtain ⟨j, hj⟩ : ∃ j, s.rpcs.getLast? = some j := ⟨_, List.getLast?_eq_some_getLast hne⟩
    have hjm : j ∈ s.rpcs := List.mem_of_getLast? hj
    refine mainStep (.awaiting f j) s.rpcs.dropLast (by simp [hj]) (fun i h => (List.dropLast_sublist _).mem h) ?_ ?_ (by simp) (by simp) (by simp)
    · intro i t ht hk
      rcases hi.tracked i t ht hk with h1 | h1 | ⟨f', h1⟩ | ⟨e, h1⟩
      · rcases mem_dropLast_or hj h1 with h2 | rfl
        · exact .inl h2
        · exact .inr (.inr (.inl ⟨f, rfl⟩))
      · exact .inr (.inl h1)
      · rw [hm] at h1; cases h1
      · rw [hm] at h1; cases h1
    · intro g i he
      cases he
      exact hjm
  | @awaited f i r hm hr =>
    cases r with
    | ok =>
      refine mainStep (.top f) s.rpcs rfl (fun _ h => h) ?_ (by simp) (by simp) (by simp) (by simp)
      intro i' t ht hk
      rcases hi.tracked i' t ht hk with h1 | h1 | ⟨f', h1⟩ | ⟨e, h1⟩
      · exact .inl h1
      · exact .inr (.inl h1)
      · rw [hm] at h1
        cases h1
        unfold State.resultOf at hr
        rw [ht] at hr
        exact .inr (.inl hr)
      · rw [hm] at h1; cases h1
    | exn e =>
      exact mainStep (.raised e) s.rpcs rfl (fun _ h => h) (fun _ _ _ _ => .inr (.inr (.inr ⟨e, rfl⟩))) (by simp) (by simp) (by simp) (by simp)
  | @waitRaised f ids i e hm _ _ =>
    exact mainStep (.raised e) s.rpcs rfl (fun _ h => h) (fun _ _ _ _ => .inr (.inr (.inr ⟨e, rfl⟩))) (by simp) (by simp) (by simp) (by simp)
  | @waitDone f ids hm _ =>
    refine mainStep (again s f) s.rpcs rfl (fun _ h => h) ?_ ?_ ?_ ?_ ?_
    · intro i t ht hk
      rcases hi.tracked i t ht hk with h1 | h1 | ⟨f', h1⟩ | ⟨e, h1⟩
      · exact .inl h1
      · exact .inr (.inl h1)
      · rw [hm] at h1; cases h1
      · rw [hm] at h1; cases h1
    · intro g i he
      unfold again leave at he
      split at he
      · cases f <;> cases he
      · cases he
    · intro g he; exact absurd he again_ne_sleeping
    · intro he; exact (again_returned he).1
    · intro g ids' he; exact absurd he again_ne_waiting

theorem inv_steps {s s' : State} (hi : Inv s) (h : Steps aw s s') : Inv s' := by
  induction h with
  | refl => exact hi
  | tail _ hs ih => exact inv_step ih hs

end Pulumi.Loop
