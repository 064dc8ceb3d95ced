import Verif.Pump.Lemmas

/-!
# Properties of synchronous waits in the event loop (C56, C57)
-/

namespace Pulumi.Pump

/-- Whatever callbacks and tasks do, and however deeply synchronous waits are nested, the event loop's own code never raises:
it never pops from an empty queue and never enters or leaves the wrong task. -/
theorem never_breaks {s : State} (h : Reachable s) {r : Except Err State} (hstep : Step s r) : ∃ s', r = .ok s' := by
  obtain ⟨s', h1, _⟩ := step_ok (inv_reachable h) hstep
  exact ⟨s', h1⟩

/-- Everything that was scheduled has run exactly once or is still queued, in the order in which it was scheduled. -/
theorem ran_in_order {s : State} (h : Reachable s) :
    s.scheduled = s.ran ++ s.ready.filter (· ≠ .cancelled) := (inv_reachable h).fifo

/-- Code always sees its own task as the current one, also after it has waited synchronously. -/
theorem own_task {s : State} (h : Reachable s) {who : Option Nat} {rest : List Frame} (hs : s.stack = .code who :: rest) :
    s.current = who := by
  have hi := inv_reachable h
  have hb := hi.below
  have ht := hi.top
  rw [hs] at hb ht
  obtain ⟨n, rest', rfl⟩ := code_on_once hb
  exact ht.2

theorem flatMap_handle (hs : List Handle) (t : Nat) : (hs.flatMap Handle.task).count t = hs.count (.step t) := by
  induction hs with
  | nil => rfl
  | cons h hs ih =>
    rw [List.flatMap_cons, List.count_append, List.count_cons, ih]
    cases h with
    | step t' => by_cases ht : t' = t <;> simp [Handle.task, ht, Nat.add_comm]
    | callback c => simp [Handle.task]
    | cancelled => simp [Handle.task]

theorem flatMap_frame (fs : List Frame) (t : Nat) : (fs.flatMap Frame.task).count t = fs.count (.code (some t)) := by
  induction fs with
  | nil => rfl
  | cons h hs ih =>
    rw [List.flatMap_cons, List.count_append, List.count_cons, ih]
    match h with
    | .code (some t') => by_cases ht : t' = t <;> simp [Frame.task, ht, Nat.add_comm]
    | .code none => simp [Frame.task]
    | .forever => simp [Frame.task]
    | .once _ => simp [Frame.task]
    | .sync _ _ _ _ => simp [Frame.task]

/-- No task is lost, run twice at a time, or woken while it runs: a task that has been created is in exactly one place. It
is due to run, or waits for a future that is not done, or is running (possibly below others on the stack), or has
finished. -/
theorem one_place {s : State} (h : Reachable s) {t : Nat} (ht : t ∈ s.created) :
    s.ready.count (.step t) + (s.waiters.map (·.1)).count t + s.stack.count (.code (some t)) + s.finished.count t = 1 ∧
      ∀ f : Nat, (t, f) ∈ s.waiters → f ∉ s.done := by
  have hi := inv_reachable h
  have hc := hi.count t
  rw [hi.nodup.count, if_pos ht] at hc
  simp only [places, List.count_append, flatMap_handle, flatMap_frame] at hc
  exact ⟨by omega, fun f hf => hi.awake (t, f) hf⟩

/-- A synchronous wait ends as soon as its future is done and it is its turn, and when it ends otherwise the loop is being
stopped. The caller goes on in its own task. -/
theorem wait_ends_partial {s : State} (h : Reachable s) {f n : Nat} {who : Option Nat} {r : Bool} {rest : List Frame}
    (hs : s.stack = .sync f n who r :: rest) {s' : State} (hstep : Step s (.ok s')) :
    (f ∈ s.done → s'.stack = rest) ∧
      (s'.stack = rest → (f ∈ s'.done ∨ s'.stopping = true) ∧ s'.current = who ∧ rest.head? = some (.code who)) := by
  have hi := inv_reachable h
  have hb := hi.below
  rw [hs] at hb
  obtain ⟨m, rest', rfl, _⟩ := sync_on_code hb
  generalize hr : Except.ok s' = res at hstep
  cases hstep with
  | syncRun polled hs2 hgo =>
    rw [hs] at hs2
    simp only [List.cons.injEq, Frame.sync.injEq] at hs2
    obtain ⟨⟨rfl, rfl, rfl, rfl⟩, rfl⟩ := hs2
    cases hr
    refine ⟨fun hf => ?_, fun hf => ?_⟩
    · simp [syncEnds, hf] at hgo
    · simp [runOnce] at hf
  | syncLeave hs2 hend =>
    rw [hs] at hs2
    simp only [List.cons.injEq, Frame.sync.injEq] at hs2
    obtain ⟨⟨rfl, rfl, rfl, rfl⟩, rfl⟩ := hs2
    obtain ⟨s2, h1, h2, h3⟩ := syncLeave_ok hi hs
    rw [h1] at hr
    have hs2 : s' = s2 := by injection hr
    subst hs2
    have hsame : s'.stack = .code who :: .once m :: rest' ∧ s'.done = s.done ∧ s'.stopping = s.stopping := by
      unfold syncLeave enterTask at h1
      split at h1
      · cases h1; exact ⟨rfl, rfl, rfl⟩
      · split at h1
        · cases h1; exact ⟨rfl, rfl, rfl⟩
        · cases h1
    refine ⟨fun _ => hsame.1, fun _ => ⟨?_, h3, rfl⟩⟩
    rw [hsame.2.1, hsame.2.2]
    simp only [syncEnds, Bool.or_eq_true, List.contains_iff_mem, Bool.and_eq_true] at hend
    exact hend.imp id (·.2)
  | _ => simp_all

theorem step_mono {s u : State} (hstep : Step s (.ok u)) :
    (∀ f ∈ s.done, f ∈ u.done) ∧ (s.stopping = true → u.stopping = true) := by
  generalize hr : Except.ok u = res at hstep
  cases hstep with
  | forever polled hs => cases hr; exact ⟨fun _ h => h, id⟩
  | pop hs =>
    unfold popHandle enterTask at hr
    split at hr
    · cases hr
    · cases hr; exact ⟨fun _ h => h, id⟩
    · cases hr; exact ⟨fun _ h => h, id⟩
    · simp only at hr
      split at hr
      · cases hr; exact ⟨fun _ h => h, id⟩
      · cases hr
  | popped hs => cases hr; exact ⟨fun _ h => h, id⟩
  | call c hs => cases hr; exact ⟨fun _ h => h, id⟩
  | create t hs hnew => cases hr; exact ⟨fun _ h => h, id⟩
  | complete f hs => cases hr; exact ⟨fun _ h => List.mem_cons_of_mem _ h, id⟩
  | stop hs => cases hr; exact ⟨fun _ h => h, fun _ => rfl⟩
  | endCallback hs => cases hr; exact ⟨fun _ h => h, id⟩
  | @endTask rest t on hs =>
    have hsus : (suspend { s with stack := rest } t on).done = s.done ∧
        (suspend { s with stack := rest } t on).stopping = s.stopping := by
      unfold suspend
      split
      · exact ⟨rfl, rfl⟩
      · split <;> exact ⟨rfl, rfl⟩
    unfold leaveTask at hr
    simp only at hr
    split at hr
    · cases hr
      refine ⟨fun f h => ?_, fun h => ?_⟩
      · show f ∈ (suspend { s with stack := rest } t on).done
        rw [hsus.1]; exact h
      · show (suspend { s with stack := rest } t on).stopping = true
        rw [hsus.2]; exact h
    · cases hr
  | syncEnter f hs =>
    unfold syncEnter leaveTask at hr
    split at hr
    · cases hr
    · rename_i s' heq
      split at heq
      · cases heq; cases hr; exact ⟨fun _ h => h, id⟩
      · split at heq
        · cases heq; cases hr; exact ⟨fun _ h => h, id⟩
        · simp_all
  | syncRun polled hs hgo => cases hr; exact ⟨fun _ h => h, id⟩
  | syncLeave hs hend =>
    unfold syncLeave enterTask at hr
    split at hr
    · cases hr; exact ⟨fun _ h => h, id⟩
    · split at hr
      · cases hr; exact ⟨fun _ h => h, id⟩
      · cases hr

/-- Frame `fr` (whose flag may change) and everything below it are on the stack. -/
def Under (g n : Nat) (w : Option Nat) (rest : List Frame) (stack : List Frame) : Prop :=
  ∃ pre r, stack = pre ++ .sync g n w r :: rest

theorem under_step {s u : State} (hstep : Step s (.ok u)) {g n : Nat} {w : Option Nat} {rest : List Frame}
    (h : Under g n w rest s.stack) (hg : g ∉ s.done) (hst : s.stopping = false) : Under g n w rest u.stack := by
  obtain ⟨pre, r, hpre⟩ := h
  generalize hr : Except.ok u = res at hstep
  -- the innermost frame is popped, but it is not ours
  have pop : ∀ {fr : Frame} {fs : List Frame}, s.stack = fr :: fs → (∀ a b c d, fr ≠ .sync a b c d) → Under g n w rest fs := by
    intro fr fs hfs hne
    rw [hfs] at hpre
    cases pre with
    | nil => simp only [List.nil_append, List.cons.injEq] at hpre; exact absurd hpre.1 (hne _ _ _ _)
    | cons p pre =>
      simp only [List.cons_append, List.cons.injEq] at hpre
      exact ⟨pre, r, hpre.2⟩
  have push : ∀ {fs : List Frame} (fr : Frame), Under g n w rest fs → Under g n w rest (fr :: fs) := by
    rintro fs fr ⟨p, r, hp⟩
    exact ⟨fr :: p, r, by simp [hp]⟩
  have same : Under g n w rest s.stack := ⟨pre, r, hpre⟩
  cases hstep with
  | forever polled hs => cases hr; exact push _ same
  | pop hs =>
    have hu := pop hs (by simp)
    unfold popHandle enterTask at hr
    split at hr
    · cases hr
    · cases hr; exact push _ hu
    · cases hr; exact push _ (push _ hu)
    · simp only at hr
      split at hr
      · cases hr; exact push _ (push _ hu)
      · cases hr
  | popped hs => cases hr; exact pop hs (by simp)
  | call c hs => cases hr; exact same
  | create t hs hnew => cases hr; exact same
  | complete f hs => cases hr; exact same
  | stop hs => cases hr; exact same
  | endCallback hs => cases hr; exact pop hs (by simp)
  | @endTask rest' t on hs =>
    have hu := pop hs (by simp)
    have hsus : (suspend { s with stack := rest' } t on).stack = rest' := by
      unfold suspend
      split
      · rfl
      · split <;> rfl
    unfold leaveTask at hr
    simp only at hr
    split at hr
    · cases hr
      show Under g n w rest (suspend { s with stack := rest' } t on).stack
      rw [hsus]; exact hu
    · cases hr
  | syncEnter f hs =>
    unfold syncEnter at hr
    split at hr
    · cases hr
    · cases hr; exact push _ same
  | @syncRun rest' f n' who r' polled hs hgo =>
    cases hr
    show Under g n w rest (_ :: .sync f n' who true :: rest')
    refine push _ ?_
    rw [hs] at hpre
    cases pre with
    | nil =>
      simp only [List.nil_append, List.cons.injEq, Frame.sync.injEq] at hpre
      obtain ⟨⟨rfl, rfl, rfl, rfl⟩, rfl⟩ := hpre
      exact ⟨[], true, rfl⟩
    | cons p pre =>
      simp only [List.cons_append, List.cons.injEq] at hpre
      exact ⟨.sync f n' who true :: pre, r, by rw [hpre.2]; rfl⟩
  | @syncLeave rest' f n' who r' hs hend =>
    rw [hs] at hpre
    cases pre with
    | nil =>
      simp only [List.nil_append, List.cons.injEq, Frame.sync.injEq] at hpre
      obtain ⟨⟨rfl, rfl, rfl, rfl⟩, rfl⟩ := hpre
      simp [syncEnds, hg, hst] at hend
    | cons p pre =>
      simp only [List.cons_append, List.cons.injEq] at hpre
      have hu : Under g n w rest rest' := ⟨pre, r, hpre.2⟩
      unfold syncLeave enterTask at hr
      split at hr
      · cases hr; exact hu
      · split at hr
        · cases hr; exact hu
        · cases hr

/-- Synchronous waits are nested: while one is not over, nothing below it on the stack goes on. -/
theorem waits_nest {s s' : State} (hsteps : Steps s s') {g n : Nat} {w : Option Nat} {r : Bool} {pre rest : List Frame}
    (h : s.stack = pre ++ .sync g n w r :: rest) (hg : g ∉ s'.done) (hst : s'.stopping = false) :
    ∃ pre' r', s'.stack = pre' ++ .sync g n w r' :: rest := by
  induction hsteps with
  | refl => exact ⟨pre, r, h⟩
  | step _ hstep ih =>
    have hm := step_mono hstep
    have hg' := fun hd => hg (hm.1 g hd)
    have hst' := Bool.eq_false_iff.2 fun ht => by rw [hm.2 ht] at hst; cases hst
    exact under_step hstep (ih hg' hst') hg' hst'

/-- The state in the example below: task 0 waits for future 10, and while it does, task 1 has begun to wait for future 20;
a callback has completed future 10. -/
def nested : State :=
  { stack := [.sync 20 1 (some 1) true, .code (some 1), .once 1, .sync 10 1 (some 0) true, .code (some 0), .once 0, .forever]
    ready := [], current := none, waiters := [], created := [1, 0], finished := [], done := [10], stopping := false
    scheduled := [.step 0, .step 1, .callback 7], ran := [.step 0, .step 1, .callback 7] }

theorem nested_reachable : Reachable nested := by
  have h0 : Reachable .init := .refl
  have h1 := h0.step (.forever (rest := []) [] rfl)
  have h2 := h1.step (.pop (n := 0) (rest := [.forever]) rfl)
  have h3 := h2.step (.create (who := some 0) (rest := [.once 0, .forever]) 1 rfl (by decide))
  have h4 := h3.step (.syncEnter (who := some 0) (rest := [.once 0, .forever]) 10 rfl)
  have h5 := h4.step (.syncRun (f := 10) (n := 1) (who := some 0) (r := false)
    (rest := [.code (some 0), .once 0, .forever]) [7] rfl rfl)
  have h6 := h5.step (.pop (n := 1) (rest := [.sync 10 1 (some 0) true, .code (some 0), .once 0, .forever]) rfl)
  have h7 := h6.step (.syncEnter (who := some 1)
    (rest := [.once 1, .sync 10 1 (some 0) true, .code (some 0), .once 0, .forever]) 20 rfl)
  have h8 := h7.step (.syncRun (f := 20) (n := 1) (who := some 1) (r := false)
    (rest := [.code (some 1), .once 1, .sync 10 1 (some 0) true, .code (some 0), .once 0, .forever]) [] rfl rfl)
  have h9 := h8.step (.pop (n := 0) (rest := [.sync 20 1 (some 1) true, .code (some 1), .once 1, .sync 10 1 (some 0) true,
    .code (some 0), .once 0, .forever]) rfl)
  have h10 := h9.step (.complete (who := none) (rest := [.once 0, .sync 20 1 (some 1) true, .code (some 1), .once 1,
    .sync 10 1 (some 0) true, .code (some 0), .once 0, .forever]) 10 rfl)
  have h11 := h10.step (.endCallback (rest := [.once 0, .sync 20 1 (some 1) true, .code (some 1), .once 1,
    .sync 10 1 (some 0) true, .code (some 0), .once 0, .forever]) rfl)
  exact h11.step (.popped (rest := [.sync 20 1 (some 1) true, .code (some 1), .once 1,
    .sync 10 1 (some 0) true, .code (some 0), .once 0, .forever]) rfl)

/-- The property that a synchronous wait returns once its future is done does not hold: task 0 has what it waits for, but it
does not go on before future 20 is done as well. If future 20 depends on what task 0 does next, the program hangs. -/
theorem done_but_blocked :
    ∃ s, Reachable s ∧ 10 ∈ s.done ∧ ∀ s', Steps s s' → 20 ∉ s'.done → s'.stopping = false →
      ∃ pre r, s'.stack = pre ++ .sync 10 1 (some 0) r :: [.code (some 0), .once 0, .forever] := by
  refine ⟨nested, nested_reachable, by decide, fun s' hs h1 h2 => ?_⟩
  obtain ⟨pre, r, h⟩ := waits_nest hs (g := 20) (n := 1) (w := some 1) (r := true) (pre := [])
    (rest := [.code (some 1), .once 1, .sync 10 1 (some 0) true, .code (some 0), .once 0, .forever]) rfl h1 h2
  exact ⟨pre ++ [.sync 20 1 (some 1) r, .code (some 1), .once 1], true, by rw [h]; simp⟩

/-- In `nested` the outer `_run_once` still has a handle to pop, although the queue is empty: without the cancelled handles
the event loop would raise. -/
example : ∃ s, Steps nested s ∧ s.stack = [.once 1, .sync 10 1 (some 0) true, .code (some 0), .once 0, .forever] ∧
    s.ready = [.cancelled] := by
  have h1 : Steps nested _ := .step .refl (.syncRun (f := 20) (n := 1) (who := some 1) (r := true)
    (rest := [.code (some 1), .once 1, .sync 10 1 (some 0) true, .code (some 0), .once 0, .forever]) [8] rfl rfl)
  have h2 := h1.step (.pop (n := 0) (rest := [.sync 20 1 (some 1) true, .code (some 1), .once 1, .sync 10 1 (some 0) true,
    .code (some 0), .once 0, .forever]) rfl)
  have h3 := h2.step (.complete (who := none) (rest := [.once 0, .sync 20 1 (some 1) true, .code (some 1), .once 1,
    .sync 10 1 (some 0) true, .code (some 0), .once 0, .forever]) 20 rfl)
  have h4 := h3.step (.endCallback (rest := [.once 0, .sync 20 1 (some 1) true, .code (some 1), .once 1,
    .sync 10 1 (some 0) true, .code (some 0), .once 0, .forever]) rfl)
  have h5 := h4.step (.popped (rest := [.sync 20 1 (some 1) true, .code (some 1), .once 1,
    .sync 10 1 (some 0) true, .code (some 0), .once 0, .forever]) rfl)
  have h6 := h5.step (.syncLeave (f := 20) (n := 1) (who := some 1) (r := true)
    (rest := [.code (some 1), .once 1, .sync 10 1 (some 0) true, .code (some 0), .once 0, .forever]) rfl rfl)
  have h7 := h6.step (.endTask (t := 1) (rest := [.once 1, .sync 10 1 (some 0) true, .code (some 0), .once 0, .forever])
    none rfl)
  exact ⟨_, h7, rfl, rfl⟩

example : nested.scheduled = nested.ran ++ nested.ready.filter (· ≠ .cancelled) := ran_in_order nested_reachable

example : (0 : Nat) ∈ nested.created := by decide

end Pulumi.Pump
