import Verif.Pump.Model

namespace Pulumi.Pump

/-- The task a handle, frame or waiter belongs to. -/
def Handle.task : Handle → List Nat
  | .step t => [t]
  | _ => []

def Frame.task : Frame → List Nat
  | .code (some t) => [t]
  | _ => []

/-- All places where an unfinished task can be. -/
def places (s : State) : List Nat :=
  s.ready.flatMap Handle.task ++ s.waiters.map (·.1) ++ s.stack.flatMap Frame.task

/-- The stack below the innermost frame is as the machine left it. -/
def Below : List Frame → Prop
  | [.forever] => True
  | .once _ :: .forever :: fs => Below (.forever :: fs)
  | .once _ :: .sync f n w r :: fs => Below (.sync f n w r :: fs)
  | .code _ :: .once n :: fs => Below (.once n :: fs)
  | .sync _ n w _ :: .code w' :: .once m :: fs => w = w' ∧ m ≤ n ∧ Below (.code w' :: .once m :: fs)
  | _ => False

/-- What holds of the innermost frame. -/
def Top (ready : List Handle) (current : Option Nat) : List Frame → Prop
  | .once n :: _ => n ≤ ready.length ∧ current = none
  | .code w :: .once n :: _ => n ≤ ready.length ∧ current = w
  | .forever :: _ => current = none
  | .sync _ _ _ _ :: _ => current = none
  | _ => False

structure Inv (s : State) : Prop where
  below : Below s.stack
  top : Top s.ready s.current s.stack
  count : ∀ t : Nat, s.created.count t = (places s).count t + s.finished.count t
  nodup : s.created.Nodup
  fifo : s.scheduled = s.ran ++ s.ready.filter (· ≠ .cancelled)
  awake : ∀ w ∈ s.waiters, w.2 ∉ s.done

theorem below_tail {fr : Frame} {fs : List Frame} (h : Below (fr :: fs)) (hne : fs ≠ []) : Below fs := by
  match fr, fs, h with
  | .once _, .forever :: fs, h => exact h
  | .once _, .sync f n w r :: fs, h => exact h
  | .code _, .once n :: fs, h => exact h
  | .sync _ n w _, .code w' :: .once m :: fs, h => exact h.2.2
  | .forever, [], _ => exact absurd rfl hne

theorem code_on_once {w : Option Nat} {fs : List Frame} (h : Below (.code w :: fs)) : ∃ n rest, fs = .once n :: rest := by
  match fs, h with
  | .once n :: rest, _ => exact ⟨n, rest, rfl⟩

theorem sync_on_code {f n : Nat} {w : Option Nat} {r : Bool} {fs : List Frame} (h : Below (.sync f n w r :: fs)) :
    ∃ m rest, fs = .code w :: .once m :: rest ∧ m ≤ n := by
  match fs, h with
  | .code w' :: .once m :: rest, h => exact ⟨m, rest, by rw [h.1], h.2.1⟩

theorem once_on {n : Nat} {fs : List Frame} (h : Below (.once n :: fs)) :
    (∃ rest, fs = .forever :: rest) ∨ ∃ f n w r rest, fs = .sync f n w r :: rest := by
  match fs, h with
  | .forever :: rest, _ => exact .inl ⟨rest, rfl⟩
  | .sync f n w r :: rest, _ => exact .inr ⟨f, n, w, r, rest, rfl⟩

theorem below_once {n m : Nat} {fs : List Frame} (h : Below (.once n :: fs)) : Below (.once m :: fs) := by
  match fs, h with
  | .forever :: rest, h => exact h
  | .sync f n w r :: rest, h => exact h

theorem inv_init : Inv .init where
  below := trivial
  top := rfl
  count := by intro t; simp [State.init, places, Handle.task, Frame.task]
  nodup := by simp [State.init]
  fifo := by simp [State.init]
  awake := by simp [State.init]

theorem top_mono {r r' : List Handle} {c : Option Nat} {fs : List Frame} (h : Top r c fs) (hl : r.length ≤ r'.length) :
    Top r' c fs := by
  match fs, h with
  | .once n :: _, h => exact ⟨by have := h.1; omega, h.2⟩
  | .code w :: .once n :: _, h => exact ⟨by have := h.1; omega, h.2⟩
  | .forever :: _, h => exact h
  | .sync _ _ _ _ :: _, h => exact h

/-- Scheduling callbacks keeps the invariant. -/
theorem inv_schedule {s : State} (h : Inv s) {cs : List Nat} : Inv (schedule s (cs.map .callback)) where
  below := h.below
  top := top_mono h.top (by simp [schedule])
  count := by
    intro t
    have : (cs.map Handle.callback).flatMap Handle.task = [] := by
      induction cs with
      | nil => rfl
      | cons c cs ih => simp [Handle.task]
    have h1 := h.count t
    simp only [schedule, places, List.flatMap_append, this, List.append_nil] at h1 ⊢
    exact h1
  nodup := h.nodup
  fifo := by
    have : (cs.map Handle.callback).filter (· ≠ .cancelled) = cs.map .callback := by
      induction cs with
      | nil => rfl
      | cons c cs ih => simp
    simp only [schedule, h.fifo, List.filter_append, this, List.append_assoc]
  awake := h.awake

theorem runOnce_inv {s : State} (h : Inv s) (polled : List Nat) (under : List Frame)
    (hb : Below (.once 0 :: under)) (hc : s.current = none)
    (ht : under.flatMap Frame.task = s.stack.flatMap Frame.task) : Inv (runOnce s polled under) := by
  have hs := inv_schedule h (cs := polled)
  refine ⟨below_once hb, ⟨Nat.le_refl _, hc⟩, ?_, hs.nodup, hs.fifo, hs.awake⟩
  intro t
  have := hs.count t
  simp only [places, runOnce, schedule] at this ⊢
  simpa [Frame.task, ht] using this

theorem filter_eq_map_count (ws : List (Nat × Nat)) (f t : Nat) :
    (ws.map (·.1)).count t =
      (((ws.filter fun w => w.2 == f).map fun w => Handle.step w.1).flatMap Handle.task).count t +
        ((ws.filter fun w => w.2 != f).map (·.1)).count t := by
  induction ws with
  | nil => rfl
  | cons w ws ih =>
    by_cases hw : w.2 = f
    · simp only [List.filter_cons, hw, beq_self_eq_true, if_true, bne_self_eq_false, List.map_cons, List.flatMap_cons,
        Handle.task, List.count_append, List.count_cons, List.count_nil, ih]
      simp only [Bool.false_eq_true, if_false]; omega
    · simp only [List.filter_cons, List.map_cons, List.count_cons, ih]
      simp only [beq_eq_false_iff_ne.mpr hw, bne, Bool.not_false, if_true, List.map_cons, List.count_cons,
        Bool.false_eq_true, if_false]; omega

theorem inv_complete {s : State} (h : Inv s) (f : Nat) : Inv (complete s f) where
  below := h.below
  top := top_mono h.top (by simp [complete, schedule])
  count := by
    intro t
    have h1 := h.count t
    have h2 := filter_eq_map_count s.waiters f t
    simp only [places, complete, schedule, List.flatMap_append, List.count_append] at h1 h2 ⊢
    omega
  nodup := h.nodup
  fifo := by
    have : ∀ ws : List (Nat × Nat), (ws.map fun w => Handle.step w.1).filter (· ≠ .cancelled) = ws.map fun w => .step w.1 := by
      intro ws
      rw [List.filter_eq_self]
      intro a ha
      obtain ⟨w, _, rfl⟩ := List.mem_map.1 ha
      simp
    simp only [complete, schedule, h.fifo, List.filter_append, this, List.append_assoc]
  awake := by
    intro w hw
    simp only [complete, schedule, List.mem_filter, bne_iff_ne, ne_eq, List.mem_cons, not_or] at hw ⊢
    exact ⟨hw.2, h.awake w hw.1⟩

theorem pop_ok {s : State} (h : Inv s) {n : Nat} {rest : List Frame} (hs : s.stack = .once (n + 1) :: rest) :
    ∃ s', popHandle s n rest = .ok s' ∧ Inv s' := by
  have hb := h.below
  have ht := h.top
  have hf := h.fifo
  have hcount := h.count
  simp only [places, hs] at hb ht hcount
  obtain ⟨hlen, hcur⟩ := ht
  unfold popHandle
  match hr : s.ready with
  | [] => rw [hr] at hlen; simp at hlen
  | .cancelled :: hs' =>
    rw [hr] at hlen hcount hf
    refine ⟨_, rfl, below_once hb, ⟨by simp at hlen ⊢; omega, hcur⟩, ?_, h.nodup, ?_, h.awake⟩
    · intro t; simpa [places, Handle.task, Frame.task] using hcount t
    · simpa using hf
  | .callback c :: hs' =>
    rw [hr] at hlen hcount hf
    refine ⟨_, rfl, below_once hb, ⟨by simp at hlen ⊢; omega, hcur⟩, ?_, h.nodup, ?_, h.awake⟩
    · intro t; simpa [places, Handle.task, Frame.task] using hcount t
    · simpa using hf
  | .step t' :: hs' =>
    rw [hr] at hlen hcount hf
    refine ⟨{ s with ready := hs', stack := .code (some t') :: .once n :: rest, ran := s.ran ++ [.step t'], current := some t' },
      by simp [enterTask, hcur], below_once hb, ⟨by simp at hlen ⊢; omega, rfl⟩, ?_, h.nodup, ?_, h.awake⟩
    · intro t
      have := hcount t
      simp only [places, Handle.task, Frame.task, List.flatMap_cons, List.count_append, List.nil_append] at this ⊢
      omega
    · simpa using hf

theorem syncEnter_ok {s : State} (h : Inv s) {who : Option Nat} {rest : List Frame} (hs : s.stack = .code who :: rest)
    (f : Nat) : ∃ s', syncEnter s f s.stack = .ok s' ∧ Inv s' := by
  have hb := h.below
  rw [hs] at hb
  obtain ⟨n, rest', rfl⟩ := code_on_once hb
  have ht := h.top
  simp only [hs] at ht
  obtain ⟨hlen, hcur⟩ := ht
  have hc : ∀ t : Nat, s.created.count t = (places { s with stack := .sync f s.ready.length s.current false :: s.stack }).count t
      + s.finished.count t := by
    intro t; rw [h.count t]; simp [places, Frame.task]
  unfold syncEnter
  match who, hcur with
  | none, hcur =>
    simp only [hcur, leaveTask]
    refine ⟨_, rfl, ?_, rfl, ?_, h.nodup, h.fifo, h.awake⟩
    · rw [hs]; exact ⟨rfl, hlen, hb⟩
    · rw [hcur] at hc; exact hc
  | some t, hcur =>
    simp only [hcur, leaveTask, if_true]
    refine ⟨_, rfl, ?_, rfl, ?_, h.nodup, h.fifo, h.awake⟩
    · rw [hs]; exact ⟨rfl, hlen, hb⟩
    · rw [hcur] at hc; exact hc

theorem syncLeave_ok {s : State} (h : Inv s) {f n : Nat} {who : Option Nat} {r : Bool} {rest : List Frame}
    (hs : s.stack = .sync f n who r :: rest) : ∃ s', syncLeave s n who rest = .ok s' ∧ Inv s' ∧ s'.current = who := by
  have hb := h.below
  have ht := h.top
  rw [hs] at hb ht
  have hcur : s.current = none := ht
  have hfil : ∀ k, (List.replicate k Handle.cancelled).filter (· ≠ .cancelled) = [] := by intro k; simp
  have hflat : ∀ k, (List.replicate k Handle.cancelled).flatMap Handle.task = [] := by
    intro k
    induction k with
    | zero => rfl
    | succ k ih => rw [List.replicate_succ, List.flatMap_cons, ih]; rfl
  obtain ⟨m, rest', rfl, hmn⟩ := sync_on_code hb
  have hb' := below_tail hb (by simp)
  have hc : ∀ t : Nat, s.created.count t = (places { s with
      ready := s.ready ++ List.replicate (n - s.ready.length) .cancelled, stack := .code who :: .once m :: rest' }).count t
      + s.finished.count t := by
    intro t; rw [h.count t]; simp [places, Frame.task, hs, hflat]
  have hlen : m ≤ (s.ready ++ List.replicate (n - s.ready.length) Handle.cancelled).length := by simp; omega
  have hfifo : s.scheduled = s.ran ++
      (s.ready ++ List.replicate (n - s.ready.length) Handle.cancelled).filter (· ≠ .cancelled) := by
    rw [List.filter_append, hfil, List.append_nil]; exact h.fifo
  unfold syncLeave
  match who with
  | none => exact ⟨_, rfl, ⟨hb', ⟨hlen, hcur⟩, hc, h.nodup, hfifo, h.awake⟩, hcur⟩
  | some t =>
    simp only [enterTask, hcur, if_true]
    exact ⟨_, rfl, ⟨hb', ⟨hlen, rfl⟩, hc, h.nodup, hfifo, h.awake⟩, rfl⟩

theorem endTask_ok {s : State} (h : Inv s) {t : Nat} {rest : List Frame} (hs : s.stack = .code (some t) :: rest)
    (on : Option Nat) : ∃ s', leaveTask (suspend { s with stack := rest } t on) (some t) = .ok s' ∧ Inv s' := by
  have hb := h.below
  rw [hs] at hb
  obtain ⟨n, rest', rfl⟩ := code_on_once hb
  have ht := h.top
  simp only [hs] at ht
  obtain ⟨hlen, hcur⟩ := ht
  have hcount := h.count
  simp only [places, hs] at hcount
  have hb' := below_tail hb (by simp)
  match on with
  | none =>
    simp only [suspend, leaveTask, hcur, if_true]
    refine ⟨_, rfl, hb', ⟨hlen, rfl⟩, ?_, h.nodup, h.fifo, h.awake⟩
    intro t'
    have := hcount t'
    simp only [places, Frame.task, List.flatMap_cons, List.count_append, List.count_cons, List.count_nil,
      List.nil_append] at this ⊢
    omega
  | some f =>
    by_cases hf : s.done.contains f = true
    · simp only [suspend, hf, if_true, schedule, leaveTask, hcur]
      refine ⟨_, rfl, hb', ⟨by simp; omega, rfl⟩, ?_, h.nodup, ?_, h.awake⟩
      · intro t'
        have := hcount t'
        simp only [places, Frame.task, Handle.task, List.flatMap_cons, List.flatMap_append, List.flatMap_nil,
          List.count_append, List.count_cons, List.count_nil, List.nil_append] at this ⊢
        omega
      · simp only [List.filter_append, h.fifo, List.append_assoc]; simp
    · rw [suspend, if_neg hf]
      simp only [leaveTask, hcur, if_true]
      refine ⟨_, rfl, hb', ⟨hlen, rfl⟩, ?_, h.nodup, h.fifo, ?_⟩
      · intro t'
        have := hcount t'
        simp only [places, Frame.task, List.flatMap_cons, List.map_append, List.map_cons, List.map_nil,
          List.count_append, List.count_cons, List.count_nil, List.nil_append] at this ⊢
        omega
      · intro w hw
        simp only [List.mem_append, List.mem_singleton] at hw ⊢
        rcases hw with hw | rfl
        · exact h.awake w hw
        · simpa using hf

theorem step_ok {s : State} (h : Inv s) {r : Except Err State} (hstep : Step s r) : ∃ s', r = .ok s' ∧ Inv s' := by
  have hb := h.below
  have ht := h.top
  cases hstep with
  | forever polled hs =>
    rw [hs] at ht
    refine ⟨_, rfl, runOnce_inv h polled _ ?_ ht rfl⟩
    rw [hs] at hb ⊢; exact hb
  | pop hs => exact pop_ok h hs
  | popped hs =>
    rw [hs] at hb ht
    refine ⟨_, rfl, ?_⟩
    have hc := h.count
    simp only [places, hs] at hc
    have key : Below ‹List Frame› ∧ Top s.ready s.current ‹List Frame› := by
      rcases once_on hb with ⟨rest, rfl⟩ | ⟨f, n, w, r, rest, rfl⟩
      · exact ⟨below_tail hb (by simp), ht.2⟩
      · exact ⟨below_tail hb (by simp), ht.2⟩
    exact ⟨key.1, key.2, by intro t; simpa [places, Frame.task] using hc t, h.nodup, h.fifo, h.awake⟩
  | call c hs => exact ⟨_, rfl, inv_schedule h (cs := [c])⟩
  | create t hs hnew =>
    refine ⟨_, rfl, h.below, top_mono h.top (by simp [schedule]), ?_, ?_, ?_, h.awake⟩
    · intro t'
      have := h.count t'
      simp only [places, schedule, Handle.task, List.flatMap_append, List.flatMap_cons, List.flatMap_nil, List.count_append,
        List.count_cons, List.count_nil] at this ⊢
      omega
    · exact List.nodup_cons.2 ⟨hnew, h.nodup⟩
    · simp only [schedule, List.filter_append, h.fifo, List.append_assoc]; simp
  | complete f hs => exact ⟨_, rfl, inv_complete h f⟩
  | stop hs => exact ⟨_, rfl, h.below, h.top, h.count, h.nodup, h.fifo, h.awake⟩
  | endCallback hs =>
    rw [hs] at hb ht
    refine ⟨_, rfl, ?_⟩
    have hc := h.count
    simp only [places, hs] at hc
    obtain ⟨n, rest', rfl⟩ := code_on_once hb
    exact ⟨below_tail hb (by simp), ⟨ht.1, ht.2⟩, by intro t; simpa [places, Frame.task] using hc t, h.nodup, h.fifo, h.awake⟩
  | endTask on hs => exact endTask_ok h hs on
  | syncEnter f hs => exact syncEnter_ok h hs f
  | syncRun polled hs hgo =>
    rw [hs] at hb ht
    refine ⟨_, rfl, runOnce_inv h polled _ ?_ ht (by rw [hs]; rfl)⟩
    obtain ⟨m, rest', rfl, hmn⟩ := sync_on_code hb
    exact hb
  | syncLeave hs hend =>
    obtain ⟨s', h1, h2, _⟩ := syncLeave_ok h hs
    exact ⟨s', h1, h2⟩

theorem inv_steps {s s' : State} (h : Inv s) (hs : Steps s s') : Inv s' := by
  induction hs with
  | refl => exact h
  | step _ hstep ih =>
    obtain ⟨u', heq, hi⟩ := step_ok ih hstep
    cases heq; exact hi

theorem inv_reachable {s : State} (h : Reachable s) : Inv s := inv_steps inv_init h

end Pulumi.Pump
