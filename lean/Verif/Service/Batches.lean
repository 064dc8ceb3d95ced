/-!
# Recording the events of an update (C209)

Models `/repo/pkg/backend/httpstate/state.go:261-391` and `recordEngineEvents` (89-113): the loop that puts events into batches and the goroutines that send them, in any interleaving, with the
ticker firing at any time. The body of an event is any type. A request that the service refuses is only logged (320-322): `sent` has what was asked of the service, whatever it answered.
-/
namespace Pulumi.Service

/-- What is to be seen on the channel of events: `isDebugDiagEvent` (261-263), a CancelEvent, or another -/
inductive Kind where
  | debug
  | cancel
  | other
deriving DecidableEq, Repr

/-- What comes to the `select` (355-377), in the order in which it is taken -/
inductive Input (α : Type) where
  | event (k : Kind) (a : α)
  | tick
deriving DecidableEq, Repr

/-- `engineEventBatch` (265-268) -/
structure Batch (α : Type) where
  sequenceStart : Nat
  events : List α
deriving DecidableEq, Repr

/-- A goroutine of `transmitBatchLoop` (314-324): not scheduled yet, waiting for a batch, in a request, or at its end. The wait group counts the second and the third. -/
inductive Worker (α : Type) where
  | unborn
  | idle
  | busy (b : Batch α)
  | gone
deriving DecidableEq, Repr

/-- Where the loop is: in it (354-382), before the last `transmitBatch` (385), before `close` (390), in `wg.Wait` (294), or past `close(done)` (295) -/
inductive Stage where
  | loop
  | last
  | closing
  | waiting
  | done
deriving DecidableEq, Repr

/-- `pending` is the batch that `transmitBatch` blocks on (345). `made` and `seen` are not in the code: all batches and all events that were put into them so far, for the proofs. -/
structure St (α : Type) where
  stage : Stage
  todo : List (Input α)
  eventBatch : List α
  eventIdx : Nat
  pending : Option (Batch α)
  workers : List (Worker α)
  sent : List (Batch α)
  made : List (Batch α)
deriving DecidableEq, Repr

/-- `maxEventsToTransmit` (281) -/
def maxEventsToTransmit : Nat := 50

/-- `transmitBatch` (333-351). The counters change once the batch is taken in the code; nothing else reads them. -/
def transmitBatch {α : Type} (s : St α) : St α :=
  if s.eventBatch.length == 0 then s
  else
    { s with
      pending := some ⟨s.eventIdx, s.eventBatch⟩
      made := s.made ++ [⟨s.eventIdx, s.eventBatch⟩]
      eventIdx := s.eventIdx + s.eventBatch.length
      eventBatch := [] }

/-- One round of the loop (355-381) -/
def take {α : Type} (persistDebug : Bool) (s : St α) (i : Input α) : St α :=
  match i with
  | .event .debug a => if !persistDebug then s else put s a
  | .event .cancel _ => { s with stage := .last }
  | .event .other a => put s a
  | .tick => transmitBatch s
where
  /-- (368-371) -/
  put (s : St α) (a : α) : St α :=
    let s := { s with eventBatch := s.eventBatch ++ [a] }
    if s.eventBatch.length ≥ maxEventsToTransmit then transmitBatch s else s

/-- The wait group is at zero. -/
def Quiet {α : Type} (ws : List (Worker α)) : Prop := ∀ w ∈ ws, w = .unborn ∨ w = .gone

/-- A step of the loop, or of one of the goroutines -/
inductive Step {α : Type} (persistDebug : Bool) : St α → St α → Prop where
  /-- The `select` takes what comes next. -/
  | take {s : St α} {i : Input α} {l : List (Input α)} : s.stage = .loop → s.pending = none → s.todo = i :: l → Step persistDebug s (take persistDebug { s with todo := l } i)
  /-- The last `transmitBatch` (385) -/
  | last {s : St α} : s.stage = .last → s.pending = none → Step persistDebug s { transmitBatch s with stage := .closing }
  /-- `close(batchesToTransmit)` (390) -/
  | close {s : St α} : s.stage = .closing → s.pending = none → Step persistDebug s { s with stage := .waiting }
  /-- `wg.Wait` and `close(done)` (293-296) -/
  | done {s : St α} : s.stage = .waiting → Quiet s.workers → Step persistDebug s { s with stage := .done }
  /-- A goroutine begins (315). -/
  | begin {s : St α} {l r : List (Worker α)} : s.workers = l ++ .unborn :: r → Step persistDebug s { s with workers := l ++ .idle :: r }
  /-- A goroutine takes the batch (318, 345). -/
  | hand {s : St α} {l r : List (Worker α)} {b : Batch α} : s.workers = l ++ .idle :: r → s.pending = some b → Step persistDebug s { s with workers := l ++ .busy b :: r, pending := none }
  /-- `recordEngineEvents` returns (319-322). -/
  | record {s : St α} {l r : List (Worker α)} {b : Batch α} : s.workers = l ++ .busy b :: r → Step persistDebug s { s with workers := l ++ .idle :: r, sent := s.sent ++ [b] }
  /-- The channel is closed, and the goroutine ends (316, 318). -/
  | exit {s : St α} {l r : List (Worker α)} : s.workers = l ++ .idle :: r → (s.stage = .waiting ∨ s.stage = .done) → Step persistDebug s { s with workers := l ++ .gone :: r }

/-- The state at the beginning (298-329), with `n` goroutines (286, 327-329) -/
def init {α : Type} (n : Nat) (l : List (Input α)) : St α := ⟨.loop, l, [], 0, none, List.replicate n .unborn, [], []⟩

inductive Reach {α : Type} (persistDebug : Bool) (n : Nat) (l : List (Input α)) : St α → Prop where
  | init : Reach persistDebug n l (init n l)
  | step {s s' : St α} : Reach persistDebug n l s → Step persistDebug s s' → Reach persistDebug n l s'

/-- What a request records: each event with its sequence number (97-110) -/
def Batch.records {α : Type} (b : Batch α) : List (α × Nat) := b.events.zipIdx b.sequenceStart

/-! ## What is said about it -/

/-- The events that are to be recorded: those before the first CancelEvent, debug ones only if they are asked for -/
def wanted {α : Type} (persistDebug : Bool) : List (Input α) → List α
  | [] => []
  | .tick :: l => wanted persistDebug l
  | .event .cancel _ :: _ => []
  | .event .debug a :: l => if persistDebug then a :: wanted persistDebug l else wanted persistDebug l
  | .event .other a :: l => a :: wanted persistDebug l

/-- The batches that the goroutines have -/
def busies {α : Type} : List (Worker α) → List (Batch α)
  | [] => []
  | .busy b :: l => b :: busies l
  | _ :: l => busies l

/-- The batches are made of consecutive events, beginning at `i`. -/
def Consecutive {α : Type} : Nat → List (Batch α) → Nat → Prop
  | i, [], j => i = j
  | i, b :: l, j => b.sequenceStart = i ∧ Consecutive (i + b.events.length) l j

theorem busies_append {α : Type} (l r : List (Worker α)) : busies (l ++ r) = busies l ++ busies r := by
  induction l with
  | nil => rfl
  | cons w l ih => cases w <;> simp [busies, ih]

theorem busies_replicate {α : Type} (n : Nat) : busies (List.replicate n (Worker.unborn : Worker α)) = [] := by
  induction n with
  | zero => rfl
  | succ n ih => simpa [List.replicate_succ, busies] using ih

theorem busies_quiet {α : Type} {l : List (Worker α)} (h : Quiet l) : busies l = [] := by
  induction l with
  | nil => rfl
  | cons w l ih =>
    have := ih fun x hx => h x (List.mem_cons_of_mem _ hx)
    rcases h w List.mem_cons_self with rfl | rfl <;> exact this

theorem consecutive_snoc {α : Type} {i j : Nat} {l : List (Batch α)} {b : Batch α} (h : Consecutive i l j) (hb : b.sequenceStart = j) : Consecutive i (l ++ [b]) (j + b.events.length) := by
  induction l generalizing i with
  | nil => cases h; exact ⟨hb, rfl⟩
  | cons x l ih => exact ⟨h.1, ih h.2⟩

theorem consecutive_records {α : Type} {i j : Nat} {l : List (Batch α)} (h : Consecutive i l j) : l.flatMap Batch.records = (l.flatMap (·.events)).zipIdx i := by
  induction l generalizing i with
  | nil => rfl
  | cons b l ih =>
    simp only [List.flatMap_cons, List.zipIdx_append]
    rw [ih h.2, Batch.records, h.1]

/-- What holds at every step -/
structure Inv {α : Type} (persistDebug : Bool) (n : Nat) (l : List (Input α)) (s : St α) : Prop where
  count : s.workers.length = n
  all : (s.sent ++ busies s.workers ++ s.pending.toList).Perm s.made
  consecutive : Consecutive 0 s.made s.eventIdx
  size : ∀ b ∈ s.made, 1 ≤ b.events.length ∧ b.events.length ≤ 50
  small : s.eventBatch.length < 50
  seen : s.made.flatMap (·.events) ++ s.eventBatch ++ (if s.stage = .loop then wanted persistDebug s.todo else []) = wanted persistDebug l
  flushed : s.stage ≠ .loop → s.stage ≠ .last → s.eventBatch = []
  handed : s.stage = .waiting ∨ s.stage = .done → s.pending = none
  quiet : s.stage = .done → busies s.workers = []
  cancelled : (∃ a, .event .cancel a ∈ l) ∨ s.stage = .loop ∧ ∀ a, .event .cancel a ∉ l
  more : s.stage = .loop → ∀ a, .event .cancel a ∈ l → ∃ a', .event .cancel a' ∈ s.todo
  sub : ∀ i ∈ s.todo, i ∈ l

theorem transmit_stage {α : Type} (s : St α) : (transmitBatch s).stage = s.stage := by unfold transmitBatch; split <;> rfl
theorem transmit_todo {α : Type} (s : St α) : (transmitBatch s).todo = s.todo := by unfold transmitBatch; split <;> rfl
theorem transmit_workers {α : Type} (s : St α) : (transmitBatch s).workers = s.workers := by unfold transmitBatch; split <;> rfl
theorem transmit_sent {α : Type} (s : St α) : (transmitBatch s).sent = s.sent := by unfold transmitBatch; split <;> rfl
theorem transmit_batch {α : Type} (s : St α) : (transmitBatch s).eventBatch = [] := by
  unfold transmitBatch
  split
  · rename_i h; simpa using h
  · rfl

theorem transmit_seen {α : Type} (s : St α) : (transmitBatch s).made.flatMap (·.events) = s.made.flatMap (·.events) ++ s.eventBatch := by
  unfold transmitBatch
  split
  · rename_i h
    have : s.eventBatch = [] := by simpa using h
    simp [this]
  · simp

theorem transmit_all {α : Type} {s : St α} (hp : s.pending = none) (h : (s.sent ++ busies s.workers ++ s.pending.toList).Perm s.made) :
    ((transmitBatch s).sent ++ busies (transmitBatch s).workers ++ (transmitBatch s).pending.toList).Perm (transmitBatch s).made := by
  unfold transmitBatch
  split
  · exact h
  · rw [hp] at h
    simp only [Option.toList_none, List.append_nil] at h
    exact h.append_right _

theorem transmit_consecutive {α : Type} {s : St α} (h : Consecutive 0 s.made s.eventIdx) : Consecutive 0 (transmitBatch s).made (transmitBatch s).eventIdx := by
  unfold transmitBatch
  split
  · exact h
  · exact consecutive_snoc h rfl

theorem transmit_size {α : Type} {s : St α} (hs : s.eventBatch.length ≤ 50) (h : ∀ b ∈ s.made, 1 ≤ b.events.length ∧ b.events.length ≤ 50) :
    ∀ b ∈ (transmitBatch s).made, 1 ≤ b.events.length ∧ b.events.length ≤ 50 := by
  unfold transmitBatch
  split
  · exact h
  · rename_i hne
    intro b hb
    rcases List.mem_append.mp hb with hb | hb
    · exact h b hb
    · rw [List.mem_singleton.mp hb]
      exact ⟨by have : s.eventBatch.length ≠ 0 := by simpa using hne
                show 1 ≤ s.eventBatch.length
                omega, hs⟩

/-- The parts of the invariant that the loop's own steps keep, for a state whose batch may be full -/
theorem inv_transmit {α : Type} {d : Bool} {n : Nat} {l : List (Input α)} {s : St α} (hp : s.pending = none) (hc : s.workers.length = n)
    (ha : (s.sent ++ busies s.workers ++ s.pending.toList).Perm s.made) (hq : Consecutive 0 s.made s.eventIdx) (hz : ∀ b ∈ s.made, 1 ≤ b.events.length ∧ b.events.length ≤ 50)
    (hs : s.eventBatch.length ≤ 50) (hst : s.stage = .loop) (hseen : s.made.flatMap (·.events) ++ s.eventBatch ++ wanted d s.todo = wanted d l)
    (hx : (∃ a, .event .cancel a ∈ l) ∨ s.stage = .loop ∧ ∀ a, .event .cancel a ∉ l) (hm : ∀ a, .event .cancel a ∈ l → ∃ a', .event .cancel a' ∈ s.todo) (hsub : ∀ i ∈ s.todo, i ∈ l) :
    Inv d n l (transmitBatch s) where
  count := by rw [transmit_workers]; exact hc
  all := transmit_all hp ha
  consecutive := transmit_consecutive hq
  size := transmit_size hs hz
  small := by rw [transmit_batch]; exact Nat.succ_pos _
  seen := by
    rw [transmit_seen, transmit_batch, transmit_stage, transmit_todo, if_pos hst, List.append_nil]
    exact hseen
  flushed := fun h _ => absurd ((transmit_stage s).trans hst) h
  handed := by rw [transmit_stage, hst]; intro h; rcases h with h | h <;> cases h
  quiet := by rw [transmit_stage, hst]; intro h; cases h
  cancelled := by rw [transmit_stage]; exact hx
  more := by rw [transmit_todo]; exact fun _ => hm
  sub := by rw [transmit_todo]; exact hsub

theorem inv_put {α : Type} {d : Bool} {n : Nat} {l t : List (Input α)} {s : St α} {k : Kind} {a : α} (h : Inv d n l s) (hst : s.stage = .loop) (hp : s.pending = none) (ht : s.todo = .event k a :: t)
    (hk : k ≠ .cancel) (hw : wanted d s.todo = a :: wanted d t) : Inv d n l (take.put { s with todo := t } a) := by
  have hseen : s.made.flatMap (·.events) ++ (s.eventBatch ++ [a]) ++ wanted d t = wanted d l := by
    have := h.seen
    rw [if_pos hst, hw] at this
    simpa using this
  have hm : ∀ a, .event .cancel a ∈ l → ∃ a', .event .cancel a' ∈ t := by
    intro x hx
    obtain ⟨y, hy⟩ := h.more hst x hx
    rw [ht] at hy
    rcases List.mem_cons.mp hy with hy | hy
    · cases hy; exact absurd rfl hk
    · exact ⟨y, hy⟩
  have hsub : ∀ i ∈ t, i ∈ l := fun i hi => h.sub i (by rw [ht]; exact List.mem_cons_of_mem _ hi)
  unfold take.put
  simp only
  split
  · refine inv_transmit hp h.count h.all h.consecutive h.size ?_ hst hseen h.cancelled hm hsub
    have := h.small
    simp only [List.length_append, List.length_singleton]
    omega
  · rename_i hlt
    exact
      { count := h.count, all := h.all, consecutive := h.consecutive, size := h.size
        small := by unfold maxEventsToTransmit at hlt; simp only at hlt ⊢; omega
        seen := by simp only [if_pos hst]; exact hseen
        flushed := fun h' _ => absurd hst h'
        handed := h.handed, quiet := h.quiet, cancelled := h.cancelled, more := fun _ => hm, sub := hsub }

theorem inv_take {α : Type} {d : Bool} {n : Nat} {l t : List (Input α)} {s : St α} {i : Input α} (h : Inv d n l s) (hst : s.stage = .loop) (hp : s.pending = none) (ht : s.todo = i :: t) :
    Inv d n l (take d { s with todo := t } i) := by
  have hsub : ∀ i ∈ t, i ∈ l := fun i hi => h.sub i (by rw [ht]; exact List.mem_cons_of_mem _ hi)
  have hseen := h.seen
  rw [if_pos hst, ht] at hseen
  have hm : (∀ a, i ≠ .event .cancel a) → ∀ a, .event .cancel a ∈ l → ∃ a', .event .cancel a' ∈ t := by
    intro hi x hx
    obtain ⟨y, hy⟩ := h.more hst x hx
    rw [ht] at hy
    rcases List.mem_cons.mp hy with hy | hy
    · exact absurd hy.symm (hi y)
    · exact ⟨y, hy⟩
  match i, ht, hseen, hm with
  | .tick, ht, hseen, hm =>
    exact inv_transmit (s := { s with todo := t }) hp h.count h.all h.consecutive h.size (Nat.le_of_lt h.small) hst hseen h.cancelled (hm (fun a => by simp)) hsub
  | .event .debug a, ht, hseen, hm =>
    unfold take
    cases d with
    | true => simp only [Bool.not_true, Bool.false_eq_true, if_false]; exact inv_put h hst hp ht (by simp) (by rw [ht]; simp [wanted])
    | false =>
      simp only [Bool.not_false, if_true]
      exact
        { count := h.count, all := h.all, consecutive := h.consecutive, size := h.size, small := h.small
          seen := by simp only [if_pos hst]; exact hseen
          flushed := h.flushed, handed := h.handed, quiet := h.quiet, cancelled := h.cancelled, more := fun _ => hm (fun a => by simp), sub := hsub }
  | .event .other a, ht, _, _ => exact inv_put h hst hp ht (by simp) (by rw [ht]; rfl)
  | .event .cancel a, ht, hseen, _ =>
    exact
      { count := h.count, all := h.all, consecutive := h.consecutive, size := h.size, small := h.small
        seen := by simpa [take, wanted] using hseen
        flushed := fun _ h' => absurd rfl h'
        handed := by intro h'; rcases h' with h' | h' <;> cases h'
        quiet := fun h' => by cases h'
        cancelled := .inl ⟨a, h.sub _ (by rw [ht]; exact List.mem_cons_self)⟩
        more := fun h' => by cases h'
        sub := hsub }

theorem inv_step {α : Type} {d : Bool} {n : Nat} {l : List (Input α)} {s s' : St α} (h : Inv d n l s) (hs : Step d s s') : Inv d n l s' := by
  cases hs with
  | take h1 h2 h3 => exact inv_take h h1 h2 h3
  | last h1 h2 =>
    have hx : ∃ a, .event .cancel a ∈ l := by
      rcases h.cancelled with hc | ⟨hc, -⟩
      · exact hc
      · rw [h1] at hc; cases hc
    exact
      { count := by rw [← h.count]; exact congrArg _ (transmit_workers s)
        all := transmit_all h2 h.all
        consecutive := transmit_consecutive h.consecutive
        size := transmit_size (Nat.le_of_lt h.small) h.size
        small := by show (transmitBatch s).eventBatch.length < 50; rw [transmit_batch]; exact Nat.succ_pos _
        seen := by
          have hs' := h.seen
          rw [h1] at hs'
          simp only [transmit_seen, transmit_batch]
          simpa using hs'
        flushed := fun _ _ => transmit_batch s
        handed := by intro h'; rcases h' with h' | h' <;> cases h'
        quiet := fun h' => by cases h'
        cancelled := .inl hx
        more := fun h' => by cases h'
        sub := by show ∀ i ∈ (transmitBatch s).todo, i ∈ l; rw [transmit_todo]; exact h.sub }
  | close h1 h2 =>
    have hf : s.eventBatch = [] := h.flushed (by rw [h1]; simp) (by rw [h1]; simp)
    have hx : ∃ a, .event .cancel a ∈ l := by
      rcases h.cancelled with hc | ⟨hc, -⟩
      · exact hc
      · rw [h1] at hc; cases hc
    exact
      { count := h.count, all := h.all, consecutive := h.consecutive, size := h.size, small := h.small
        seen := by have hs' := h.seen; rw [h1] at hs'; simpa using hs'
        flushed := fun _ _ => hf
        handed := fun _ => h2
        quiet := fun h' => by cases h'
        cancelled := .inl hx
        more := fun h' => by cases h'
        sub := h.sub }
  | done h1 h2 =>
    have hx : ∃ a, .event .cancel a ∈ l := by
      rcases h.cancelled with hc | ⟨hc, -⟩
      · exact hc
      · rw [h1] at hc; cases hc
    exact
      { count := h.count, all := h.all, consecutive := h.consecutive, size := h.size, small := h.small
        seen := by have hs' := h.seen; rw [h1] at hs'; simpa using hs'
        flushed := fun _ _ => h.flushed (by rw [h1]; simp) (by rw [h1]; simp)
        handed := fun _ => h.handed (.inl h1)
        quiet := fun _ => busies_quiet h2
        cancelled := .inl hx
        more := fun h' => by cases h'
        sub := h.sub }
  | @begin wl wr h1 =>
    have hb : busies (wl ++ .idle :: wr) = busies s.workers := by rw [h1, busies_append, busies_append]; rfl
    exact
      { h with
        count := by rw [← h.count, h1]; simp
        all := by simp only [hb]; exact h.all
        quiet := by simp only [hb]; exact h.quiet }
  | @hand wl wr b h1 h2 =>
    have hw : s.stage ≠ .waiting ∧ s.stage ≠ .done := by
      constructor
      · intro h'; rw [h.handed (.inl h')] at h2; cases h2
      · intro h'; rw [h.handed (.inr h')] at h2; cases h2
    exact
      { h with
        count := by rw [← h.count, h1]; simp
        all := by
          refine List.Perm.trans ?_ h.all
          simp only [h1, h2, busies_append, busies, Option.toList_none, Option.toList_some, List.append_nil, List.append_assoc]
          refine List.Perm.append_left _ (List.Perm.append_left _ ?_)
          exact (List.perm_append_singleton b (busies wr)).symm
        handed := fun _ => rfl
        quiet := fun h' => absurd h' hw.2 }
  | @record wl wr b h1 =>
    have hb : busies s.workers = busies wl ++ b :: busies wr := by rw [h1, busies_append]; rfl
    exact
      { h with
        count := by rw [← h.count, h1]; simp
        all := by
          refine List.Perm.trans ?_ h.all
          simp only [hb, busies_append, busies, List.append_assoc]
          refine List.Perm.append_left _ ?_
          simp only [List.cons_append]
          exact (List.perm_middle (a := b) (l₁ := busies wl) (l₂ := busies wr ++ s.pending.toList)).symm
        quiet := fun h' => by
          have := h.quiet h'
          rw [hb] at this
          simp at this }
  | @exit wl wr h1 h2 =>
    have hb : busies (wl ++ .gone :: wr) = busies s.workers := by rw [h1, busies_append, busies_append]; rfl
    exact
      { h with
        count := by rw [← h.count, h1]; simp
        all := by simp only [hb]; exact h.all
        quiet := by simp only [hb]; exact h.quiet }

theorem reach_inv {α : Type} {d : Bool} {n : Nat} {l : List (Input α)} {s : St α} (h : Reach d n l s) : Inv d n l s := by
  induction h with
  | init =>
    exact
      { count := by simp [init]
        all := by simp [init, busies_replicate]
        consecutive := rfl
        size := fun b hb => by cases hb
        small := by simp [init]
        seen := by simp [init]
        flushed := fun h _ => absurd rfl h
        handed := fun _ => rfl
        quiet := fun _ => busies_replicate n
        cancelled := by
          by_cases hx : ∃ a, .event .cancel a ∈ l
          · exact .inl hx
          · exact .inr ⟨rfl, fun a ha => hx ⟨a, ha⟩⟩
        more := fun _ a ha => ⟨a, ha⟩
        sub := fun i hi => hi }
  | step _ hs ih => exact inv_step ih hs

/-- **C209** When `done` is closed the service has been asked to record every event that was to be recorded, once, with its place in the stream as the number; however ticks, batches and requests
fell. -/
theorem done_means_recorded {α : Type} {d : Bool} {n : Nat} {l : List (Input α)} {s : St α} (h : Reach d n l s) (hd : s.stage = .done) :
    (s.sent.flatMap Batch.records).Perm (wanted d l).zipIdx := by
  have hi := reach_inv h
  have hp : s.sent.Perm s.made := by
    have := hi.all
    rw [hi.quiet hd, hi.handed (.inr hd)] at this
    simpa using this
  have hseen : s.made.flatMap (·.events) = wanted d l := by
    have := hi.seen
    rw [hd, hi.flushed (by rw [hd]; simp) (by rw [hd]; simp)] at this
    simpa using this
  rw [← hseen, ← consecutive_records hi.consecutive]
  exact hp.flatMap_right _

/-- **C209** At any time, what the service has been asked to record or is being asked are events of the stream with their places, none twice. -/
theorem recorded_once {α : Type} {d : Bool} {n : Nat} {l : List (Input α)} {s : St α} (h : Reach d n l s) :
    ∃ rest, ((s.sent ++ busies s.workers).flatMap Batch.records ++ rest).Perm (wanted d l).zipIdx := by
  have hi := reach_inv h
  obtain ⟨after, hseen⟩ : ∃ after, s.made.flatMap (·.events) ++ after = wanted d l := ⟨s.eventBatch ++ (if s.stage = .loop then wanted d s.todo else []), by rw [← hi.seen]; simp⟩
  refine ⟨s.pending.toList.flatMap Batch.records ++ after.zipIdx (s.made.flatMap (·.events)).length, ?_⟩
  rw [← hseen, List.zipIdx_append, ← consecutive_records hi.consecutive, ← List.append_assoc, ← List.flatMap_append, Nat.zero_add]
  exact (hi.all.flatMap_right _).append_right _

/-- **C209** No two events that the service is asked to record have the same number. -/
theorem numbers_are_unique {α : Type} {d : Bool} {n : Nat} {l : List (Input α)} {s : St α} (h : Reach d n l s) : (((s.sent ++ busies s.workers).flatMap Batch.records).map (·.2)).Nodup := by
  obtain ⟨rest, hr⟩ := recorded_once h
  have h1 : (((s.sent ++ busies s.workers).flatMap Batch.records ++ rest).map (·.2)).Nodup := by
    rw [(hr.map _).nodup_iff]
    have : (wanted d l).zipIdx.map (·.2) = List.range' 0 (wanted d l).length := List.zipIdx_map_snd 0 _
    rw [this]
    exact List.nodup_range'
  rw [List.map_append] at h1
  exact (List.nodup_append.mp h1).1

/-- **C209** A request has at least one and at most fifty events, and there are never more requests than goroutines. -/
theorem requests_are_bounded {α : Type} {d : Bool} {n : Nat} {l : List (Input α)} {s : St α} (h : Reach d n l s) :
    (∀ b ∈ s.sent ++ busies s.workers, 1 ≤ b.events.length ∧ b.events.length ≤ 50) ∧ (busies s.workers).length ≤ n := by
  have hi := reach_inv h
  refine ⟨fun b hb => hi.size b (hi.all.mem_iff.mp (List.mem_append_left _ hb)), ?_⟩
  rw [← hi.count]
  generalize s.workers = ws
  induction ws with
  | nil => simp [busies]
  | cons w ws ih => cases w <;> simp [busies] <;> omega

/-- **C209** While the stream has a CancelEvent and there is at least one goroutine, something can always happen until `done` is closed: nothing waits for nothing. -/
theorem never_stuck {α : Type} {d : Bool} {n : Nat} {l : List (Input α)} {s : St α} (h : Reach d n l s) (hn : 0 < n) (hc : ∃ a, .event .cancel a ∈ l) (hd : s.stage ≠ .done) :
    ∃ s', Step d s s' := by
  have hi := reach_inv h
  cases hp : s.pending with
  | some b =>
    have hw : s.stage ≠ .waiting := by intro h'; rw [hi.handed (.inl h')] at hp; cases hp
    have hlen := hi.count
    -- a goroutine that is not gone: none is before the channel is closed, and any of them can move
    cases hws : s.workers with
    | nil => rw [hws] at hlen; simp at hlen; omega
    | cons w r =>
      cases w with
      | unborn => exact ⟨_, .begin (l := []) (r := r) hws⟩
      | idle => exact ⟨_, .hand (l := []) (r := r) hws hp⟩
      | busy b' => exact ⟨_, .record (l := []) (r := r) hws⟩
      | gone =>
        exfalso
        have : ∀ {s : St α}, Reach d n l s → s.stage ≠ .waiting → s.stage ≠ .done → Worker.gone ∉ s.workers := by
          intro s hr
          induction hr with
          | init => intro _ _ hm; have := List.eq_of_mem_replicate hm; cases this
          | @step s s' hr hs ih =>
            have stage_le : s'.stage ≠ .waiting → s'.stage ≠ .done → s.stage ≠ .waiting ∧ s.stage ≠ .done := by
              intro h1 h2
              cases hs with
              | take h _ _ => rw [h]; simp
              | last h _ => rw [h]; simp
              | close h _ => rw [h]; simp
              | done h _ => exact absurd rfl h2
              | begin _ => exact ⟨h1, h2⟩
              | hand _ _ => exact ⟨h1, h2⟩
              | record _ => exact ⟨h1, h2⟩
              | exit _ _ => exact ⟨h1, h2⟩
            intro h1 h2
            have ih' := ih (stage_le h1 h2).1 (stage_le h1 h2).2
            cases hs with
            | @take i t h h' h'' =>
              have : (Pulumi.Service.take d { s with todo := t } i).workers = s.workers := by
                unfold Pulumi.Service.take take.put
                split <;> (try simp only [transmit_workers]) <;> (repeat' split) <;> simp [transmit_workers]
              rw [this]; exact ih'
            | last h _ => show Worker.gone ∉ (transmitBatch s).workers; rw [transmit_workers]; exact ih'
            | close h _ => exact ih'
            | done h _ => exact ih'
            | begin h => rw [h] at ih'; simp at ih' ⊢; exact ih'
            | hand h _ => rw [h] at ih'; simp at ih' ⊢; exact ih'
            | record h => rw [h] at ih'; simp at ih' ⊢; exact ih'
            | exit h h' => exact absurd h' (fun h'' => h''.elim h1 h2)
        exact this h hw hd (by rw [hws]; exact List.mem_cons_self)
  | none =>
    cases hst : s.stage with
    | loop =>
      obtain ⟨a, ha⟩ := hc
      obtain ⟨a', ha'⟩ := hi.more hst a ha
      cases ht : s.todo with
      | nil => rw [ht] at ha'; cases ha'
      | cons i t => exact ⟨_, .take hst hp ht⟩
    | last => exact ⟨_, .last hst hp⟩
    | closing => exact ⟨_, .close hst hp⟩
    | waiting =>
      by_cases hq : Quiet s.workers
      · exact ⟨_, .done hst hq⟩
      · have : ∃ w ∈ s.workers, w ≠ .unborn ∧ w ≠ .gone := by
          apply Classical.byContradiction
          intro hno
          apply hq
          intro w hw
          apply Classical.byContradiction
          intro hn'
          exact hno ⟨w, hw, fun e => hn' (.inl e), fun e => hn' (.inr e)⟩
        obtain ⟨w, hw, h1, h2⟩ := this
        obtain ⟨wl, wr, he⟩ := List.append_of_mem hw
        cases w with
        | unborn => exact absurd rfl h1
        | gone => exact absurd rfl h2
        | idle => exact ⟨_, .exit he (.inl hst)⟩
        | busy b => exact ⟨_, .record he⟩
    | done => exact absurd hst hd

/-! ### It comes to an end -/

def Worker.weight {α : Type} : Worker α → Nat
  | .unborn => 3
  | .idle => 2
  | .busy _ => 3
  | .gone => 0

def Stage.weight : Stage → Nat
  | .loop => 10
  | .last => 8
  | .closing => 4
  | .waiting => 2
  | .done => 0

def St.weight {α : Type} (s : St α) : Nat := s.stage.weight + 3 * s.todo.length + 2 * s.pending.toList.length + (s.workers.map Worker.weight).sum

theorem transmit_weight {α : Type} {s : St α} (h : s.pending = none) : (transmitBatch s).weight ≤ s.weight + 2 := by
  unfold transmitBatch
  split
  · omega
  · simp [St.weight, h]; omega

theorem put_weight {α : Type} {s : St α} (h : s.pending = none) (a : α) : (take.put s a).weight ≤ s.weight + 2 := by
  unfold take.put
  simp only
  split
  · exact transmit_weight (s := { s with eventBatch := s.eventBatch ++ [a] }) h
  · simp [St.weight]

theorem step_weight {α : Type} {d : Bool} {s s' : St α} (h : Step d s s') : s'.weight < s.weight := by
  cases h with
  | @take i t h1 h2 h3 =>
    have hw : s.weight = ({ s with todo := t } : St α).weight + 3 := by simp [St.weight, h3]; omega
    rw [hw]
    unfold Pulumi.Service.take
    split
    · split
      · omega
      · exact Nat.lt_of_le_of_lt (put_weight (s := { s with todo := t }) h2 _) (by omega)
    · simp [St.weight, h1, Stage.weight]; omega
    · exact Nat.lt_of_le_of_lt (put_weight (s := { s with todo := t }) h2 _) (by omega)
    · exact Nat.lt_of_le_of_lt (transmit_weight (s := { s with todo := t }) h2) (by omega)
  | last h1 h2 =>
    have := transmit_weight h2
    have hs := transmit_stage s
    simp only [St.weight, hs, h1, Stage.weight] at this ⊢
    omega
  | close h1 h2 => simp [St.weight, h1, Stage.weight]
  | done h1 h2 => simp [St.weight, h1, Stage.weight]
  | begin h1 => simp [St.weight, h1, Worker.weight]
  | hand h1 h2 => simp [St.weight, h1, h2, Worker.weight]; omega
  | record h1 => simp [St.weight, h1, Worker.weight]
  | exit h1 h2 => simp [St.weight, h1, Worker.weight]

/-- `k` steps, one after the other -/
inductive Steps {α : Type} (persistDebug : Bool) : Nat → St α → St α → Prop where
  | none {s : St α} : Steps persistDebug 0 s s
  | more {k : Nat} {s s' s'' : St α} : Steps persistDebug k s s' → Step persistDebug s' s'' → Steps persistDebug (k + 1) s s''

/-- **C209** However it is scheduled, it comes to an end: there are no more steps than this. With `never_stuck`, where it ends is behind `close(done)`. -/
theorem comes_to_an_end {α : Type} {d : Bool} {n k : Nat} {l : List (Input α)} {s : St α} (h : Steps d k (init n l) s) : k ≤ 10 + 3 * l.length + 3 * n := by
  have : k + s.weight ≤ (init n l).weight := by
    generalize init n l = s₀ at h
    induction h with
    | none => simp
    | more _ hs ih => have := step_weight hs; omega
  have hi : (init n l).weight = 10 + 3 * l.length + 3 * n := by
    simp [init, St.weight, Stage.weight, Worker.weight, Nat.mul_comm]
  omega

/-- **C209** Without a CancelEvent `done` is never closed: whoever closes the channel of events without one waits for ever. -/
theorem done_needs_cancel {α : Type} {d : Bool} {n : Nat} {l : List (Input α)} {s : St α} (h : Reach d n l s) (hd : s.stage = .done) : ∃ a, .event .cancel a ∈ l := by
  rcases (reach_inv h).cancelled with hc | ⟨hc, -⟩
  · exact hc
  · rw [hd] at hc; cases hc

/-! ### A run -/

theorem Steps.reach {α : Type} {d : Bool} {n k : Nat} {l : List (Input α)} {s : St α} (h : Steps d k (init n l) s) : Reach d n l s := by
  generalize hs : init n l = s₀ at h
  induction h with
  | none => rw [← hs]; exact .init
  | more _ h2 ih => exact .step (ih hs) h2

/-- Two goroutines; the ticker fires between two events, a debug event is left out, and the second request comes back before the first: the state at the end, where `done` is closed. -/
example : ∃ s : St String, Reach false 2 [.event .other "a", .tick, .event .debug "x", .event .other "b", .event .cancel "", .event .other "late"] s ∧ s.stage = .done ∧ s.sent = [⟨1, ["b"]⟩, ⟨0, ["a"]⟩] := by
  have r0 := Reach.init (persistDebug := false) (n := 2) (l := [Input.event .other "a", .tick, .event .debug "x", .event .other "b", .event .cancel "", .event .other "late"])
  have r1 := r0.step (.begin (l := []) (r := [.unborn]) rfl)
  have r2 := r1.step (.begin (l := [.idle]) (r := []) rfl)
  have r3 := r2.step (.take rfl rfl rfl)
  have r4 := r3.step (.take rfl rfl rfl)
  have r5 := r4.step (.hand (l := []) (r := [.idle]) rfl rfl)
  have r6 := r5.step (.take rfl rfl rfl)
  have r7 := r6.step (.take rfl rfl rfl)
  have r8 := r7.step (.take rfl rfl rfl)
  have r9 := r8.step (.last rfl rfl)
  have r10 := r9.step (.hand (l := [.busy ⟨0, ["a"]⟩]) (r := []) rfl rfl)
  have r11 := r10.step (.close rfl rfl)
  have r12 := r11.step (.record (l := [.busy ⟨0, ["a"]⟩]) (r := []) rfl)
  have r13 := r12.step (.record (l := []) (r := [.idle]) rfl)
  have r14 := r13.step (.exit (l := []) (r := [.idle]) rfl (.inl rfl))
  have r15 := r14.step (.exit (l := [.gone]) (r := []) rfl (.inl rfl))
  have r16 := r15.step (.done rfl (by intro w hw; simp at hw; exact .inr hw))
  exact ⟨_, r16, rfl, rfl⟩

end Pulumi.Service
