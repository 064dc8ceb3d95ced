/-!
# The queue of events (C212)

Models `/repo/pkg/engine/events.go:252-291` (`queueEvents`), with `sendEvent` and `Close` of the emitter (347-354) and `trySendEvent` (603-617): a goroutine between those who send events and the one who
receives them, in any interleaving. Its channels have no buffers, so that a send happens together with the receive. The receiver's channel is open.
-/
namespace Pulumi.Display

/-- Where the goroutine is: waiting for a first event (267), sending and receiving (275-288), sending what is left after the end (280-283), or past `close(done)` (261) -/
inductive At where
  | first
  | both
  | rest
  | done
deriving DecidableEq, Repr

/-- `closed` is that of the channel to the goroutine. What was accepted, dropped and delivered is for the proofs. -/
structure Q (α : Type) where
  pc : At
  queue : List α
  closed : Bool
  accepted : List α
  dropped : List α
  delivered : List α
deriving DecidableEq, Repr

def Q.init {α : Type} : Q α := ⟨.first, [], false, [], [], []⟩

inductive QStep {α : Type} : Q α → Q α → Prop where
  /-- A send, taken by the goroutine while it waits for a first event (267-271) -/
  | first {s : Q α} (e : α) : s.pc = .first → s.closed = false → QStep s { s with pc := .both, queue := s.queue ++ [e], accepted := s.accepted ++ [e] }
  /-- A send, taken while others wait in the queue (277, 285) -/
  | more {s : Q α} (e : α) : s.pc = .both → s.closed = false → QStep s { s with queue := s.queue ++ [e], accepted := s.accepted ++ [e] }
  /-- The receiver takes the oldest event (286-287), and if it was the last one the inner loop ends (275). -/
  | deliver {s : Q α} {e : α} {q : List α} : s.pc = .both → s.queue = e :: q → QStep s { s with queue := q, delivered := s.delivered ++ [e], pc := if q.length > 0 then .both else .first }
  /-- `Close` (347-350); a channel that is closed already is left alone (`tryCloseEventChan`). -/
  | close {s : Q α} : QStep s { s with closed := true }
  /-- A send after that panics, and `trySendEvent` recovers. -/
  | late {s : Q α} (e : α) : s.closed = true → QStep s { s with dropped := s.dropped ++ [e] }
  /-- The goroutine sees that the channel is closed: at 268-270 -/
  | endFirst {s : Q α} : s.pc = .first → s.closed = true → QStep s { s with pc := .done }
  /-- ... or at 278 -/
  | endBoth {s : Q α} : s.pc = .both → s.closed = true → QStep s { s with pc := .rest }
  /-- One round of 280-282 -/
  | flush {s : Q α} {e : α} {q : List α} : s.pc = .rest → s.queue = e :: q → QStep s { s with queue := q, delivered := s.delivered ++ [e] }
  /-- (283) -/
  | endRest {s : Q α} : s.pc = .rest → s.queue = [] → QStep s { s with pc := .done }

inductive QReach {α : Type} : Q α → Prop where
  | init : QReach Q.init
  | step {s s' : Q α} : QReach s → QStep s s' → QReach s'

/-! ## What is said about it -/

structure QInv {α : Type} (s : Q α) : Prop where
  order : s.accepted = s.delivered ++ s.queue
  first : s.pc = .first → s.queue = []
  both : s.pc = .both → s.queue ≠ []
  rest : s.pc = .rest → s.closed = true
  done : s.pc = .done → s.closed = true ∧ s.queue = []
  late : s.closed = false → s.dropped = []

theorem qstep_inv {α : Type} {s s' : Q α} (h : QInv s) (hs : QStep s s') : QInv s' := by
  cases hs with
  | first e h1 h2 =>
    exact { order := (by simp [h.order]), first := fun h' => (by cases h'), both := fun _ => (by simp), rest := fun h' => (by cases h'), done := fun h' => (by cases h'), late := h.late }
  | more e h1 h2 =>
    exact { order := (by simp [h.order]), first := fun h' => (by rw [h1] at h'; cases h'), both := fun _ => (by simp), rest := fun h' => (by rw [h1] at h'; cases h'), done := fun h' => (by rw [h1] at h'; cases h'), late := h.late }
  | @deliver e q h1 h2 =>
    refine { order := (by simp [h.order, h2]), first := fun h' => ?_, both := fun h' => ?_, rest := fun h' => ?_, done := fun h' => ?_, late := h.late }
    · cases q with
      | nil => rfl
      | cons x q => simp at h'
    · cases q with
      | nil => simp at h'
      | cons x q => simp
    · cases q <;> simp at h'
    · cases q <;> simp at h'
  | close => exact { order := h.order, first := h.first, both := h.both, rest := fun _ => rfl, done := fun h' => ⟨rfl, (h.done h').2⟩, late := fun h' => (by cases h') }
  | late e h1 => exact { order := h.order, first := h.first, both := h.both, rest := h.rest, done := h.done, late := fun h' => (by rw [h1] at h'; cases h') }
  | endFirst h1 h2 => exact { order := h.order, first := fun h' => (by cases h'), both := fun h' => (by cases h'), rest := fun h' => (by cases h'), done := fun _ => ⟨h2, h.first h1⟩, late := h.late }
  | endBoth h1 h2 => exact { order := h.order, first := fun h' => (by cases h'), both := fun h' => (by cases h'), rest := fun _ => h2, done := fun h' => (by cases h'), late := h.late }
  | flush h1 h2 => exact { order := (by simp [h.order, h2]), first := fun h' => (by rw [h1] at h'; cases h'), both := fun h' => (by rw [h1] at h'; cases h'), rest := h.rest, done := fun h' => (by rw [h1] at h'; cases h'), late := h.late }
  | endRest h1 h2 => exact { order := h.order, first := fun h' => (by cases h'), both := fun h' => (by cases h'), rest := fun h' => (by cases h'), done := fun _ => ⟨h.rest h1, h2⟩, late := h.late }

theorem qreach_inv {α : Type} {s : Q α} (h : QReach s) : QInv s := by
  induction h with
  | init => exact { order := rfl, first := fun _ => rfl, both := fun h => (by cases h), rest := fun h => (by cases h), done := fun h => (by cases h), late := fun _ => rfl }
  | step _ hs ih => exact qstep_inv ih hs

/-- **C212** The receiver gets the events in the order in which they were sent, none twice and none left out. -/
theorem delivered_in_order {α : Type} {s : Q α} (h : QReach s) : s.delivered <+: s.accepted := ⟨s.queue, (qreach_inv h).order.symm⟩

/-- **C212** When `Close` returns, the receiver has all events that were sent. -/
theorem close_delivers_all {α : Type} {s : Q α} (h : QReach s) (hd : s.pc = .done) : s.delivered = s.accepted := by
  have hi := qreach_inv h
  rw [hi.order, (hi.done hd).2, List.append_nil]

/-- **C212** No event is dropped before `Close`. -/
theorem nothing_dropped_before_close {α : Type} {s : Q α} (h : QReach s) (hc : s.closed = false) : s.dropped = [] := (qreach_inv h).late hc

/-- **C212** Until `Close`, one who sends never waits for the receiver: the goroutine takes the event at once. -/
theorem senders_never_wait {α : Type} {s : Q α} (h : QReach s) (hc : s.closed = false) (e : α) : ∃ s', QStep s s' ∧ s'.accepted = s.accepted ++ [e] := by
  have hi := qreach_inv h
  cases hp : s.pc with
  | first => exact ⟨_, .first e hp hc, rfl⟩
  | both => exact ⟨_, .more e hp hc, rfl⟩
  | rest => have := hi.rest hp; rw [hc] at this; cases this
  | done => have := (hi.done hp).1; rw [hc] at this; cases this

/-- What is still to be done after `Close` -/
def Q.left {α : Type} (s : Q α) : Nat := s.queue.length + (match s.pc with | .first => 1 | .both => 2 | .rest => 1 | .done => 0)

/-- **C212** After `Close`, the goroutine can always go on until it is done, with one step fewer to go each time, if the receiver takes what it is given; so `Close` returns. -/
theorem close_returns {α : Type} {s : Q α} (h : QReach s) (hc : s.closed = true) : s.pc = .done ∨ ∃ s', QStep s s' ∧ s'.closed = true ∧ s'.left < s.left := by
  have hi := qreach_inv h
  cases hp : s.pc with
  | first => exact .inr ⟨_, .endFirst hp hc, hc, by simp [Q.left, hp]⟩
  | both => exact .inr ⟨_, .endBoth hp hc, hc, by simp [Q.left, hp]⟩
  | rest =>
    cases hq : s.queue with
    | nil => exact .inr ⟨_, .endRest hp hq, hc, by simp [Q.left, hp]⟩
    | cons e q => exact .inr ⟨_, .flush hp hq, hc, by simp [Q.left, hp, hq]⟩
  | done => exact .inl rfl

/-- **C212** No step of the goroutine, the receiver or one who comes late makes more to do after `Close`. -/
theorem no_more_after_close {α : Type} {s s' : Q α} (hc : s.closed = true) (hs : QStep s s') : s'.left ≤ s.left ∧ s'.closed = true ∧ s'.accepted = s.accepted := by
  cases hs with
  | first e h1 h2 => rw [hc] at h2; cases h2
  | more e h1 h2 => rw [hc] at h2; cases h2
  | @deliver e q h1 h2 =>
    refine ⟨?_, hc, rfl⟩
    cases q <;> simp [Q.left, h1, h2]
  | close => exact ⟨Nat.le_refl _, rfl, rfl⟩
  | late e h1 => exact ⟨Nat.le_refl _, hc, rfl⟩
  | endFirst h1 h2 => exact ⟨by simp [Q.left, h1], hc, rfl⟩
  | endBoth h1 h2 => exact ⟨by simp [Q.left, h1], hc, rfl⟩
  | flush h1 h2 => exact ⟨by simp [Q.left, h2], hc, rfl⟩
  | endRest h1 h2 => exact ⟨by simp [Q.left, h1], hc, rfl⟩

/-- Three events, of which one is received before the channel is closed, and one that comes too late -/
example : ∃ s : Q Nat, QReach s ∧ s.pc = .done ∧ s.delivered = [1, 2, 3] ∧ s.dropped = [4] := by
  have r0 : QReach (Q.init : Q Nat) := .init
  have r1 := r0.step (.first 1 rfl rfl)
  have r2 := r1.step (.more 2 rfl rfl)
  have r3 := r2.step (.deliver rfl rfl)
  have r4 := r3.step (.more 3 rfl rfl)
  have r5 := r4.step .close
  have r6 := r5.step (.endBoth rfl rfl)
  have r7 := r6.step (.late 4 rfl)
  have r8 := r7.step (.flush rfl rfl)
  have r9 := r8.step (.flush rfl rfl)
  have r10 := r9.step (.endRest rfl rfl)
  exact ⟨_, r10, rfl, rfl, rfl⟩

end Pulumi.Display
