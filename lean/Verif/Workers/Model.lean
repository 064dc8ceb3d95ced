/-
The workers that carry out the steps of an update.

Code: pkg/resource/deploy/step_executor.go: ExecuteSerial (111-124), ExecuteParallel (127-150), SignalCompletion (223-225),
WaitForCompletion (229-233), executeChain (243-267), cancelDueToError (269-274), worker (411-449), newStepExecutor (451-481);
pkg/resource/deploy/deployment.go: Options.DegreeOfParallelism (71-76), Options.InfiniteParallelism (79-81).

The executor is a transition system over all interleavings of the goroutine that submits chains, the workers, and a user who
cancels.  A chain is the number of its steps; what a step does, and whether it fails, is left to chance.  Each place where a
goroutine can be overtaken by another is a state of its own.  A chain of no steps is not submitted: the worker that receives
it would take it for the end (420-423), and step generation gives at least one step where it succeeds (C156).
-/
namespace Pulumi.Workers

/-- Where a chain is -/
inductive At where
  /-- waiting to be received by a worker (117-118) -/
  | offered
  /-- held by a worker, before the test whether the update is cancelled (245-250), or before the end of the loop -/
  | held
  /-- the test found no cancellation, and `executeStep` is not yet called: a cancellation can still come between (249-252) -/
  | cleared
  /-- in `executeStep` (252) -/
  | inStep
  /-- `executeStep` returned an error, which nobody else knows yet (253-254) -/
  | failing
  /-- the completion channel is closed: all steps were carried out -/
  | finished
  /-- closed after a step that failed -/
  | failed
  /-- closed because the update was cancelled: by the worker (245-248), or before any worker received it (119-120) -/
  | stopped
  deriving DecidableEq

def At.closed : At → Bool
  | .finished | .failed | .stopped => true
  | _ => false

/-- A worker is busy with the chain -/
def At.active : At → Bool
  | .held | .cleared | .inStep | .failing => true
  | _ => false

structure Chain where
  size : Nat
  done : Nat
  at_ : At
  deriving DecidableEq

/-- What can be seen from outside: step `k` of a chain begins, succeeds, fails -/
inductive Ev where
  | began (k : Nat)
  | succeeded (k : Nat)
  | failed (k : Nat)
  deriving DecidableEq

structure State where
  chains : List Chain
  canceled : Bool
  sawError : Bool
  signalled : Bool
  log : List (Nat × Ev)

/-- `newStepExecutor` (451-481) -/
def init : State := { chains := [], canceled := false, sawError := false, signalled := false, log := [] }

/-- how many workers are busy -/
def State.busy (s : State) : Nat := s.chains.countP (fun c => c.at_.active)

/-- `continueOnError` and the number of workers; `none` where each chain gets a goroutine of its own (467-471, 434-442) -/
structure Options where
  continueOnError : Bool
  workers : Option Nat

/-- `DegreeOfParallelism` and `InfiniteParallelism` (deployment.go:71-81): what `--parallel` gives -/
def workersOf (parallel : Int) : Option Nat :=
  if parallel = 2147483647 then none
  else if parallel ≤ 1 then some 1
  else some parallel.toNat

def Options.free (o : Options) (busy : Nat) : Prop :=
  match o.workers with
  | none => True
  | some n => busy < n

/-- what a goroutine of the executor does next -/
inductive Work (o : Options) : State → State → Prop where
  /-- a worker receives a chain (418-442) -/
  | take {s : State} (i : Nat) (c : Chain) : s.chains[i]? = some c → c.at_ = .offered → o.free s.busy →
      Work o s { s with chains := s.chains.set i { c with at_ := .held } }
  /-- the submission gives up (119-120) -/
  | refuse {s : State} (i : Nat) (c : Chain) : s.chains[i]? = some c → c.at_ = .offered → s.canceled = true →
      Work o s { s with chains := s.chains.set i { c with at_ := .stopped } }
  /-- the update is not cancelled at the test (245-250) -/
  | test {s : State} (i : Nat) (c : Chain) : s.chains[i]? = some c → c.at_ = .held → c.done < c.size →
      s.canceled = false →
      Work o s { s with chains := s.chains.set i { c with at_ := .cleared } }
  /-- the next step begins (252) -/
  | begin_ {s : State} (i : Nat) (c : Chain) : s.chains[i]? = some c → c.at_ = .cleared →
      Work o s { s with chains := s.chains.set i { c with at_ := .inStep }, log := s.log ++ [(i, .began c.done)] }
  /-- the chain is left because the update is cancelled (246-248) -/
  | stop {s : State} (i : Nat) (c : Chain) : s.chains[i]? = some c → c.at_ = .held → c.done < c.size →
      s.canceled = true →
      Work o s { s with chains := s.chains.set i { c with at_ := .stopped } }
  /-- the step succeeds -/
  | succeed {s : State} (i : Nat) (c : Chain) : s.chains[i]? = some c → c.at_ = .inStep →
      Work o s { s with chains := s.chains.set i { c with at_ := .held, done := c.done + 1 },
                        log := s.log ++ [(i, .succeeded c.done)] }
  /-- the step fails -/
  | fail {s : State} (i : Nat) (c : Chain) : s.chains[i]? = some c → c.at_ = .inStep →
      Work o s { s with chains := s.chains.set i { c with at_ := .failing }, log := s.log ++ [(i, .failed c.done)] }
  /-- `cancelDueToError` (254, 269-274), and the chain is closed -/
  | report {s : State} (i : Nat) (c : Chain) : s.chains[i]? = some c → c.at_ = .failing →
      Work o s { s with chains := s.chains.set i { c with at_ := .failed }, sawError := true,
                        canceled := s.canceled || !o.continueOnError }
  /-- all steps are done, and the chain is closed (244, 427-428) -/
  | finish {s : State} (i : Nat) (c : Chain) : s.chains[i]? = some c → c.at_ = .held → c.done = c.size →
      Work o s { s with chains := s.chains.set i { c with at_ := .finished } }

/-- what others do -/
inductive Others : State → State → Prop where
  /-- `ExecuteSerial`, and each step of `ExecuteParallel` (111-118, 134); the channel is not closed yet -/
  | offer {s : State} (n : Nat) : n > 0 → s.signalled = false →
      Others s { s with chains := s.chains ++ [{ size := n, done := 0, at_ := .offered }] }
  /-- `SignalCompletion`, after all chains were submitted -/
  | signal {s : State} : (∀ c ∈ s.chains, c.at_ ≠ .offered) → Others s { s with signalled := true }
  /-- the user cancels, or step generation fails -/
  | cancel {s : State} : Others s { s with canceled := true }

inductive Step (o : Options) (s s' : State) : Prop where
  | work : Work o s s' → Step o s s'
  | others : Others s s' → Step o s s'

inductive Steps (o : Options) : State → State → Prop where
  | refl (s : State) : Steps o s s
  | tail {s t u : State} : Steps o s t → Step o t u → Steps o s u

def Reachable (o : Options) (s : State) : Prop := Steps o init s

/-- `WaitForCompletion` can return: no worker is busy, and each was told to end (by the closed channel or by the
cancellation) -/
def Completed (s : State) : Prop := (s.signalled = true ∨ s.canceled = true) ∧ s.busy = 0

/-- The events of one chain -/
def State.of (s : State) (i : Nat) : List Ev := s.log.filterMap (fun e => if e.1 = i then some e.2 else none)

/-! ## Specification -/

/-- the events of `n` steps carried out one after the other -/
def carriedOut : Nat → List Ev
  | 0 => []
  | n + 1 => carriedOut n ++ [.began n, .succeeded n]

/-- the events of a chain: its first `done` steps were carried out in their order, and it may be in the next, or that may
have failed -/
def expected (c : Chain) : List Ev :=
  carriedOut c.done ++
    match c.at_ with
    | .inStep => [.began c.done]
    | .failing | .failed => [.began c.done, .failed c.done]
    | _ => []

/-! ## The invariant -/

structure Inv (o : Options) (s : State) : Prop where
  log : ∀ i c, s.chains[i]? = some c → s.of i = expected c
  fresh : ∀ i, s.chains.length ≤ i → s.of i = []
  size : ∀ (i : Nat) (c : Chain), s.chains[i]? = some c → c.done ≤ c.size ∧
    ((c.at_ = .cleared ∨ c.at_ = .inStep ∨ c.at_ = .failing ∨ c.at_ = .failed) → c.done < c.size) ∧ (c.at_ = .finished → c.done = c.size) ∧
    (c.at_ = .offered → c.done = 0) ∧ 0 < c.size
  stopped : ∀ (i : Nat) (c : Chain), s.chains[i]? = some c → c.at_ = .stopped → s.canceled = true
  errors : s.sawError = true ↔ ∃ (i : Nat) (c : Chain), s.chains[i]? = some c ∧ c.at_ = .failed
  cancels : o.continueOnError = false → s.sawError = true → s.canceled = true
  bounded : ∀ n, o.workers = some n → s.busy ≤ n
  signalled : s.signalled = true → ∀ (i : Nat) (c : Chain), s.chains[i]? = some c → c.at_ ≠ .offered

theorem of_append (s : State) (i j : Nat) (e : Ev) (chains : List Chain) :
    ({ s with chains := chains, log := s.log ++ [(j, e)] } : State).of i = if j = i then s.of i ++ [e] else s.of i := by
  unfold State.of
  simp only [List.filterMap_append]
  by_cases h : j = i <;> simp [h]

theorem getElem?_lt {α : Type} {l : List α} {i : Nat} {a : α} (h : l[i]? = some a) : i < l.length := by
  rw [List.getElem?_eq_some_iff] at h
  exact h.1

theorem get_set {l : List Chain} {i j : Nat} {c c' d : Chain} (h : l[i]? = some c) (hd : (l.set i c')[j]? = some d) :
    (i = j ∧ d = c') ∨ (i ≠ j ∧ l[j]? = some d) := by
  rw [List.getElem?_set] at hd
  by_cases hij : i = j
  · rw [if_pos hij, if_pos (getElem?_lt h)] at hd
    cases hd
    exact Or.inl ⟨hij, rfl⟩
  · rw [if_neg hij] at hd
    exact Or.inr ⟨hij, hd⟩

theorem get_set_self {l : List Chain} {i : Nat} {c c' : Chain} (h : l[i]? = some c) : (l.set i c')[i]? = some c' := by
  rw [List.getElem?_set, if_pos rfl, if_pos (getElem?_lt h)]

theorem get_set_ne {l : List Chain} {i j : Nat} {c' : Chain} (h : i ≠ j) : (l.set i c')[j]? = l[j]? := by
  rw [List.getElem?_set, if_neg h]

theorem busy_set {l : List Chain} {i : Nat} {c c' : Chain} (h : l[i]? = some c) :
    (l.set i c').countP (fun c => c.at_.active) + (if c.at_.active then 1 else 0) =
      l.countP (fun c => c.at_.active) + (if c'.at_.active then 1 else 0) := by
  have hlt := getElem?_lt h
  have hget : l[i] = c := by rw [List.getElem?_eq_some_iff] at h; exact h.2
  rw [List.countP_set hlt, hget]
  by_cases hc : c.at_.active = true
  · have hpos : 0 < l.countP (fun c => c.at_.active) :=
      List.countP_pos_iff.mpr ⟨c, hget ▸ List.getElem_mem hlt, hc⟩
    simp only [hc, if_true]
    omega
  · simp only [hc]
    simp

/-- what changing one chain needs -/
theorem Inv.set {o : Options} {s : State} (h : Inv o s) {i : Nat} {c c' : Chain} {canceled sawError : Bool} {ev : List Ev}
    (hc : s.chains[i]? = some c)
    (hsame : c'.size = c.size)
    (hlog : expected c ++ ev = expected c') (hev : ev = [] ∨ ∃ e, ev = [e])
    (hsize : c'.done ≤ c'.size ∧ ((c'.at_ = .cleared ∨ c'.at_ = .inStep ∨ c'.at_ = .failing ∨ c'.at_ = .failed) → c'.done < c'.size) ∧
      (c'.at_ = .finished → c'.done = c'.size) ∧ (c'.at_ = .offered → c'.done = 0))
    (hcan : s.canceled = true → canceled = true)
    (hstop : c'.at_ = .stopped → canceled = true)
    (herr : sawError = (s.sawError || decide (c'.at_ = .failed)))
    (hnf : c.at_ ≠ .failed)
    (hce : o.continueOnError = false → c'.at_ = .failed → canceled = true)
    (hbusy : c'.at_.active = true → c.at_.active = true ∨ o.free s.busy)
    (hoff : c'.at_ ≠ .offered) :
    Inv o { s with chains := s.chains.set i c', canceled := canceled, sawError := sawError, log := s.log ++ ev.map (fun e => (i, e)) } := by
  have hof : ∀ j, ({ s with chains := s.chains.set i c', canceled := canceled, sawError := sawError, log := s.log ++ ev.map (fun e => (i, e)) } : State).of j
      = if i = j then s.of j ++ ev else s.of j := by
    intro j
    unfold State.of
    rcases hev with he | ⟨e, he⟩
    · subst he; simp
    · subst he
      simp only [List.map_cons, List.map_nil, List.filterMap_append]
      by_cases hij : i = j <;> simp [hij]
  refine ⟨?_, ?_, ?_, ?_, ?_, ?_, ?_, ?_⟩
  · intro j d hd
    rw [hof]
    rcases get_set hc hd with ⟨hij, hdc⟩ | ⟨hij, hdj⟩
    · subst hij
      subst hdc
      rw [if_pos rfl, h.log i c hc, hlog]
    · rw [if_neg hij]
      exact h.log j d hdj
  · intro j hj
    simp only [List.length_set] at hj
    rw [hof, if_neg (by have := getElem?_lt hc; omega)]
    exact h.fresh j hj
  · intro j d hd
    rcases get_set hc hd with ⟨hij, hdc⟩ | ⟨hij, hdj⟩
    · subst hdc
      exact ⟨hsize.1, hsize.2.1, hsize.2.2.1, hsize.2.2.2, by rw [hsame]; exact (h.size i c hc).2.2.2.2⟩
    · exact h.size j d hdj
  · intro j d hd hst
    rcases get_set hc hd with ⟨hij, hdc⟩ | ⟨hij, hdj⟩
    · subst hdc
      exact hstop hst
    · exact hcan (h.stopped j d hdj hst)
  · show sawError = true ↔ _
    rw [herr]
    simp only [Bool.or_eq_true, decide_eq_true_eq]
    constructor
    · rintro (he | he)
      · obtain ⟨j, d, hd, hf⟩ := h.errors.mp he
        have hij : i ≠ j := by
          intro hij
          subst hij
          rw [hc] at hd
          cases hd
          exact hnf hf
        exact ⟨j, d, by show (s.chains.set i c')[j]? = some d; rw [get_set_ne hij]; exact hd, hf⟩
      · exact ⟨i, c', get_set_self hc, he⟩
    · rintro ⟨j, d, hd, hf⟩
      rcases get_set hc hd with ⟨hij, hdc⟩ | ⟨hij, hdj⟩
      · subst hdc; exact Or.inr hf
      · exact Or.inl (h.errors.mpr ⟨j, d, hdj, hf⟩)
  · intro hco he
    show canceled = true
    have he' : sawError = true := he
    rw [herr] at he'
    simp only [Bool.or_eq_true, decide_eq_true_eq] at he'
    rcases he' with he' | he'
    · exact hcan (h.cancels hco he')
    · exact hce hco he'
  · intro n hn
    have hb := h.bounded n hn
    have hx := busy_set (c' := c') hc
    unfold State.busy at hb ⊢
    show (s.chains.set i c').countP (fun c => c.at_.active) ≤ n
    by_cases ha' : c'.at_.active = true
    · by_cases ha : c.at_.active = true
      · simp only [ha, ha', if_true] at hx; omega
      · rcases hbusy ha' with hh | hh
        · exact absurd hh ha
        · unfold Options.free State.busy at hh
          rw [hn] at hh
          simp only [ha, ha', if_true] at hx
          simp only [Bool.false_eq_true, if_false] at hx
          simp only at hh
          omega
    · simp only [ha', Bool.false_eq_true, if_false] at hx
      split at hx <;> omega
  · intro hs j d hd
    rcases get_set hc hd with ⟨hij, hdc⟩ | ⟨hij, hdj⟩
    · subst hdc; exact hoff
    · exact h.signalled hs j d hdj

theorem work_inv {o : Options} {s s' : State} (h : Inv o s) (hw : Work o s s') : Inv o s' := by
  have fix0 : ∀ (s : State) (i : Nat) (c' : Chain) (canceled sawError : Bool),
      ({ s with chains := s.chains.set i c', canceled := canceled, sawError := sawError, log := s.log ++ ([] : List Ev).map (fun e => (i, e)) } : State)
      = { s with chains := s.chains.set i c', canceled := canceled, sawError := sawError } := by
    intros; simp
  cases hw with
  | take i c hc hat hfree =>
    have hz := (h.size i c hc)
    have := h.set (c' := { c with at_ := .held }) (canceled := s.canceled) (sawError := s.sawError) (ev := []) hc rfl
      (by simp [expected, hat]) (Or.inl rfl) ⟨hz.1, by simp, by simp, by simp⟩ id (by simp) (by simp) (by simp [hat]) (by simp) (fun _ => Or.inr hfree) (by simp)
    rw [fix0] at this
    exact this
  | refuse i c hc hat hcan =>
    have hz := (h.size i c hc)
    have := h.set (c' := { c with at_ := .stopped }) (canceled := s.canceled) (sawError := s.sawError) (ev := []) hc rfl
      (by simp [expected, hat]) (Or.inl rfl) ⟨hz.1, by simp, by simp, by simp⟩ id (fun _ => hcan) (by simp) (by simp [hat]) (by simp) (by simp [At.active]) (by simp)
    rw [fix0] at this
    exact this
  | test i c hc hat hlt hcan =>
    have hz := (h.size i c hc)
    have := h.set (c' := { c with at_ := .cleared }) (canceled := s.canceled) (sawError := s.sawError) (ev := []) hc rfl
      (by simp [expected, hat]) (Or.inl rfl) ⟨hz.1, fun _ => hlt, by simp, by simp⟩ id (by simp) (by simp) (by simp [hat]) (by simp) (fun _ => Or.inl (by simp [hat, At.active])) (by simp)
    rw [fix0] at this
    exact this
  | begin_ i c hc hat =>
    have hz := (h.size i c hc)
    have hlt := hz.2.1 (Or.inl hat)
    exact h.set (c' := { c with at_ := .inStep }) (canceled := s.canceled) (sawError := s.sawError) (ev := [.began c.done]) hc rfl
      (by simp [expected, hat]) (Or.inr ⟨_, rfl⟩) ⟨hz.1, fun _ => hlt, by simp, by simp⟩ id (by simp) (by simp) (by simp [hat]) (by simp) (fun _ => Or.inl (by simp [hat, At.active])) (by simp)
  | stop i c hc hat hlt hcan =>
    have hz := (h.size i c hc)
    have := h.set (c' := { c with at_ := .stopped }) (canceled := s.canceled) (sawError := s.sawError) (ev := []) hc rfl
      (by simp [expected, hat]) (Or.inl rfl) ⟨hz.1, by simp, by simp, by simp⟩ id (fun _ => hcan) (by simp) (by simp [hat]) (by simp) (by simp [At.active]) (by simp)
    rw [fix0] at this
    exact this
  | succeed i c hc hat =>
    have hz := (h.size i c hc)
    have hlt := hz.2.1 (Or.inr (Or.inl hat))
    exact h.set (c' := { c with at_ := .held, done := c.done + 1 }) (canceled := s.canceled) (sawError := s.sawError) (ev := [.succeeded c.done]) hc rfl
      (by simp [expected, hat, carriedOut]) (Or.inr ⟨_, rfl⟩) ⟨hlt, by simp, by simp, by simp⟩ id (by simp) (by simp) (by simp [hat]) (by simp) (fun _ => Or.inl (by simp [hat, At.active])) (by simp)
  | fail i c hc hat =>
    have hz := (h.size i c hc)
    have hlt := hz.2.1 (Or.inr (Or.inl hat))
    exact h.set (c' := { c with at_ := .failing }) (canceled := s.canceled) (sawError := s.sawError) (ev := [.failed c.done]) hc rfl
      (by simp [expected, hat]) (Or.inr ⟨_, rfl⟩) ⟨hz.1, fun _ => hlt, by simp, by simp⟩ id (by simp) (by simp) (by simp [hat]) (by simp) (fun _ => Or.inl (by simp [hat, At.active])) (by simp)
  | report i c hc hat =>
    have hz := (h.size i c hc)
    have hlt := hz.2.1 (Or.inr (Or.inr (Or.inl hat)))
    have := h.set (c' := { c with at_ := .failed }) (canceled := s.canceled || !o.continueOnError) (sawError := true) (ev := []) hc rfl
      (by simp [expected, hat]) (Or.inl rfl) ⟨hz.1, fun _ => hlt, by simp, by simp⟩ (fun hh => by simp [hh]) (by simp) (by simp) (by simp [hat]) (fun hh _ => by simp [hh]) (by simp [At.active]) (by simp)
    rw [fix0] at this
    exact this
  | finish i c hc hat hend =>
    have hz := (h.size i c hc)
    have := h.set (c' := { c with at_ := .finished }) (canceled := s.canceled) (sawError := s.sawError) (ev := []) hc rfl
      (by simp [expected, hat]) (Or.inl rfl) ⟨hz.1, by simp, fun _ => hend, by simp⟩ id (by simp) (by simp) (by simp [hat]) (by simp) (by simp [At.active]) (by simp)
    rw [fix0] at this
    exact this

theorem get_append_one {l : List Chain} {c d : Chain} {j : Nat} (h : (l ++ [c])[j]? = some d) :
    (j = l.length ∧ d = c) ∨ l[j]? = some d := by
  by_cases hj : j < l.length
  · rw [List.getElem?_append_left hj] at h
    exact Or.inr h
  · rw [List.getElem?_append_right (by omega)] at h
    have : j - l.length = 0 := by
      have := getElem?_lt h
      simp at this
      omega
    rw [this] at h
    cases h
    exact Or.inl ⟨by omega, rfl⟩

theorem others_inv {o : Options} {s s' : State} (h : Inv o s) (hw : Others s s') : Inv o s' := by
  cases hw with
  | offer n hn hs =>
    refine ⟨?_, ?_, ?_, ?_, ?_, h.cancels, ?_, ?_⟩
    · intro j d hd
      rcases get_append_one hd with ⟨hj, hdc⟩ | hd
      · subst hdc
        exact h.fresh j (by omega)
      · exact h.log j d hd
    · intro j hj
      simp only [List.length_append, List.length_cons, List.length_nil] at hj
      exact h.fresh j (by omega)
    · intro j d hd
      rcases get_append_one hd with ⟨hj, hdc⟩ | hd
      · subst hdc
        exact ⟨by simp, by simp, by simp, by simp, hn⟩
      · exact h.size j d hd
    · intro j d hd hst
      rcases get_append_one hd with ⟨hj, hdc⟩ | hd
      · subst hdc; cases hst
      · exact h.stopped j d hd hst
    · show s.sawError = true ↔ _
      rw [h.errors]
      constructor
      · rintro ⟨j, d, hd, hf⟩
        exact ⟨j, d, by show (s.chains ++ _)[j]? = _; rw [List.getElem?_append_left (getElem?_lt hd)]; exact hd, hf⟩
      · rintro ⟨j, d, hd, hf⟩
        rcases get_append_one hd with ⟨hj, hdc⟩ | hd
        · subst hdc; cases hf
        · exact ⟨j, d, hd, hf⟩
    · intro m hm
      have := h.bounded m hm
      unfold State.busy at this ⊢
      simpa [At.active] using this
    · intro hs'
      have hs'' : s.signalled = true := hs'
      rw [hs] at hs''
      cases hs''
  | signal hall =>
    refine ⟨h.log, h.fresh, h.size, h.stopped, h.errors, h.cancels, h.bounded, ?_⟩
    intro _ j d hd
    exact hall d (List.mem_of_getElem? hd)
  | cancel => exact ⟨h.log, h.fresh, h.size, fun _ _ _ _ => rfl, h.errors, fun _ _ => rfl, h.bounded, h.signalled⟩

theorem init_inv (o : Options) : Inv o init := by
  refine ⟨?_, fun _ _ => rfl, ?_, ?_, ?_, ?_, ?_, ?_⟩
  · intro i c h; simp [init] at h
  · intro i c h; simp [init] at h
  · intro i c h; simp [init] at h
  · simp [init]
  · simp [init]
  · intro n _; simp [init, State.busy]
  · simp [init]

theorem reachable_inv {o : Options} {s : State} (h : Reachable o s) : Inv o s := by
  unfold Reachable at h
  generalize hi : init = s₀ at h
  induction h with
  | refl => subst hi; exact init_inv o
  | tail _ hs ih =>
    cases hs with
    | work hw => exact work_inv ih hw
    | others hw => exact others_inv ih hw

end Pulumi.Workers
