import Verif.Workers.Model
/-
What the workers of an update do: the order of steps, how many are under way, what a failure or a cancellation stops, and that
all ends.
-/
namespace Pulumi.Workers

theorem Steps.trans {o : Options} {s t u : State} (h₁ : Steps o s t) (h₂ : Steps o t u) : Steps o s u := by
  induction h₂ with
  | refl => exact h₁
  | tail _ hs ih => exact .tail ih hs

theorem reachable_steps {o : Options} {s t : State} (h : Reachable o s) (hs : Steps o s t) : Reachable o t := h.trans hs

/-! ## The order of the steps of a chain -/

/-- **The steps of a chain are carried out in their order**: what has been seen of a chain is its first steps, each begun and
succeeded before the next begins, then the step it is in or the one that failed, and nothing after a failure. -/
theorem in_order {o : Options} {s : State} (h : Reachable o s) {i : Nat} {c : Chain} (hc : s.chains[i]? = some c) :
    s.of i = expected c :=
  (reachable_inv h).log i c hc

theorem carriedOut_count (n k : Nat) : (carriedOut n).count (.began k) = if k < n then 1 else 0 := by
  induction n with
  | zero => simp [carriedOut]
  | succ n ih =>
    rw [carriedOut, List.count_append, ih]
    by_cases hk : k < n
    · rw [if_pos hk, if_pos (by omega)]
      have : ¬ n = k := by omega
      simp [this]
    · rw [if_neg hk]
      by_cases hkn : n = k
      · subst hkn; simp
      · rw [if_neg (by omega)]
        simp [hkn]

theorem expected_count (c : Chain) (k : Nat) : (expected c).count (.began k) ≤ 1 := by
  unfold expected
  rw [List.count_append, carriedOut_count]
  by_cases hk : k < c.done
  · rw [if_pos hk]
    have : ¬ c.done = k := by omega
    cases hat : c.at_ <;> simp [this]
  · rw [if_neg hk]
    cases hat : c.at_ <;> simp [List.count_cons] <;> split <;> simp

/-- **No step is begun twice**, whatever chain it is in -/
theorem begun_once {o : Options} {s : State} (h : Reachable o s) (i k : Nat) : (s.of i).count (.began k) ≤ 1 := by
  cases hc : s.chains[i]? with
  | none =>
    rw [(reachable_inv h).fresh i (by rwa [List.getElem?_eq_none_iff] at hc)]
    simp
  | some c =>
    rw [in_order h hc]
    exact expected_count c k

theorem carriedOut_began {n k : Nat} {pre post : List Ev} (h : carriedOut n = pre ++ .began k :: post) :
    pre = carriedOut k ∧ k < n := by
  induction n generalizing post with
  | zero => simp [carriedOut] at h
  | succ n ih =>
    rw [carriedOut] at h
    rcases List.append_eq_append_iff.mp h with ⟨a, ha, hb⟩ | ⟨a, ha, hb⟩
    · rcases a with _ | ⟨x, a⟩
      · simp at hb ha
        exact ⟨by rw [ha, hb.1], by omega⟩
      · rw [List.cons_append] at hb
        injection hb with h1 h2
        rcases a with _ | ⟨y, a⟩
        · simp at h2
        · rw [List.cons_append] at h2
          injection h2 with h3 h4
          cases a <;> simp at h4
    · rcases a with _ | ⟨x, a⟩
      · simp at hb ha
        exact ⟨by rw [← ha, hb.1], by omega⟩
      · rw [List.cons_append] at hb
        injection hb with h1 h2
        subst h1
        have := ih ha
        exact ⟨this.1, by omega⟩

/-- **A step begins only after all before it in its chain succeeded**: the events of the chain before the beginning of step `k`
are exactly the beginnings and successes of steps `0` to `k - 1`, and there is such a step in the chain. -/
theorem begins_after_those_before {o : Options} {s : State} (h : Reachable o s) {i k : Nat} {c : Chain} {pre post : List Ev}
    (hc : s.chains[i]? = some c) (hl : s.of i = pre ++ .began k :: post) : pre = carriedOut k ∧ k < c.size := by
  rw [in_order h hc] at hl
  have hz := (reachable_inv h).size i c hc
  unfold expected at hl
  rcases List.append_eq_append_iff.mp hl with ⟨a, ha, hb⟩ | ⟨a, ha, hb⟩
  · rcases a with _ | ⟨x, a⟩
    · simp only [List.nil_append, List.append_nil] at hb ha
      have hk : c.done = k ∧ c.done < c.size := by
        cases hat : c.at_ <;> rw [hat] at hb <;> simp at hb
        · exact ⟨hb.1, hz.2.1 (by simp [hat])⟩
        · exact ⟨hb.1, hz.2.1 (by simp [hat])⟩
        · exact ⟨hb.1, hz.2.1 (by simp [hat])⟩
      exact ⟨by rw [ha, hk.1], by omega⟩
    · exfalso
      rw [List.cons_append] at hb
      cases hat : c.at_ <;> rw [hat] at hb <;> simp at hb
      all_goals
        rcases a with _ | ⟨y, a⟩
        · simp at hb
        · simp at hb
  · rcases a with _ | ⟨x, a⟩
    · simp only [List.nil_append, List.append_nil] at hb ha
      have hk : c.done = k ∧ c.done < c.size := by
        cases hat : c.at_ <;> rw [hat] at hb <;> simp at hb
        · exact ⟨hb.1.symm, hz.2.1 (by simp [hat])⟩
        · exact ⟨hb.1.symm, hz.2.1 (by simp [hat])⟩
        · exact ⟨hb.1.symm, hz.2.1 (by simp [hat])⟩
      exact ⟨by rw [← ha, hk.1], by omega⟩
    · rw [List.cons_append] at hb
      injection hb with h1 h2
      subst h1
      have := carriedOut_began ha
      exact ⟨this.1, by have := hz.1; omega⟩

/-! ## How many are under way -/

/-- **With `n` workers no more than `n` steps are under way at once** -/
theorem at_most_workers {o : Options} {s : State} {n : Nat} (h : Reachable o s) (hn : o.workers = some n) :
    s.chains.countP (fun c => decide (c.at_ = .inStep)) ≤ n := by
  refine Nat.le_trans ?_ ((reachable_inv h).bounded n hn)
  unfold State.busy
  apply List.countP_mono_left
  intro c _ hc
  simp only [decide_eq_true_eq] at hc
  simp [hc, At.active]

/-- **What `--parallel` gives**: always at least one worker, the number asked for where it is more, and no limit for the
default -/
theorem workersOf_spec (p : Int) (hp : p ≠ 2147483647) : ∃ n : Nat, workersOf p = some n ∧ n ≥ 1 ∧ (p ≥ 1 → (n : Int) = p) := by
  unfold workersOf
  rw [if_neg hp]
  by_cases h : p ≤ 1
  · rw [if_pos h]
    exact ⟨1, rfl, by omega, fun _ => by omega⟩
  · rw [if_neg h]
    exact ⟨p.toNat, rfl, by omega, fun _ => by omega⟩

theorem workersOf_never_zero (p : Int) : workersOf p ≠ some 0 := by
  by_cases hp : p = 2147483647
  · subst hp; decide
  · obtain ⟨n, hn, h1, _⟩ := workersOf_spec p hp
    rw [hn]
    intro h
    cases h
    omega

/-! ## Cancellation -/

theorem step_canceled {o : Options} {s t : State} (h : Step o s t) (hs : s.canceled = true) : t.canceled = true := by
  cases h with
  | work h => cases h <;> simp_all
  | others h => cases h <;> simp_all

theorem steps_canceled {o : Options} {s t : State} (h : Steps o s t) (hs : s.canceled = true) : t.canceled = true := by
  induction h with
  | refl => exact hs
  | tail _ hst ih => exact step_canceled hst ih

theorem step_keeps {o : Options} {s t : State} (h : Step o s t) : s.chains.length ≤ t.chains.length := by
  cases h with
  | work h => cases h <;> simp
  | others h => cases h <;> simp

/-- steps begun, and those that cannot be held back any more -/
def begunOrCleared : Option Chain → Nat
  | none => 0
  | some c => c.done + match c.at_ with
    | .cleared | .inStep | .failing | .failed => 1
    | _ => 0

theorem set_le {l : List Chain} {i j : Nat} {c c' : Chain} (hc : l[i]? = some c)
    (h : begunOrCleared (some c') ≤ begunOrCleared (some c)) : begunOrCleared (l.set i c')[j]? ≤ begunOrCleared l[j]? := by
  by_cases hij : i = j
  · subst hij
    rw [get_set_self hc, hc]
    exact h
  · rw [get_set_ne hij]
    exact Nat.le_refl _

theorem step_begun {o : Options} {s t : State} (h : Step o s t) (hs : s.canceled = true) (j : Nat) :
    begunOrCleared t.chains[j]? ≤ begunOrCleared s.chains[j]? := by
  cases h with
  | work h =>
    cases h with
    | take i c hc hat _ => exact set_le hc (by simp [begunOrCleared, hat])
    | refuse i c hc hat _ => exact set_le hc (by simp [begunOrCleared, hat])
    | test i c hc hat _ hn => rw [hs] at hn; cases hn
    | begin_ i c hc hat => exact set_le hc (by simp [begunOrCleared, hat])
    | stop i c hc hat _ _ => exact set_le hc (by simp [begunOrCleared, hat])
    | succeed i c hc hat => exact set_le hc (by simp [begunOrCleared, hat])
    | fail i c hc hat => exact set_le hc (by simp [begunOrCleared, hat])
    | report i c hc hat => exact set_le hc (by simp [begunOrCleared, hat])
    | finish i c hc hat _ => exact set_le hc (by simp [begunOrCleared, hat])
  | others h =>
    cases h with
    | offer n _ _ =>
      show begunOrCleared (s.chains ++ _)[j]? ≤ _
      cases hj : (s.chains ++ [({ size := n, done := 0, at_ := .offered } : Chain)])[j]? with
      | none => simp [begunOrCleared]
      | some d =>
        rcases get_append_one hj with ⟨_, hd⟩ | hd
        · subst hd; simp [begunOrCleared]
        · rw [hd]; exact Nat.le_refl _
    | signal _ => exact Nat.le_refl _
    | cancel => exact Nat.le_refl _

theorem steps_begun {o : Options} {s t : State} (h : Steps o s t) (hs : s.canceled = true) (j : Nat) :
    begunOrCleared t.chains[j]? ≤ begunOrCleared s.chains[j]? := by
  induction h with
  | refl => exact Nat.le_refl _
  | tail hst hs' ih => exact Nat.le_trans (step_begun hs' (steps_canceled hst hs) j) ih

def isBegan : Ev → Bool
  | .began _ => true
  | _ => false

theorem carriedOut_begun (n : Nat) : (carriedOut n).countP isBegan = n := by
  induction n with
  | zero => rfl
  | succ n ih => rw [carriedOut, List.countP_append, ih]; rfl

theorem expected_begun (c : Chain) :
    (expected c).countP isBegan + (if c.at_ = .cleared then 1 else 0) = begunOrCleared (some c) := by
  obtain ⟨size, done, at_⟩ := c
  unfold expected begunOrCleared
  rw [List.countP_append, carriedOut_begun]
  cases at_ <;> rfl

/-- **After a cancellation a chain begins no further step**, save one that its worker was about to begin: it had tested for the
cancellation just before, and not begun yet. -/
theorem after_cancel {o : Options} {s t : State} (h : Reachable o s) (hs : s.canceled = true) (hst : Steps o s t) (i : Nat) :
    (t.of i).countP isBegan ≤
      (s.of i).countP isBegan + (if s.chains[i]?.map Chain.at_ = some .cleared then 1 else 0) := by
  have hle := steps_begun hst hs i
  have ht := reachable_steps h hst
  have hs' : (s.of i).countP isBegan + (if s.chains[i]?.map Chain.at_ = some .cleared then 1 else 0) =
      begunOrCleared s.chains[i]? := by
    cases hc : s.chains[i]? with
    | none =>
      rw [(reachable_inv h).fresh i (by rwa [List.getElem?_eq_none_iff] at hc)]
      simp [begunOrCleared]
    | some c =>
      rw [in_order h hc, ← expected_begun c]
      simp
  rw [hs']
  refine Nat.le_trans ?_ hle
  cases hc : t.chains[i]? with
  | none =>
    rw [(reachable_inv ht).fresh i (by rwa [List.getElem?_eq_none_iff] at hc)]
    simp [begunOrCleared]
  | some c =>
    rw [in_order ht hc, ← expected_begun c]
    omega

/-- all steps begun -/
def State.begun (s : State) : Nat := s.log.countP (fun e => isBegan e.2)

def State.cleared (s : State) : Nat := s.chains.countP (fun c => decide (c.at_ = .cleared))

theorem cleared_set {l : List Chain} {i : Nat} {c c' : Chain} (h : l[i]? = some c) :
    (l.set i c').countP (fun c => decide (c.at_ = .cleared)) + (if c.at_ = .cleared then 1 else 0) =
      l.countP (fun c => decide (c.at_ = .cleared)) + (if c'.at_ = .cleared then 1 else 0) := by
  have hlt := getElem?_lt h
  have hget : l[i] = c := by rw [List.getElem?_eq_some_iff] at h; exact h.2
  rw [List.countP_set hlt, hget]
  by_cases hc : c.at_ = .cleared
  · have hpos : 0 < l.countP (fun c => decide (c.at_ = .cleared)) :=
      List.countP_pos_iff.mpr ⟨c, hget ▸ List.getElem_mem hlt, by simp [hc]⟩
    simp only [hc, decide_true, if_true, decide_eq_true_eq]
    omega
  · simp [hc]

theorem step_total {o : Options} {s t : State} (h : Step o s t) (hs : s.canceled = true) :
    t.begun + t.cleared ≤ s.begun + s.cleared := by
  cases h with
  | work h =>
    cases h with
    | test i c hc hat _ hn => rw [hs] at hn; cases hn
    | take i c hc hat _ | refuse i c hc hat _ | stop i c hc hat _ _ | finish i c hc hat _ | report i c hc hat =>
      have := cleared_set (c' := { c with at_ := .held }) hc
      have h2 := cleared_set (c' := { c with at_ := .stopped }) hc
      have h3 := cleared_set (c' := { c with at_ := .finished }) hc
      have h4 := cleared_set (c' := { c with at_ := .failed }) hc
      simp [hat] at this h2 h3 h4
      simp only [State.begun, State.cleared]
      omega
    | begin_ i c hc hat =>
      have := cleared_set (c' := { c with at_ := .inStep }) hc
      simp [hat] at this
      simp [State.begun, State.cleared, List.countP_append, isBegan]
      omega
    | succeed i c hc hat =>
      have := cleared_set (c' := { c with at_ := .held, done := c.done + 1 }) hc
      simp [hat] at this
      simp [State.begun, State.cleared, List.countP_append, isBegan]
      omega
    | fail i c hc hat =>
      have := cleared_set (c' := { c with at_ := .failing }) hc
      simp [hat] at this
      simp [State.begun, State.cleared, List.countP_append, isBegan]
      omega
  | others h =>
    cases h with
    | offer n _ _ => simp [State.begun, State.cleared]
    | signal _ => exact Nat.le_refl _
    | cancel => exact Nat.le_refl _

/-- **After a cancellation no more steps begin than there are workers**, over all chains together and however long it takes -/
theorem after_cancel_total {o : Options} {s t : State} {n : Nat} (h : Reachable o s) (hn : o.workers = some n)
    (hs : s.canceled = true) (hst : Steps o s t) : t.begun ≤ s.begun + n := by
  have key : t.begun + t.cleared ≤ s.begun + s.cleared := by
    induction hst with
    | refl => exact Nat.le_refl _
    | tail hu hstep ih => exact Nat.le_trans (step_total hstep (steps_canceled hu hs)) ih
  have hle : s.cleared ≤ n := by
    refine Nat.le_trans ?_ ((reachable_inv h).bounded n hn)
    unfold State.cleared State.busy
    apply List.countP_mono_left
    intro c _ hc
    simp only [decide_eq_true_eq] at hc
    simp [hc, At.active]
  omega

/-! ## Failures -/

/-- **A failed step cancels the update** where errors do not let it continue, as soon as its chain is closed -/
theorem failure_cancels {o : Options} {s : State} (h : Reachable o s) (hc : o.continueOnError = false) {i : Nat} {c : Chain}
    (hi : s.chains[i]? = some c) (hf : c.at_ = .failed) : s.canceled = true :=
  (reachable_inv h).cancels hc ((reachable_inv h).errors.mpr ⟨i, c, hi, hf⟩)

/-- **A chain is closed for one of three reasons**: all its steps were carried out; or its own next step failed, which is
recorded as an error; or the update was cancelled, and then its first steps were carried out and nothing else. -/
theorem closed_why {o : Options} {s : State} (h : Reachable o s) {i : Nat} {c : Chain} (hi : s.chains[i]? = some c)
    (hcl : c.at_.closed = true) :
    (s.of i = carriedOut c.size) ∨
    (∃ k, k < c.size ∧ s.of i = carriedOut k ++ [.began k, .failed k] ∧ s.sawError = true) ∨
    (∃ k, k ≤ c.size ∧ s.of i = carriedOut k ∧ s.canceled = true) := by
  have inv := reachable_inv h
  have hz := inv.size i c hi
  rw [in_order h hi]
  unfold expected
  cases hat : c.at_ <;> rw [hat] at hcl <;> simp [At.closed] at hcl
  · left; simp [hz.2.2.1 hat]
  · right; left
    exact ⟨c.done, hz.2.1 (by simp [hat]), rfl, inv.errors.mpr ⟨i, c, hi, hat⟩⟩
  · right; right
    exact ⟨c.done, hz.1, by simp, inv.stopped i c hi hat⟩

/-- **Where one waits for a chain before submitting another, and errors do not let the update continue, no step of the second
begins unless all steps of the first were carried out.**  One waits until the first is closed or the update is cancelled
(completionToken.Wait, 68-73, as for the deletions of an update: deployment_executor.go:415-418, 484-489).  The state `s` is
where the waiting ends, `i` the awaited chain, and `j` a chain submitted later. -/
theorem awaited_first {o : Options} {s t : State} (h : Reachable o s) (hc : o.continueOnError = false) (hst : Steps o s t)
    {i j : Nat} {c : Chain} (hi : s.chains[i]? = some c) (hwait : c.at_.closed = true ∨ s.canceled = true)
    (hj : s.chains.length ≤ j) (hb : t.of j ≠ []) : s.of i = carriedOut c.size := by
  have hcan : s.canceled = false := by
    cases hcan : s.canceled with
    | false => rfl
    | true =>
      exfalso
      have hle := steps_begun hst hcan j
      have hn : s.chains[j]? = none := List.getElem?_eq_none hj
      rw [hn] at hle
      have ht := reachable_steps h hst
      cases hcj : t.chains[j]? with
      | none => exact hb ((reachable_inv ht).fresh j (by rwa [List.getElem?_eq_none_iff] at hcj))
      | some d =>
        rw [hcj] at hle
        rw [in_order ht hcj] at hb
        unfold begunOrCleared at hle
        unfold expected at hb
        have hd : d.done = 0 := by simp at hle; omega
        rw [hd] at hb
        cases hat : d.at_ <;> simp [hat, carriedOut] at hb hle
  have hcl : c.at_.closed = true := by
    rcases hwait with hw | hw
    · exact hw
    · rw [hcan] at hw; cases hw
  rcases closed_why h hi hcl with hh | ⟨k, _, _, he⟩ | ⟨k, _, _, he⟩
  · exact hh
  · have := (reachable_inv h).cancels hc he
    rw [hcan] at this
    cases this
  · rw [hcan] at he; cases he

/-! ## The end -/

theorem completed_closed {s : State} {o : Options} (h : Reachable o s) (hd : Completed s) (hn : s.canceled = false) {i : Nat}
    {c : Chain} (hi : s.chains[i]? = some c) : c.at_ = .finished ∨ c.at_ = .failed := by
  have inv := reachable_inv h
  obtain ⟨hsig, hb⟩ := hd
  have hsig : s.signalled = true := by
    rcases hsig with hh | hh
    · exact hh
    · rw [hn] at hh; cases hh
  have hna : c.at_.active = false := by
    unfold State.busy at hb
    rw [List.countP_eq_zero] at hb
    have := hb c (List.mem_of_getElem? hi)
    simpa using this
  have hno := inv.signalled hsig i c hi
  have hns : c.at_ ≠ .stopped := by
    intro hh
    have := inv.stopped i c hi hh
    rw [hn] at this
    cases this
  cases hat : c.at_ <;> simp_all [At.active]

/-- **An update that was not cancelled and saw no error has carried out every step of every chain submitted** -/
theorem all_carried_out {s : State} {o : Options} (h : Reachable o s) (hd : Completed s) (hn : s.canceled = false)
    (he : s.sawError = false) {i : Nat} {c : Chain} (hi : s.chains[i]? = some c) : s.of i = carriedOut c.size := by
  have inv := reachable_inv h
  rcases completed_closed h hd hn hi with hat | hat
  · rw [in_order h hi]
    unfold expected
    simp [hat, (inv.size i c hi).2.2.1 hat]
  · have := inv.errors.mpr ⟨i, c, hi, hat⟩
    rw [he] at this
    cases this

/-- **An error elsewhere does not stop a chain where errors let the update continue**: once all is done and nobody cancelled,
each chain was carried out up to its end or up to a failure of its own. -/
theorem continues {s : State} {o : Options} (h : Reachable o s) (hd : Completed s) (hn : s.canceled = false) {i : Nat}
    {c : Chain} (hi : s.chains[i]? = some c) :
    s.of i = carriedOut c.size ∨ ∃ k, k < c.size ∧ s.of i = carriedOut k ++ [.began k, .failed k] := by
  have hcl : c.at_.closed = true := by
    rcases completed_closed h hd hn hi with hat | hat <;> rw [hat] <;> rfl
  rcases closed_why h hi hcl with hh | ⟨k, hk, hh, _⟩ | ⟨k, _, _, hh⟩
  · exact Or.inl hh
  · exact Or.inr ⟨k, hk, hh⟩
  · rw [hn] at hh; cases hh

theorem mem_carriedOut_failed (n k : Nat) : .failed k ∉ carriedOut n := by
  induction n with
  | zero => simp [carriedOut]
  | succ n ih => simp [carriedOut, ih]

/-- **The executor says that there was an error exactly if a step failed**, once the workers are done -/
theorem errored_iff {s : State} {o : Options} (h : Reachable o s) (hd : s.busy = 0) :
    s.sawError = true ↔ ∃ i k, (i, Ev.failed k) ∈ s.log := by
  have inv := reachable_inv h
  have hmem : ∀ i k, (i, Ev.failed k) ∈ s.log ↔ Ev.failed k ∈ s.of i := by
    intro i k
    unfold State.of
    rw [List.mem_filterMap]
    constructor
    · intro hm; exact ⟨_, hm, by simp⟩
    · rintro ⟨⟨a, e⟩, hm, he⟩
      split at he
      · cases he
        simp_all
      · cases he
  constructor
  · intro he
    obtain ⟨i, c, hi, hat⟩ := inv.errors.mp he
    refine ⟨i, c.done, (hmem _ _).mpr ?_⟩
    rw [in_order h hi]
    simp [expected, hat]
  · rintro ⟨i, k, hm⟩
    rw [hmem] at hm
    cases hc : s.chains[i]? with
    | none =>
      rw [inv.fresh i (by rwa [List.getElem?_eq_none_iff] at hc)] at hm
      cases hm
    | some c =>
      rw [in_order h hc] at hm
      unfold expected at hm
      rw [List.mem_append] at hm
      rcases hm with hm | hm
      · exact absurd hm (mem_carriedOut_failed _ _)
      · have hna : c.at_.active = false := by
          unfold State.busy at hd
          rw [List.countP_eq_zero] at hd
          have := hd c (List.mem_of_getElem? hc)
          simpa using this
        refine inv.errors.mpr ⟨i, c, hc, ?_⟩
        cases hat : c.at_ <;> simp_all [At.active]

/-- **Nothing hangs**: as long as a chain is not closed, some goroutine of the executor can go on, whatever `--parallel` was -/
theorem progress {o : Options} {s : State} (h : Reachable o s) (p : Int) (hp : o.workers = workersOf p) {i : Nat} {c : Chain}
    (hi : s.chains[i]? = some c) (hcl : c.at_.closed = false) : ∃ t, Work o s t := by
  have act : ∀ (i : Nat) (c : Chain), s.chains[i]? = some c → c.at_.active = true → ∃ t, Work o s t := by
    intro i c hi ha
    have hz := (reachable_inv h).size i c hi
    cases hat : c.at_ <;> simp [hat, At.active] at ha
    · by_cases hd : c.done = c.size
      · exact ⟨_, .finish i c hi hat hd⟩
      · have hlt : c.done < c.size := by omega
        cases hc : s.canceled with
        | true => exact ⟨_, .stop i c hi hat hlt hc⟩
        | false => exact ⟨_, .test i c hi hat hlt hc⟩
    · exact ⟨_, .begin_ i c hi hat⟩
    · exact ⟨_, .succeed i c hi hat⟩
    · exact ⟨_, .report i c hi hat⟩
  by_cases hb : s.busy = 0
  · cases ha : c.at_.active with
    | true => exact act i c hi ha
    | false =>
      have hat : c.at_ = .offered := by
        cases hat : c.at_ <;> simp_all [At.active, At.closed]
      refine ⟨_, .take i c hi hat ?_⟩
      unfold Options.free
      cases hw : o.workers with
      | none => trivial
      | some n =>
        have : n ≠ 0 := by
          intro hn
          rw [hp] at hw
          exact workersOf_never_zero p (by rw [hw, hn])
        show s.busy < n
        omega
  · have : 0 < s.busy := by omega
    unfold State.busy at this
    rw [List.countP_pos_iff] at this
    obtain ⟨d, hd, ha⟩ := this
    obtain ⟨j, hj⟩ := List.getElem?_of_mem hd
    exact act j d hj ha

/-- what is left to do -/
def left (c : Chain) : Nat :=
  match c.at_ with
  | .offered => 4 * (c.size - c.done) + 5
  | .held => 4 * (c.size - c.done) + 4
  | .cleared => 4 * (c.size - c.done) + 3
  | .inStep => 4 * (c.size - c.done) + 2
  | .failing => 1
  | _ => 0

def State.left (s : State) : Nat := (s.chains.map Workers.left).sum

theorem left_set {l : List Chain} {i : Nat} {c c' : Chain} (h : l[i]? = some c) (hlt : left c' < left c) :
    ((l.set i c').map left).sum < (l.map left).sum := by
  induction l generalizing i with
  | nil => simp at h
  | cons x l ih =>
    cases i with
    | zero => simp at h; subst h; simpa using hlt
    | succ i =>
      simp at h
      simpa using ih h

theorem work_left {o : Options} {s t : State} (h : Reachable o s) (hw : Work o s t) : t.left < s.left := by
  have inv := reachable_inv h
  unfold State.left
  cases hw with
  | take i c hc hat _ => exact left_set hc (by simp [left, hat])
  | refuse i c hc hat _ => exact left_set hc (by simp [left, hat])
  | test i c hc hat _ hn => exact left_set hc (by simp [left, hat])
  | begin_ i c hc hat => exact left_set hc (by simp [left, hat])
  | stop i c hc hat _ _ => exact left_set hc (by simp [left, hat])
  | succeed i c hc hat =>
    have := (inv.size i c hc).2.1 (by simp [hat])
    exact left_set hc (by simp [left, hat]; omega)
  | fail i c hc hat => exact left_set hc (by simp [left, hat])
  | report i c hc hat => exact left_set hc (by simp [left, hat])
  | finish i c hc hat _ => exact left_set hc (by simp [left, hat])

/-- **The workers do not go on for ever**: once nothing new is submitted, every sequence of what they do has an end -/
theorem ends (o : Options) : ¬ ∃ f : Nat → State, Reachable o (f 0) ∧ ∀ n, Work o (f n) (f (n + 1)) := by
  rintro ⟨f, h0, hf⟩
  have hr : ∀ n, Reachable o (f n) := by
    intro n
    induction n with
    | zero => exact h0
    | succ n ih => exact ih.tail (.work (hf n))
  have : ∀ n, (f n).left + n ≤ (f 0).left := by
    intro n
    induction n with
    | zero => exact Nat.le_refl _
    | succ n ih =>
      have := work_left (hr n) (hf n)
      omega
  have := this ((f 0).left + 1)
  omega

/-! ## Cases -/

def two : Options := { continueOnError := false, workers := some 2 }

def c₀ : Chain := { size := 2, done := 0, at_ := .offered }
def mk (a b : Chain) (log : List (Nat × Ev)) : State :=
  { chains := [a, b], canceled := false, sawError := false, signalled := false, log := log }

/-- two chains of two steps with two workers: both are in a step at once, the first fails in its second step while the second
was cleared for its second -/
def racing : State :=
  { chains := [{ size := 2, done := 1, at_ := .failed }, { size := 2, done := 1, at_ := .cleared }], canceled := true,
    sawError := true, signalled := false,
    log := [(0, .began 0), (1, .began 0), (0, .succeeded 0), (1, .succeeded 0), (0, .began 1), (0, .failed 1)] }

theorem racing_reachable : Reachable two racing := by
  have h0 : Reachable two init := .refl _
  have h1 := h0.tail (.others (.offer (s := init) 2 (by omega) rfl))
  have h2 := h1.tail (.others (.offer 2 (by omega) rfl))
  have h3 := h2.tail (.work (.take 0 c₀ rfl rfl (by show State.busy _ < 2; decide)))
  have h4 := h3.tail (.work (.take 1 c₀ rfl rfl (by show State.busy _ < 2; decide)))
  have h5 := h4.tail (.work (.test 0 { size := 2, done := 0, at_ := .held } rfl rfl (by decide) rfl))
  have h6 := h5.tail (.work (.begin_ 0 { size := 2, done := 0, at_ := .cleared } rfl rfl))
  have h7 := h6.tail (.work (.test 1 { size := 2, done := 0, at_ := .held } rfl rfl (by decide) rfl))
  have h8 := h7.tail (.work (.begin_ 1 { size := 2, done := 0, at_ := .cleared } rfl rfl))
  have h9 := h8.tail (.work (.succeed 0 { size := 2, done := 0, at_ := .inStep } rfl rfl))
  have h10 := h9.tail (.work (.succeed 1 { size := 2, done := 0, at_ := .inStep } rfl rfl))
  have h11 := h10.tail (.work (.test 0 { size := 2, done := 1, at_ := .held } rfl rfl (by decide) rfl))
  have h12 := h11.tail (.work (.begin_ 0 { size := 2, done := 1, at_ := .cleared } rfl rfl))
  have h13 := h12.tail (.work (.test 1 { size := 2, done := 1, at_ := .held } rfl rfl (by decide) rfl))
  have h14 := h13.tail (.work (.fail 0 { size := 2, done := 1, at_ := .inStep } rfl rfl))
  exact h14.tail (.work (.report 0 { size := 2, done := 1, at_ := .failing } rfl rfl))

/-- and then the second chain begins its second step, although a step had failed and the update was cancelled -/
def overtaken : State :=
  { racing with chains := [{ size := 2, done := 1, at_ := .failed }, { size := 2, done := 1, at_ := .inStep }],
                log := racing.log ++ [(1, .began 1)] }

theorem overtaken_steps : Steps two racing overtaken :=
  (Steps.refl _).tail (.work (.begin_ (s := racing) 1 { size := 2, done := 1, at_ := .cleared } rfl rfl))

/-- **A step can begin after the update was cancelled because of a failure**: the test and the step are not one.  (What is
proved above is the most that holds.) -/
theorem begins_after_cancel : ∃ (o : Options) (s t : State), Reachable o s ∧ s.canceled = true ∧ s.sawError = true ∧
    Steps o s t ∧ s.begun < t.begun :=
  ⟨two, racing, overtaken, racing_reachable, rfl, rfl, overtaken_steps, by decide⟩

example : racing.of 0 = carriedOut 1 ++ [.began 1, .failed 1] := by decide
example : (racing.of 1).countP isBegan = 1 ∧ (overtaken.of 1).countP isBegan = 2 := by decide
example : overtaken.begun = racing.begun + 1 := by decide

/-- one chain of one step, awaited, then another -/
def one : Options := { continueOnError := false, workers := some 1 }
def awaited : State :=
  { chains := [{ size := 1, done := 1, at_ := .finished }], canceled := false, sawError := false, signalled := false,
    log := [(0, .began 0), (0, .succeeded 0)] }

theorem awaited_reachable : Reachable one awaited := by
  have h0 : Reachable one init := .refl _
  have h1 := h0.tail (.others (.offer (s := init) 1 (by omega) rfl))
  have h2 := h1.tail (.work (.take 0 { size := 1, done := 0, at_ := .offered } rfl rfl (by show State.busy _ < 1; decide)))
  have h3 := h2.tail (.work (.test 0 { size := 1, done := 0, at_ := .held } rfl rfl (by decide) rfl))
  have h4 := h3.tail (.work (.begin_ 0 { size := 1, done := 0, at_ := .cleared } rfl rfl))
  have h5 := h4.tail (.work (.succeed 0 { size := 1, done := 0, at_ := .inStep } rfl rfl))
  exact h5.tail (.work (.finish 0 { size := 1, done := 1, at_ := .held } rfl rfl rfl))

def second : State :=
  { chains := [{ size := 1, done := 1, at_ := .finished }, { size := 1, done := 0, at_ := .inStep }], canceled := false,
    sawError := false, signalled := false, log := [(0, .began 0), (0, .succeeded 0), (1, .began 0)] }

theorem second_steps : Steps one awaited second := by
  have h1 := (Steps.refl (o := one) awaited).tail (.others (.offer 1 (by omega) rfl))
  have h2 := h1.tail (.work (.take 1 { size := 1, done := 0, at_ := .offered } rfl rfl (by show State.busy _ < 1; decide)))
  have h3 := h2.tail (.work (.test 1 { size := 1, done := 0, at_ := .held } rfl rfl (by decide) rfl))
  exact h3.tail (.work (.begin_ 1 { size := 1, done := 0, at_ := .cleared } rfl rfl))

example : awaited.of 0 = carriedOut 1 :=
  awaited_first awaited_reachable rfl second_steps (i := 0) (j := 1) (c := { size := 1, done := 1, at_ := .finished }) rfl
    (Or.inl rfl) (by decide) (by decide)

/-- the end, without errors -/
theorem awaited_completed : Reachable one { awaited with signalled := true } ∧ Completed { awaited with signalled := true } :=
  ⟨awaited_reachable.tail (.others (.signal (by decide))), Or.inl rfl, by decide⟩

example : ({ awaited with signalled := true } : State).of 0 = carriedOut 1 :=
  all_carried_out awaited_completed.1 awaited_completed.2 rfl rfl (c := { size := 1, done := 1, at_ := .finished }) rfl

end Pulumi.Workers
