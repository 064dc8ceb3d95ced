import Verif.Log.Wait

/-!
# Log messages: the properties (C119)
-/

namespace Pulumi.Log

/-- What a call does: with an engine, a message without a resource is sent before the call returns, one with a resource
later; without an engine, debug messages vanish and others are printed with their severity. -/
theorem call_effects (c : Call) :
    (c.resource = none → ∀ m, effect true c = .now (some m) → Says [] c m) ∧
    (∀ r, c.resource = some r → effect true c = .later r) ∧
    (effect false c = if c.severity = .debug then .nothing
      else .print ((if c.severity = .info then "info" else if c.severity = .warning then "warning" else "error") ++ (": " ++ c.message))) := by
  refine ⟨?_, ?_, ?_⟩
  · intro h m he
    obtain ⟨_, h2⟩ := effect_now he
    exact says_of h2.symm (by simp only [h])
  · intro r h
    unfold effect
    rw [if_pos rfl, h]
  · unfold effect
    rw [if_neg (by decide)]
    cases c.severity
    · rfl
    · simp; rw [← String.append_assoc]; rfl
    · simp; rw [← String.append_assoc]; rfl
    · simp; rw [← String.append_assoc]; rfl

/-- **C119.** In every execution, every message that the engine received is one that a call asked for, says what that call
says, with the URN of its resource, and arrived once. -/
theorem messages_are_what_was_logged {s : State} (h : Steps State.init s) :
    (∀ k m, (k, m) ∈ s.sent → ∃ p, s.calls[k]? = some p ∧ Says s.urns p.call m) ∧
    ∀ i j : Nat, ∀ a b, s.sent[i]? = some a → s.sent[j]? = some b → a.1 = b.1 → i = j := by
  have hi := inv_steps h
  refine ⟨?_, ?_⟩
  · intro k m hm
    obtain ⟨p, h1, h2, _⟩ := hi.sent_says k m hm
    exact ⟨p, h1, h2⟩
  · intro i j a b ha hb hab
    have h1 : (s.sent.map (·.1))[i]? = some a.1 := by rw [List.getElem?_map, ha]; rfl
    have h2 : (s.sent.map (·.1))[j]? = some a.1 := by rw [List.getElem?_map, hb, hab]; rfl
    have hlt := lt_of_some h1
    exact List.getElem?_inj hlt hi.sent_once |>.1 (h1.trans h2.symm)

/-- **C119.** Once a call without a resource has been made, the engine has its message, whatever happens afterwards, unless
the call raised; and these messages arrive in the order of the calls. -/
theorem plain_messages_arrive_at_once {s : State} (h : Steps State.init s) :
    (∀ (k : Nat) (p : Made), s.calls[k]? = some p → p.call.resource = none → s.Got k ∨ k ∈ s.refused) ∧
    ∀ i j : Nat, i < j → ∀ a b, s.sent[i]? = some a → s.sent[j]? = some b → ∀ p q, s.calls[a.1]? = some p →
      s.calls[b.1]? = some q → p.call.resource = none → q.call.resource = none → a.1 < b.1 := by
  have hi := inv_steps h
  refine ⟨?_, ?_⟩
  · intro k p hp hr
    exact hi.now_done k p hp ((hi.task_none k p hp).2 hr)
  · intro i j hij a b ha hb
    obtain ⟨h1, rfl⟩ := List.getElem?_eq_some_iff.1 ha
    obtain ⟨h2, rfl⟩ := List.getElem?_eq_some_iff.1 hb
    exact List.pairwise_iff_getElem.1 hi.ordered i j h1 h2 hij

/-- What is wanted: when the run has ended, the engine has every message, unless the call was refused or the resource that the
message is about has no URN. -/
def EveryMessageArrives : Prop :=
  ∀ s, Steps State.init s → s.loop.main.ended = true → ∀ (k : Nat) (p : Made), s.calls[k]? = some p → k ∉ s.refused →
    ¬ s.UrnFailed p.call → s.Got k

/-- **C119.** When the run has returned normally, the engine has all messages that the program itself logged (not in callbacks
and coroutines), and also all that were logged by anyone before the loop last looked for outstanding work.
Missing: messages about resources logged after that, and runs that fail. -/
theorem messages_arrive_partial {s : State} (h : Steps State.init s) (hr : s.loop.main = .returned) (k : Nat) (p : Made)
    (hk : s.calls[k]? = some p) (he : p.byProgram = true ∨ k < s.looked) (hn : k ∉ s.refused) (hu : ¬ s.UrnFailed p.call) : s.Got k := by
  have hi := inv_steps h
  obtain ⟨h1, h2⟩ := (wait_steps h).returned hr
  have hlt : k < s.looked := he.elim (h2 k p hk) id
  cases ht : p.task with
  | none =>
    rcases hi.now_done k p hk ht with h' | h'
    · exact h'
    · exact absurd h' hn
  | some i =>
    rcases hi.later_done k p i hk ht (h1 k p i hlt hk ht) with h' | h' | h'
    · exact h'
    · exact absurd h' hn
    · exact absurd h' hu

/-! ## Executions -/

def warnAbout : Call := ⟨.warning, "slow", some 0, none, none⟩
def plainInfo : Call := ⟨.info, "hello", none, some 3, some true⟩

/-- The program logs a warning about a resource and then something else; the URN is resolved while the loop waits. The second
message arrives before the first. -/
def orderly : State :=
  { loop := ⟨[⟨.plain, some .ok⟩], [], none, .returned⟩
    urns := [(0, .ok (some "urn:0"))]
    calls := [⟨warnAbout, some 0, true⟩, ⟨plainInfo, none, true⟩]
    sent := [(1, ⟨.info, "hello", "", 3, true⟩), (0, ⟨.warning, "slow", "urn:0", 0, false⟩)]
    refused := []
    looked := 2 }

theorem no_tasks_here (l l' : Loop.State) : ∀ (k : Nat) (p : Made) (i : Nat), ([] : List Made)[k]? = some p → p.task = some i →
    l'.resultOf i = l.resultOf i := by
  intro k p i h
  simp at h

theorem orderly_run : Steps State.init orderly := by
  have a1 : Steps State.init ⟨⟨[⟨.plain, none⟩], [], none, .user⟩, [], [⟨warnAbout, some 0, true⟩], [], [], 0⟩ :=
    .tail .refl (.later (c := warnAbout) (r := 0) (.inl rfl) rfl)
  have a2 : Steps State.init ⟨⟨[⟨.plain, none⟩], [], none, .user⟩, [], [⟨warnAbout, some 0, true⟩, ⟨plainInfo, none, true⟩],
      [(1, ⟨.info, "hello", "", 3, true⟩)], [], 0⟩ :=
    .tail a1 (.now (c := plainInfo) (.inl rfl) rfl)
  have side : ∀ (l l' : Loop.State), l'.resultOf 0 = l.resultOf 0 → ∀ (k : Nat) (p : Made) (i : Nat),
      ([⟨warnAbout, some 0, true⟩, ⟨plainInfo, none, true⟩] : List Made)[k]? = some p → p.task = some i → l'.resultOf i = l.resultOf i := by
    intro l l' h k p i hk ht
    rcases k with _ | _ | k
    · simp at hk; subst hk; cases ht; exact h
    · simp at hk; subst hk; cases ht
    · simp at hk
  have a3 : Steps State.init ⟨⟨[⟨.plain, none⟩], [], none, .top none⟩, [], [⟨warnAbout, some 0, true⟩, ⟨plainInfo, none, true⟩],
      [(1, ⟨.info, "hello", "", 3, true⟩)], [], 0⟩ :=
    .tail a2 (.other (.userEnd rfl) (side _ _ rfl))
  have a4 : Steps State.init ⟨⟨[⟨.plain, none⟩], [], none, .waiting none [0]⟩, [], [⟨warnAbout, some 0, true⟩, ⟨plainInfo, none, true⟩],
      [(1, ⟨.info, "hello", "", 3, true⟩)], [], 2⟩ :=
    .tail a3 (.other (.top (f := none) rfl) (side _ _ rfl))
  have a5 : Steps State.init ⟨⟨[⟨.plain, none⟩], [], none, .waiting none [0]⟩, [(0, .ok (some "urn:0"))],
      [⟨warnAbout, some 0, true⟩, ⟨plainInfo, none, true⟩], [(1, ⟨.info, "hello", "", 3, true⟩)], [], 2⟩ :=
    .tail a4 (.urn rfl)
  have a6 : Steps State.init ⟨⟨[⟨.plain, some .ok⟩], [], none, .waiting none [0]⟩, [(0, .ok (some "urn:0"))],
      [⟨warnAbout, some 0, true⟩, ⟨plainInfo, none, true⟩],
      [(1, ⟨.info, "hello", "", 3, true⟩), (0, ⟨.warning, "slow", "urn:0", 0, false⟩)], [], 2⟩ :=
    .tail a5 (.send (k := 0) (i := 0) (r := 0) (u := some "urn:0") (by decide) rfl rfl rfl rfl rfl rfl)
  exact .tail a6 (.other (.waitDone (f := none) (ids := [0]) rfl (by intro i hi; cases hi with | head => rfl | tail _ h => cases h))
    (side _ _ rfl))

/-- The hypotheses of the theorems are met. -/
example : orderly.loop.main = .returned ∧ orderly.calls[0]? = some ⟨warnAbout, some 0, true⟩ ∧ 0 ∉ orderly.refused ∧
    ¬ orderly.UrnFailed warnAbout ∧ orderly.Got 0 := by
  refine ⟨rfl, rfl, by decide, ?_, _, List.mem_cons_of_mem _ (List.mem_cons_self ..)⟩
  rintro ⟨r, e, h1, h2⟩
  cases h1
  cases h2

/-- **Finding.** Messages about resources and other messages do not arrive in the order of the calls. -/
theorem order_not_kept : ∃ s, Steps State.init s ∧ ∃ m m', s.sent = [(1, m), (0, m')] := ⟨orderly, orderly_run, _, _, rfl⟩

/-- A message about a resource, logged by a callback, is lost though the URN is there: a registration fails. -/
def lostByFailure : State :=
  { loop := ⟨[⟨.wrapper (some 1), some .ok⟩, ⟨.rpc, some (.exn 7)⟩, ⟨.plain, none⟩], [], some 7, .raised 7⟩
    urns := [(0, .ok (some "urn:0"))]
    calls := [⟨warnAbout, some 2, false⟩]
    sent := []
    refused := []
    looked := 0 }

theorem side_one (l l' : Loop.State) (j : Nat) (h : l'.resultOf j = l.resultOf j) : ∀ (k : Nat) (p : Made) (i : Nat),
    ([⟨warnAbout, some j, false⟩] : List Made)[k]? = some p → p.task = some i → l'.resultOf i = l.resultOf i := by
  intro k p i hk ht
  rcases k with _ | k
  · simp at hk; subst hk; cases ht; exact h
  · simp at hk

theorem lostByFailure_run : Steps State.init lostByFailure := by
  have a1 : Steps State.init ⟨⟨[⟨.wrapper none, none⟩], [], none, .user⟩, [], [], [], [], 0⟩ :=
    .tail .refl (.other (.userSpawn (k := .wrapper none) rfl rfl) (no_tasks_here _ _))
  have a2 : Steps State.init ⟨⟨[⟨.wrapper none, none⟩], [], none, .top none⟩, [], [], [], [], 0⟩ :=
    .tail a1 (.other (.userEnd rfl) (no_tasks_here _ _))
  have a3 : Steps State.init ⟨⟨[⟨.wrapper none, none⟩], [], none, .waiting none [0]⟩, [], [], [], [], 0⟩ :=
    .tail a2 (.other (.top rfl) (no_tasks_here _ _))
  have a4 : Steps State.init ⟨⟨[⟨.wrapper (some 1), none⟩, ⟨.rpc, none⟩], [1], none, .waiting none [0]⟩, [], [], [], [], 0⟩ :=
    .tail a3 (.other (.wrapStart (i := 0) (by decide) rfl) (no_tasks_here _ _))
  have a5 : Steps State.init ⟨⟨[⟨.wrapper (some 1), none⟩, ⟨.rpc, none⟩], [1], none, .waiting none [0]⟩, [(0, .ok (some "urn:0"))], [], [], [], 0⟩ :=
    .tail a4 (.urn rfl)
  have a6 : Steps State.init ⟨⟨[⟨.wrapper (some 1), none⟩, ⟨.rpc, none⟩, ⟨.plain, none⟩], [1], none, .waiting none [0]⟩,
      [(0, .ok (some "urn:0"))], [⟨warnAbout, some 2, false⟩], [], [], 0⟩ :=
    .tail a5 (.later (c := warnAbout) (r := 0) (.inr ⟨by decide, 1, _, rfl, rfl, rfl⟩) rfl)
  have a7 : Steps State.init ⟨⟨[⟨.wrapper (some 1), none⟩, ⟨.rpc, some (.exn 7)⟩, ⟨.plain, none⟩], [1], none, .waiting none [0]⟩,
      [(0, .ok (some "urn:0"))], [⟨warnAbout, some 2, false⟩], [], [], 0⟩ :=
    .tail a6 (.other (.taskEnd (i := 1) (r := .exn 7) (by decide) rfl rfl rfl) (side_one _ _ _ rfl))
  have a8 : Steps State.init ⟨⟨[⟨.wrapper (some 1), some .ok⟩, ⟨.rpc, some (.exn 7)⟩, ⟨.plain, none⟩], [1], some 7, .waiting none [0]⟩,
      [(0, .ok (some "urn:0"))], [⟨warnAbout, some 2, false⟩], [], [], 0⟩ :=
    .tail a7 (.other (.wrapEnd (i := 0) (j := 1) (r := .exn 7) (by decide) rfl rfl) (side_one _ _ _ rfl))
  have a9 : Steps State.init ⟨⟨[⟨.wrapper (some 1), some .ok⟩, ⟨.rpc, some (.exn 7)⟩, ⟨.plain, none⟩], [1], some 7, .top none⟩,
      [(0, .ok (some "urn:0"))], [⟨warnAbout, some 2, false⟩], [], [], 0⟩ :=
    .tail a8 (.other (.waitDone (f := none) (ids := [0]) rfl (by intro i hi; cases hi with | head => rfl | tail _ h => cases h))
      (side_one _ _ _ rfl))
  have a10 : Steps State.init ⟨⟨[⟨.wrapper (some 1), some .ok⟩, ⟨.rpc, some (.exn 7)⟩, ⟨.plain, none⟩], [1], some 7, .sleeping none⟩,
      [(0, .ok (some "urn:0"))], [⟨warnAbout, some 2, false⟩], [], [], 0⟩ :=
    .tail a9 (.other (.top rfl) (side_one _ _ _ rfl))
  have a11 : Steps State.init ⟨⟨[⟨.wrapper (some 1), some .ok⟩, ⟨.rpc, some (.exn 7)⟩, ⟨.plain, none⟩], [], some 7, .awaiting none 1⟩,
      [(0, .ok (some "urn:0"))], [⟨warnAbout, some 2, false⟩], [], [], 0⟩ :=
    .tail a10 (.other (.popped rfl) (side_one _ _ _ rfl))
  exact .tail a11 (.other (.awaited (r := .exn 7) rfl rfl) (side_one _ _ _ rfl))

/-- **Finding.** When a registration fails, messages about other resources that were logged before may never arrive. -/
theorem message_lost_when_rpc_fails : ¬ EveryMessageArrives := by
  intro h
  obtain ⟨m, hm⟩ := h lostByFailure lostByFailure_run rfl 0 ⟨warnAbout, some 2, false⟩ rfl (by decide) (by
    rintro ⟨r, e, h1, h2⟩
    cases h1
    cases h2)
  cases hm

/-- A message about a resource, logged by a coroutine while the loop waits for it, is lost though the run succeeds. -/
def lostByReturn : State :=
  { loop := ⟨[⟨.plain, some .ok⟩, ⟨.plain, none⟩], [], none, .returned⟩
    urns := [(0, .ok (some "urn:0"))]
    calls := [⟨warnAbout, some 1, false⟩]
    sent := []
    refused := []
    looked := 0 }

theorem lostByReturn_run : Steps State.init lostByReturn := by
  have a1 : Steps State.init ⟨⟨[⟨.plain, none⟩], [], none, .user⟩, [], [], [], [], 0⟩ :=
    .tail .refl (.other (.userSpawn (k := .plain) rfl rfl) (no_tasks_here _ _))
  have a2 : Steps State.init ⟨⟨[⟨.plain, none⟩], [], none, .top none⟩, [], [], [], [], 0⟩ :=
    .tail a1 (.other (.userEnd rfl) (no_tasks_here _ _))
  have a3 : Steps State.init ⟨⟨[⟨.plain, none⟩], [], none, .waiting none [0]⟩, [], [], [], [], 0⟩ :=
    .tail a2 (.other (.top rfl) (no_tasks_here _ _))
  have a4 : Steps State.init ⟨⟨[⟨.plain, none⟩], [], none, .waiting none [0]⟩, [(0, .ok (some "urn:0"))], [], [], [], 0⟩ :=
    .tail a3 (.urn rfl)
  have a5 : Steps State.init ⟨⟨[⟨.plain, none⟩, ⟨.plain, none⟩], [], none, .waiting none [0]⟩, [(0, .ok (some "urn:0"))],
      [⟨warnAbout, some 1, false⟩], [], [], 0⟩ :=
    .tail a4 (.later (c := warnAbout) (r := 0) (.inr ⟨by decide, 0, _, rfl, rfl, rfl⟩) rfl)
  have a6 : Steps State.init ⟨⟨[⟨.plain, some .ok⟩, ⟨.plain, none⟩], [], none, .waiting none [0]⟩, [(0, .ok (some "urn:0"))],
      [⟨warnAbout, some 1, false⟩], [], [], 0⟩ :=
    .tail a5 (.other (.taskEnd (i := 0) (r := .ok) (by decide) rfl rfl rfl) (side_one _ _ _ rfl))
  exact .tail a6 (.other (.waitDone (f := none) (ids := [0]) rfl (by intro i hi; cases hi with | head => rfl | tail _ h => cases h))
    (side_one _ _ _ rfl))

/-- **Finding.** Also in a run that returns normally, a message about a resource may not have arrived when the run ends, if a
coroutine logged it as the last thing that the loop waits for. -/
theorem message_lost_though_returned : ∃ s, Steps State.init s ∧ s.loop.main = .returned ∧ s.urns = [(0, .ok (some "urn:0"))] ∧
    (∃ p, s.calls = [p] ∧ p.call.resource = some 0) ∧ s.refused = [] ∧ s.sent = [] :=
  ⟨lostByReturn, lostByReturn_run, rfl, rfl, ⟨_, rfl, rfl⟩, rfl, rfl⟩

end Pulumi.Log
