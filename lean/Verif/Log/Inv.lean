import Verif.Log.Lemmas

namespace Pulumi.Log

theorem getElem?_snoc {α : Type} (l : List α) (x p : α) (k : Nat) :
    (l ++ [x])[k]? = some p ↔ l[k]? = some p ∨ k = l.length ∧ p = x := by
  rcases Nat.lt_trichotomy k l.length with h | h | h
  · rw [List.getElem?_append_left h]
    constructor
    · exact .inl
    · rintro (h' | ⟨h', _⟩)
      · exact h'
      · omega
  · subst h
    rw [List.getElem?_append_right (by omega)]
    simp only [Nat.sub_self, List.getElem?_cons_zero, Option.some.injEq, true_and]
    constructor
    · intro e; exact .inr e.symm
    · rintro (h' | h')
      · have := (List.getElem?_eq_some_iff.1 h').1; omega
      · exact h'.symm
  · constructor
    · intro h'
      have := (List.getElem?_eq_some_iff.1 h').1
      simp at this
      omega
    · rintro (h' | ⟨h', _⟩)
      · have := (List.getElem?_eq_some_iff.1 h').1; omega
      · omega

theorem lt_of_some {α : Type} {l : List α} {k : Nat} {p : α} (h : l[k]? = some p) : k < l.length :=
  (List.getElem?_eq_some_iff.1 h).1

structure Inv (s : State) : Prop where
  task_lt : ∀ (k : Nat) (p : Made) (i : Nat), s.calls[k]? = some p → p.task = some i → i < s.loop.tasks.length
  task_none : ∀ (k : Nat) (p : Made), s.calls[k]? = some p → (p.task = none ↔ p.call.resource = none)
  task_inj : ∀ (k k' : Nat) (p p' : Made) (i : Nat), s.calls[k]? = some p → s.calls[k']? = some p' → p.task = some i → p'.task = some i → k = k'
  sent_says : ∀ (k : Nat) (m : Msg), (k, m) ∈ s.sent →
    ∃ p, s.calls[k]? = some p ∧ Says s.urns p.call m ∧ ∀ i, p.task = some i → s.loop.resultOf i ≠ none
  sent_once : (s.sent.map (·.1)).Nodup
  refused_done : ∀ k ∈ s.refused, ∃ p, s.calls[k]? = some p ∧ ∀ i, p.task = some i → s.loop.resultOf i ≠ none
  not_both : ∀ (k : Nat) (m : Msg), (k, m) ∈ s.sent → k ∉ s.refused
  now_done : ∀ (k : Nat) (p : Made), s.calls[k]? = some p → p.task = none → s.Got k ∨ k ∈ s.refused
  later_done : ∀ (k : Nat) (p : Made) (i : Nat), s.calls[k]? = some p → p.task = some i → s.loop.resultOf i ≠ none →
    s.Got k ∨ k ∈ s.refused ∨ s.UrnFailed p.call
  ordered : s.sent.Pairwise fun a b => ∀ p q, s.calls[a.1]? = some p → s.calls[b.1]? = some q → p.call.resource = none →
    q.call.resource = none → a.1 < b.1
  looked_le : s.looked ≤ s.calls.length

theorem inv_init : Inv State.init := by
  constructor <;> simp [State.init]

/-- Recording a call, with what is known of the task. -/
theorem inv_now_sent {s : State} (hi : Inv s) {c : Call} {m : Msg} (hc : c.resource = none) (hm : request c "" = some m) :
    Inv { s.add c none with sent := s.sent ++ [(s.calls.length, m)] } := by
  have hnew : ∀ (k : Nat) (m' : Msg), (k, m') ∈ s.sent → k < s.calls.length := by
    intro k m' h
    obtain ⟨p, hp, _⟩ := hi.sent_says k m' h
    exact lt_of_some hp
  constructor
  · intro k p i hk ht
    rcases (getElem?_snoc _ _ _ _).1 hk with h | ⟨_, rfl⟩
    · exact hi.task_lt k p i h ht
    · cases ht
  · intro k p hk
    rcases (getElem?_snoc _ _ _ _).1 hk with h | ⟨_, rfl⟩
    · exact hi.task_none k p h
    · simp [hc]
  · intro k k' p p' i hk hk' ht ht'
    rcases (getElem?_snoc _ _ _ _).1 hk with h | ⟨_, rfl⟩
    · rcases (getElem?_snoc _ _ _ _).1 hk' with h' | ⟨_, rfl⟩
      · exact hi.task_inj k k' p p' i h h' ht ht'
      · cases ht'
    · cases ht
  · intro k m' hk
    rcases List.mem_append.1 hk with h | h
    · obtain ⟨p, hp, h1, h2⟩ := hi.sent_says k m' h
      exact ⟨p, (getElem?_snoc _ _ _ _).2 (.inl hp), h1, h2⟩
    · cases List.mem_singleton.1 h
      exact ⟨⟨c, none, isUser s.loop⟩, (getElem?_snoc _ _ _ _).2 (.inr ⟨rfl, rfl⟩), says_of hm (by simp only [hc]), fun i hi => by cases hi⟩
  · simp only [List.map_append, List.map_cons, List.map_nil]
    rw [List.nodup_append]
    refine ⟨hi.sent_once, by simp, ?_⟩
    intro a ha b hb
    rw [List.mem_singleton.1 hb]
    obtain ⟨⟨k, m'⟩, hk, rfl⟩ := List.mem_map.1 ha
    have := hnew k m' hk
    exact Nat.ne_of_lt this
  · intro k hk
    obtain ⟨p, hp, h2⟩ := hi.refused_done k hk
    exact ⟨p, (getElem?_snoc _ _ _ _).2 (.inl hp), h2⟩
  · intro k m' hk
    rcases List.mem_append.1 hk with h | h
    · exact hi.not_both k m' h
    · cases List.mem_singleton.1 h
      intro hr
      obtain ⟨p, hp, _⟩ := hi.refused_done _ hr
      exact Nat.lt_irrefl _ (lt_of_some hp)
  · intro k p hk ht
    rcases (getElem?_snoc _ _ _ _).1 hk with h | ⟨rfl, rfl⟩
    · rcases hi.now_done k p h ht with ⟨m', h'⟩ | h'
      · exact .inl ⟨m', List.mem_append_left _ h'⟩
      · exact .inr h'
    · exact .inl ⟨m, List.mem_append_right _ (List.mem_singleton.2 rfl)⟩
  · intro k p i hk ht hr
    rcases (getElem?_snoc _ _ _ _).1 hk with h | ⟨rfl, rfl⟩
    · rcases hi.later_done k p i h ht hr with ⟨m', h'⟩ | h' | h'
      · exact .inl ⟨m', List.mem_append_left _ h'⟩
      · exact .inr (.inl h')
      · exact .inr (.inr h')
    · cases ht
  · show (s.sent ++ [(s.calls.length, m)]).Pairwise _
    rw [List.pairwise_append]
    refine ⟨?_, by simp, ?_⟩
    · refine hi.ordered.imp_of_mem ?_
      rintro ⟨a, ma⟩ ⟨b, mb⟩ ha hb h p q hp hq h1 h2
      have la := hnew a ma ha
      have lb := hnew b mb hb
      rcases (getElem?_snoc _ _ _ _).1 hp with hp | ⟨hp, _⟩
      · rcases (getElem?_snoc _ _ _ _).1 hq with hq | ⟨hq, _⟩
        · exact h p q hp hq h1 h2
        · exact absurd hq (Nat.ne_of_lt lb)
      · exact absurd hp (Nat.ne_of_lt la)
    · rintro ⟨a, ma⟩ ha b hb p q _ _ _ _
      rw [List.mem_singleton.1 hb]
      exact hnew a ma ha
  · have := hi.looked_le
    simp [State.add]
    omega

theorem inv_now_refused {s : State} (hi : Inv s) {c : Call} (hc : c.resource = none) :
    Inv { s.add c none with refused := s.refused ++ [s.calls.length] } := by
  constructor
  · intro k p i hk ht
    rcases (getElem?_snoc _ _ _ _).1 hk with h | ⟨_, rfl⟩
    · exact hi.task_lt k p i h ht
    · cases ht
  · intro k p hk
    rcases (getElem?_snoc _ _ _ _).1 hk with h | ⟨_, rfl⟩
    · exact hi.task_none k p h
    · simp [hc]
  · intro k k' p p' i hk hk' ht ht'
    rcases (getElem?_snoc _ _ _ _).1 hk with h | ⟨_, rfl⟩
    · rcases (getElem?_snoc _ _ _ _).1 hk' with h' | ⟨_, rfl⟩
      · exact hi.task_inj k k' p p' i h h' ht ht'
      · cases ht'
    · cases ht
  · intro k m' h
    obtain ⟨p, hp, h1, h2⟩ := hi.sent_says k m' h
    exact ⟨p, (getElem?_snoc _ _ _ _).2 (.inl hp), h1, h2⟩
  · exact hi.sent_once
  · intro k hk
    rcases List.mem_append.1 hk with h | h
    · obtain ⟨p, hp, h2⟩ := hi.refused_done k h
      exact ⟨p, (getElem?_snoc _ _ _ _).2 (.inl hp), h2⟩
    · cases List.mem_singleton.1 h
      exact ⟨⟨c, none, isUser s.loop⟩, (getElem?_snoc _ _ _ _).2 (.inr ⟨rfl, rfl⟩), fun i hi => by cases hi⟩
  · intro k m' hk hr
    rcases List.mem_append.1 hr with h | h
    · exact hi.not_both k m' hk h
    · cases List.mem_singleton.1 h
      obtain ⟨p, hp, _⟩ := hi.sent_says _ _ hk
      exact Nat.lt_irrefl _ (lt_of_some hp)
  · intro k p hk ht
    rcases (getElem?_snoc _ _ _ _).1 hk with h | ⟨rfl, rfl⟩
    · rcases hi.now_done k p h ht with h' | h'
      · exact .inl h'
      · exact .inr (List.mem_append_left _ h')
    · exact .inr (List.mem_append_right _ (List.mem_singleton.2 rfl))
  · intro k p i hk ht hr
    rcases (getElem?_snoc _ _ _ _).1 hk with h | ⟨rfl, rfl⟩
    · rcases hi.later_done k p i h ht hr with h' | h' | h'
      · exact .inl h'
      · exact .inr (.inl (List.mem_append_left _ h'))
      · exact .inr (.inr h')
    · cases ht
  · refine hi.ordered.imp_of_mem ?_
    rintro ⟨a, ma⟩ ⟨b, mb⟩ ha hb h p q hp hq h1 h2
    obtain ⟨_, la, _⟩ := hi.sent_says a ma ha
    obtain ⟨_, lb, _⟩ := hi.sent_says b mb hb
    rcases (getElem?_snoc _ _ _ _).1 hp with hp | ⟨hp, _⟩
    · rcases (getElem?_snoc _ _ _ _).1 hq with hq | ⟨hq, _⟩
      · exact h p q hp hq h1 h2
      · exact absurd hq (Nat.ne_of_lt (lt_of_some lb))
    · exact absurd hp (Nat.ne_of_lt (lt_of_some la))
  · have := hi.looked_le
    simp [State.add]
    omega

theorem inv_later {s : State} (hi : Inv s) {c : Call} {r : Nat} (hc : c.resource = some r) :
    Inv { s.add c (some s.loop.tasks.length) with loop := Loop.spawn s.loop .plain } := by
  have hold : ∀ (p : Made) (i : Nat), (∃ k : Nat, s.calls[k]? = some p) → p.task = some i →
      (Loop.spawn s.loop .plain).resultOf i = s.loop.resultOf i := by
    rintro p i ⟨k, hk⟩ ht
    exact resultOf_spawn _ _ _ (hi.task_lt k p i hk ht)
  have hnew : (Loop.spawn s.loop .plain).resultOf s.loop.tasks.length = none := by
    unfold Loop.State.resultOf Loop.spawn
    simp
  constructor
  · intro k p i hk ht
    rcases (getElem?_snoc _ _ _ _).1 hk with h | ⟨_, rfl⟩
    · have := hi.task_lt k p i h ht
      simp [Loop.spawn]
      omega
    · cases ht
      simp [Loop.spawn]
  · intro k p hk
    rcases (getElem?_snoc _ _ _ _).1 hk with h | ⟨_, rfl⟩
    · exact hi.task_none k p h
    · simp [hc]
  · intro k k' p p' i hk hk' ht ht'
    rcases (getElem?_snoc _ _ _ _).1 hk with h | ⟨e, rfl⟩
    · rcases (getElem?_snoc _ _ _ _).1 hk' with h' | ⟨_, rfl⟩
      · exact hi.task_inj k k' p p' i h h' ht ht'
      · cases ht'
        exact absurd (hi.task_lt k p _ h ht) (Nat.lt_irrefl _)
    · rcases (getElem?_snoc _ _ _ _).1 hk' with h' | ⟨e', rfl⟩
      · cases ht
        exact absurd (hi.task_lt k' p' _ h' ht') (Nat.lt_irrefl _)
      · rw [e, e']
  · intro k m' h
    obtain ⟨p, hp, h1, h2⟩ := hi.sent_says k m' h
    refine ⟨p, (getElem?_snoc _ _ _ _).2 (.inl hp), h1, fun i ht => ?_⟩
    show (Loop.spawn s.loop .plain).resultOf i ≠ none
    rw [hold p i ⟨k, hp⟩ ht]
    exact h2 i ht
  · exact hi.sent_once
  · intro k h
    obtain ⟨p, hp, h2⟩ := hi.refused_done k h
    refine ⟨p, (getElem?_snoc _ _ _ _).2 (.inl hp), fun i ht => ?_⟩
    show (Loop.spawn s.loop .plain).resultOf i ≠ none
    rw [hold p i ⟨k, hp⟩ ht]
    exact h2 i ht
  · exact hi.not_both
  · intro k p hk ht
    rcases (getElem?_snoc _ _ _ _).1 hk with h | ⟨rfl, rfl⟩
    · exact hi.now_done k p h ht
    · cases ht
  · intro k p i hk ht hr
    rcases (getElem?_snoc _ _ _ _).1 hk with h | ⟨rfl, rfl⟩
    · refine hi.later_done k p i h ht ?_
      rw [← hold p i ⟨k, h⟩ ht]
      exact hr
    · cases ht
      exact absurd hnew hr
  · refine hi.ordered.imp_of_mem ?_
    rintro ⟨a, ma⟩ ⟨b, mb⟩ ha hb h p q hp hq h1 h2
    obtain ⟨_, la, _⟩ := hi.sent_says a ma ha
    obtain ⟨_, lb, _⟩ := hi.sent_says b mb hb
    rcases (getElem?_snoc _ _ _ _).1 hp with hp | ⟨hp, _⟩
    · rcases (getElem?_snoc _ _ _ _).1 hq with hq | ⟨hq, _⟩
      · exact h p q hp hq h1 h2
      · exact absurd hq (Nat.ne_of_lt (lt_of_some lb))
    · exact absurd hp (Nat.ne_of_lt (lt_of_some la))
  · have := hi.looked_le
    simp [State.add]
    omega

theorem inv_urn {s : State} (hi : Inv s) (x : Nat × Except Nat (Option String)) : Inv { s with urns := s.urns ++ [x] } := by
  refine ⟨hi.task_lt, hi.task_none, hi.task_inj, ?_, hi.sent_once, hi.refused_done, hi.not_both, hi.now_done, ?_, hi.ordered, hi.looked_le⟩
  · intro k m h
    obtain ⟨p, hp, h1, h2⟩ := hi.sent_says k m h
    exact ⟨p, hp, says_stays h1 x, h2⟩
  · intro k p i hk ht hr
    rcases hi.later_done k p i hk ht hr with h | h | ⟨r, e, h1, h2⟩
    · exact .inl h
    · exact .inr (.inl h)
    · exact .inr (.inr ⟨r, e, h1, lookup_stays h2 x⟩)

/-- A task of `_log` ends: its message is sent, or refused, or its URN failed. -/
theorem inv_finish {s : State} (hi : Inv s) {k i : Nat} {p : Made} (hk : s.calls[k]? = some p) (ht : p.task = some i)
    (hn : s.loop.resultOf i = none) (r : Loop.Result) (sent : List (Nat × Msg)) (refused : List Nat)
    (h : (∃ m, Says s.urns p.call m ∧ sent = s.sent ++ [(k, m)] ∧ refused = s.refused) ∨
      (sent = s.sent ∧ refused = s.refused ++ [k]) ∨ (sent = s.sent ∧ refused = s.refused ∧ s.UrnFailed p.call)) :
    Inv { s with sent := sent, refused := refused, loop := { s.loop with tasks := Loop.finish s.loop.tasks i r } } := by
  have hres : ∀ j, j < s.loop.tasks.length →
      Loop.State.resultOf { s.loop with tasks := Loop.finish s.loop.tasks i r } j = if i = j then some r else s.loop.resultOf j :=
    fun j hj => resultOf_finish s.loop i j r hj
  have hkeep : ∀ j, j < s.loop.tasks.length → s.loop.resultOf j ≠ none →
      Loop.State.resultOf { s.loop with tasks := Loop.finish s.loop.tasks i r } j ≠ none := by
    intro j hj h
    rw [hres j hj]
    split
    · simp
    · exact h
  have hlen : (Loop.finish s.loop.tasks i r).length = s.loop.tasks.length := by simp [Loop.finish]
  have hnotsent : ∀ m, (k, m) ∉ s.sent := by
    intro m hm
    obtain ⟨p', hp', _, h2⟩ := hi.sent_says k m hm
    rw [hk] at hp'
    cases hp'
    exact h2 i ht hn
  have hnotrefused : k ∉ s.refused := by
    intro hm
    obtain ⟨p', hp', h2⟩ := hi.refused_done k hm
    rw [hk] at hp'
    cases hp'
    exact h2 i ht hn
  have hself : ∀ j, p.task = some j →
      Loop.State.resultOf { s.loop with tasks := Loop.finish s.loop.tasks i r } j ≠ none := by
    intro j hj
    rw [ht] at hj
    cases hj
    rw [hres i (hi.task_lt k p i hk ht), if_pos rfl]
    simp
  have hsub : ∀ x ∈ s.sent, x ∈ sent := by
    intro x hx
    rcases h with ⟨m, _, h, _⟩ | ⟨h, _⟩ | ⟨h, _⟩ <;> rw [h]
    · exact List.mem_append_left _ hx
    · exact hx
    · exact hx
  have hsubr : ∀ x ∈ s.refused, x ∈ refused := by
    intro x hx
    rcases h with ⟨m, _, _, h⟩ | ⟨_, h⟩ | ⟨_, h, _⟩ <;> rw [h]
    · exact hx
    · exact List.mem_append_left _ hx
    · exact hx
  constructor
  · intro k' p' i' hk' ht'
    show i' < (Loop.finish s.loop.tasks i r).length
    rw [hlen]
    exact hi.task_lt k' p' i' hk' ht'
  · exact hi.task_none
  · exact hi.task_inj
  · intro k' m' hk'
    have old : (k', m') ∈ s.sent → ∃ p, s.calls[k']? = some p ∧ Says s.urns p.call m' ∧
        ∀ j, p.task = some j → Loop.State.resultOf { s.loop with tasks := Loop.finish s.loop.tasks i r } j ≠ none := by
      intro h'
      obtain ⟨p', hp', h1, h2⟩ := hi.sent_says k' m' h'
      exact ⟨p', hp', h1, fun j hj => hkeep j (hi.task_lt k' p' j hp' hj) (h2 j hj)⟩
    rcases h with ⟨m, hm, h, _⟩ | ⟨h, _⟩ | ⟨h, _⟩
    · simp only [h] at hk'
      rcases List.mem_append.1 hk' with h' | h'
      · exact old h'
      · cases List.mem_singleton.1 h'
        exact ⟨p, hk, hm, hself⟩
    · simp only [h] at hk'; exact old hk'
    · simp only [h] at hk'; exact old hk'
  · show (sent.map (·.1)).Nodup
    rcases h with ⟨m, hm, h, _⟩ | ⟨h, _⟩ | ⟨h, _⟩ <;> rw [h]
    · rw [List.map_append, List.nodup_append]
      refine ⟨hi.sent_once, by simp, ?_⟩
      intro a ha b hb
      simp only [List.map_cons, List.map_nil, List.mem_singleton] at hb
      subst hb
      obtain ⟨⟨a', m'⟩, h1, rfl⟩ := List.mem_map.1 ha
      rintro rfl
      exact hnotsent m' h1
    · exact hi.sent_once
    · exact hi.sent_once
  · intro k' hk'
    have old : k' ∈ s.refused → ∃ p, s.calls[k']? = some p ∧
        ∀ j, p.task = some j → Loop.State.resultOf { s.loop with tasks := Loop.finish s.loop.tasks i r } j ≠ none := by
      intro h'
      obtain ⟨p', hp', h2⟩ := hi.refused_done k' h'
      exact ⟨p', hp', fun j hj => hkeep j (hi.task_lt k' p' j hp' hj) (h2 j hj)⟩
    rcases h with ⟨m, hm, _, h⟩ | ⟨_, h⟩ | ⟨_, h, _⟩
    · simp only [h] at hk'; exact old hk'
    · simp only [h] at hk'
      rcases List.mem_append.1 hk' with h' | h'
      · exact old h'
      · cases List.mem_singleton.1 h'
        exact ⟨p, hk, hself⟩
    · simp only [h] at hk'; exact old hk'
  · intro k' m' h1 h2
    rcases h with ⟨m, hm, e1, e2⟩ | ⟨e1, e2⟩ | ⟨e1, e2, _⟩
    · simp only [e1] at h1
      simp only [e2] at h2
      rcases List.mem_append.1 h1 with h' | h'
      · exact hi.not_both k' m' h' h2
      · cases List.mem_singleton.1 h'
        exact hnotrefused h2
    · simp only [e1] at h1
      simp only [e2] at h2
      rcases List.mem_append.1 h2 with h' | h'
      · exact hi.not_both k' m' h1 h'
      · cases List.mem_singleton.1 h'
        exact hnotsent m' h1
    · simp only [e1] at h1
      simp only [e2] at h2
      exact hi.not_both k' m' h1 h2
  · intro k' p' hk' ht'
    rcases hi.now_done k' p' hk' ht' with ⟨m', h'⟩ | h'
    · exact .inl ⟨m', hsub _ h'⟩
    · exact .inr (hsubr _ h')
  · intro k' p' i' hk' ht' hr'
    by_cases he : k' = k
    · subst he
      rw [hk] at hk'
      cases hk'
      rcases h with ⟨m, hm, e1, e2⟩ | ⟨e1, e2⟩ | ⟨e1, e2, e3⟩
      · exact .inl ⟨m, by simp only [e1]; exact List.mem_append_right _ (List.mem_singleton.2 rfl)⟩
      · exact .inr (.inl (by simp only [e2]; exact List.mem_append_right _ (List.mem_singleton.2 rfl)))
      · exact .inr (.inr e3)
    · have hne : i ≠ i' := by
        rintro rfl
        exact he (hi.task_inj k' k p' p i hk' hk ht' ht)
      have hr2 : s.loop.resultOf i' ≠ none := by
        have e := hres i' (hi.task_lt k' p' i' hk' ht')
        rw [if_neg hne] at e
        rw [← e]
        exact hr'
      rcases hi.later_done k' p' i' hk' ht' hr2 with ⟨m', h'⟩ | h' | h'
      · exact .inl ⟨m', hsub _ h'⟩
      · exact .inr (.inl (hsubr _ h'))
      · exact .inr (.inr h')
  · show sent.Pairwise _
    rcases h with ⟨m, hm, h, _⟩ | ⟨h, _⟩ | ⟨h, _⟩ <;> rw [h]
    · rw [List.pairwise_append]
      refine ⟨hi.ordered, by simp, ?_⟩
      intro a ha b hb p' q hp hq h1 h2
      rw [List.mem_singleton.1 hb] at hq
      rw [hk] at hq
      cases hq
      rw [(hi.task_none k p hk).2 h2] at ht
      cases ht
    · exact hi.ordered
    · exact hi.ordered
  · exact hi.looked_le

theorem inv_other {s : State} (hi : Inv s) {l : Loop.State} (hs : Loop.Step true s.loop l)
    (hr : ∀ (k : Nat) (p : Made) (i : Nat), s.calls[k]? = some p → p.task = some i → l.resultOf i = s.loop.resultOf i) :
    Inv { s with loop := l, looked := if looks s.loop then s.calls.length else s.looked } := by
  refine ⟨?_, hi.task_none, hi.task_inj, ?_, hi.sent_once, ?_, hi.not_both, hi.now_done, ?_, hi.ordered, ?_⟩
  · intro k p i hk ht
    exact Nat.lt_of_lt_of_le (hi.task_lt k p i hk ht) (length_step hs)
  · intro k m h
    obtain ⟨p, hp, h1, h2⟩ := hi.sent_says k m h
    refine ⟨p, hp, h1, fun i ht => ?_⟩
    show l.resultOf i ≠ none
    rw [hr k p i hp ht]
    exact h2 i ht
  · intro k h
    obtain ⟨p, hp, h2⟩ := hi.refused_done k h
    refine ⟨p, hp, fun i ht => ?_⟩
    show l.resultOf i ≠ none
    rw [hr k p i hp ht]
    exact h2 i ht
  · intro k p i hk ht hd
    refine hi.later_done k p i hk ht ?_
    rw [← hr k p i hk ht]
    exact hd
  · show (if looks s.loop then s.calls.length else s.looked) ≤ s.calls.length
    split
    · exact Nat.le_refl _
    · exact hi.looked_le

theorem inv_step {s t : State} (hi : Inv s) (h : Step s t) : Inv t := by
  cases h with
  | now _ he =>
    obtain ⟨h1, h2⟩ := effect_now he
    exact inv_now_sent hi h1 h2.symm
  | nowRefused _ he => exact inv_now_refused hi (effect_now he).1
  | later _ he => exact inv_later hi (effect_later he)
  | urn _ => exact inv_urn hi _
  | @send k i r p u m _ hk ht hn hr hu hm =>
    refine inv_finish hi hk ht hn .ok _ s.refused (.inl ⟨m, says_of hm ?_, rfl, rfl⟩)
    rw [hr]
    cases u with
    | none => exact .inr ⟨hu, rfl⟩
    | some u => exact .inl hu
  | @sendRefused k i r e p u _ hk ht hn hr hu => exact inv_finish hi hk ht hn (.exn e) s.sent _ (.inr (.inl ⟨rfl, rfl⟩))
  | @urnFailed k i r e p _ hk ht hn hr hu =>
    exact inv_finish hi hk ht hn (.exn e) s.sent s.refused (.inr (.inr ⟨rfl, rfl, r, e, hr, hu⟩))
  | other hs hr => exact inv_other hi hs hr

theorem inv_steps {s : State} (h : Steps State.init s) : Inv s := by
  induction h with
  | refl => exact inv_init
  | tail _ hs ih => exact inv_step ih hs

end Pulumi.Log
