import Verif.Server.Lock

/-!
# Requests to a component provider: the properties
-/
namespace Pulumi.Server

theorem runs_locks (m : Method) (h : m.locks ≠ true) : m.runs = false := by
  cases m
  · exact absurd rfl h
  · exact absurd rfl h
  · rfl

theorem set_same {α : Type} (f : Nat → α) (i : Nat) (a : α) : set f i a i = a := by simp [set]
theorem set_other {α : Type} (f : Nat → α) {i j : Nat} (a : α) (h : j ≠ i) : set f i a j = f j := by simp [set, h]

theorem mem_wakeFirst {ws : List (Nat × Fut)} {r : Nat} {f : Fut} (h : (r, f) ∈ wakeFirst ws) :
    ∃ g, (r, g) ∈ ws ∧ (f = g ∨ f = .woken) := by
  cases ws with
  | nil => cases h
  | cons w ws =>
    obtain ⟨r', f'⟩ := w
    simp only [wakeFirst] at h
    split at h
    · exact ⟨f, h, .inl rfl⟩
    · rcases List.mem_cons.1 h with h | h
      · cases h; exact ⟨f', by simp, .inr rfl⟩
      · exact ⟨f, by simp [h], .inl rfl⟩

theorem wakeFirst_map (ws : List (Nat × Fut)) : (wakeFirst ws).map (·.1) = ws.map (·.1) := by
  cases ws with
  | nil => rfl
  | cons w ws => simp only [wakeFirst]; split <;> rfl

theorem cancelFut_map (r : Nat) (ws : List (Nat × Fut)) : (cancelFut r ws).map (·.1) = ws.map (·.1) := by
  unfold cancelFut
  rw [List.map_map]
  apply List.map_congr_left
  intro w _
  simp only [Function.comp]
  split
  · rename_i h; exact h.1.symm
  · rfl

theorem mem_unwait {ws : List (Nat × Fut)} {r r' : Nat} {f : Fut} : (r', f) ∈ unwait r ws ↔ (r', f) ∈ ws ∧ r' ≠ r := by
  simp [unwait]

/-- What holds of the lock at every moment. -/
structure Inv (s : State) : Prop where
  /-- whoever is in its body holds the lock, and there is one who does when it is held -/
  held : s.locked = true ↔ ∃ r, s.phase r = .body
  one : ∀ r r', s.phase r = .body → s.phase r' = .body → r = r'
  /-- the settings are those of the one in its body -/
  settings : ∀ r, s.phase r = .body → s.settings = some r
  /-- the queue holds those who wait -/
  queue : ∀ r, s.phase r = .waiting ↔ r ∈ s.waiters.map (·.1)
  nodup : (s.waiters.map (·.1)).Nodup
  /-- while the lock is held nobody has been woken -/
  asleep : s.locked = true → ∀ r f, (r, f) ∈ s.waiters → f ≠ .woken
  /-- at most the first has been woken -/
  second : ∀ w ws, s.waiters = w :: ws → ∀ r f, (r, f) ∈ ws → f ≠ .woken
  /-- nobody sleeps at the head of the queue of a free lock -/
  awake : s.locked = false → ∀ w ws, s.waiters = w :: ws → w.2.done = true
  locking : ∀ r, s.phase r = .body → (s.method r).locks = true
  waits : ∀ r, s.phase r = .waiting → (s.method r).locks = true

theorem inv_init (m : Nat → Method) : Inv (State.init m) := by
  refine ⟨?_, ?_, ?_, ?_, ?_, ?_, ?_, ?_, ?_, ?_⟩ <;> simp [State.init]

theorem Inv.mem_iff {s : State} (h : Inv s) {r : Nat} : s.phase r = .waiting ↔ ∃ f, (r, f) ∈ s.waiters := by
  rw [h.queue]; simp

theorem Inv.body_absurd {s : State} (h : Inv s) (hl : s.locked = false) {r : Nat} : s.phase r ≠ .body := by
  intro hb
  rw [h.held.2 ⟨r, hb⟩] at hl
  cases hl

/-- Entering a free lock. -/
theorem inv_enter {s : State} {r : Nat} (hb : ∀ r, s.phase r ≠ .body) (hm : (s.method r).locks)
    (hq : ∀ r', r' ≠ r → (s.phase r' = .waiting ↔ r' ∈ s.waiters.map (·.1))) (hr : r ∉ s.waiters.map (·.1))
    (hn : (s.waiters.map (·.1)).Nodup) (hw : ∀ r f, (r, f) ∈ s.waiters → f ≠ .woken)
    (hwl : ∀ r, s.phase r = .waiting → (s.method r).locks) : Inv (enter s r) := by
  have hbody : ∀ r', (enter s r).phase r' = .body ↔ r' = r := by
    intro r'
    by_cases h : r' = r
    · subst h; simp [enter, set_same]
    · simp only [enter, set_other _ _ h, h, iff_false]; exact hb r'
  refine ⟨?_, ?_, ?_, ?_, hn, fun _ => hw, ?_, ?_, ?_, ?_⟩
  · simp only [hbody]
    exact ⟨fun _ => ⟨r, rfl⟩, fun _ => rfl⟩
  · intro a b h1 h2
    rw [hbody] at h1 h2
    rw [h1, h2]
  · intro a h1
    rw [hbody] at h1
    rw [h1]; rfl
  · intro a
    by_cases h : a = r
    · subst h; simp only [enter, set_same]; exact ⟨(by simp), fun h => absurd h hr⟩
    · simp only [enter, set_other _ _ h]; exact hq a h
  · intro w ws h a f h1
    exact hw a f (by have : s.waiters = w :: ws := h; rw [this]; exact List.mem_cons_of_mem _ h1)
  · intro h; cases h
  · intro a h1
    rw [hbody] at h1
    rw [h1]; exact hm
  · intro a
    by_cases h : a = r
    · subst h; simp [enter, set_same]
    · simp only [enter, set_other _ _ h]; exact hwl a

theorem head_wake {ws ws' : List (Nat × Fut)} {w : Nat × Fut} (h : wakeFirst ws = w :: ws') : w.2.done = true := by
  cases ws with
  | nil => cases h
  | cons v vs =>
    obtain ⟨r, f⟩ := v
    simp only [wakeFirst] at h
    split at h
    · cases h; assumption
    · cases h; rfl

theorem second_wake {s : State} (hi : Inv s) {r : Nat} {w : Nat × Fut} {ws : List (Nat × Fut)}
    (h : wakeFirst (unwait r s.waiters) = w :: ws) {a : Nat} {g : Fut} (h1 : (a, g) ∈ ws) : g ≠ .woken := by
  cases hu : unwait r s.waiters with
  | nil => rw [hu] at h; cases h
  | cons v vs =>
    have hvs : ws = vs := by
      rw [hu] at h
      simp only [wakeFirst] at h
      split at h <;> simp_all
    subst hvs
    cases hq : s.waiters with
    | nil => rw [hq] at hu; cases hu
    | cons v' vs' =>
      have : (a, g) ∈ vs' := by
        rw [hq] at hu
        unfold unwait at hu
        rw [List.filter_cons] at hu
        split at hu
        · simp only [List.cons.injEq] at hu
          rw [← hu.2] at h1
          exact (List.mem_filter.1 h1).1
        · have : (a, g) ∈ List.filter (fun w => decide (w.1 ≠ r)) vs' := by rw [hu]; exact List.mem_cons_of_mem _ h1
          exact (List.mem_filter.1 this).1
      exact hi.second _ _ hq a g this

theorem inv_step {s s' : State} (hi : Inv s) (h : Step s s') : Inv s' := by
  cases h with
  | @arrive r hr =>
    have hnq : r ∉ s.waiters.map (·.1) := by rw [← hi.queue, hr]; simp
    unfold arrive
    split
    · rename_i hm
      split
      · rename_i hf
        unfold fast at hf
        simp only [Bool.and_eq_true, Bool.not_eq_true', List.all_eq_true, decide_eq_true_eq] at hf
        refine inv_enter (fun r => hi.body_absurd hf.1) hm (fun r' _ => hi.queue r') hnq hi.nodup ?_ hi.waits
        intro a f h1
        have h2 : f = .cancelled := hf.2 _ h1
        rw [h2]; simp
      · rename_i hf
        have hbody : ∀ r', set s.phase r .waiting r' = .body ↔ s.phase r' = .body := by
          intro r'
          by_cases h : r' = r
          · subst h; simp [set_same, hr]
          · rw [set_other _ _ h]
        refine ⟨?_, ?_, ?_, ?_, ?_, ?_, ?_, ?_, ?_, ?_⟩
        · simp only [hbody]; exact hi.held
        · intro a b; simp only [hbody]; exact hi.one a b
        · intro a; simp only [hbody]; exact hi.settings a
        · intro a
          by_cases h : a = r
          · subst h; simp [set_same]
          · simp only [set_other _ _ h, hi.queue a, List.map_append, List.mem_append, List.map_cons, List.map_nil, List.mem_singleton, h, or_false]
        · simp only [List.map_append, List.map_cons, List.map_nil]
          rw [List.nodup_append]
          refine ⟨hi.nodup, by simp, ?_⟩
          intro a ha b hb
          simp only [List.mem_singleton] at hb
          subst hb
          rintro rfl
          exact hnq ha
        · intro hl a f h1
          rcases List.mem_append.1 h1 with h1 | h1
          · exact hi.asleep hl a f h1
          · simp only [List.mem_singleton, Prod.mk.injEq] at h1
            rw [h1.2]; simp
        · intro w ws hws a f h1
          simp only at hws
          cases hq : s.waiters with
          | nil =>
            rw [hq] at hws
            cases hws
            cases h1
          | cons w' ws' =>
            rw [hq] at hws
            cases hws
            rcases List.mem_append.1 h1 with h1 | h1
            · exact hi.second _ _ hq a f h1
            · simp only [List.mem_singleton, Prod.mk.injEq] at h1
              rw [h1.2]; simp
        · intro hl w ws hws
          simp only at hws hl
          cases hq : s.waiters with
          | nil => exact absurd (by simp [fast, hl, hq]) hf
          | cons w' ws' =>
            rw [hq] at hws
            cases hws
            exact hi.awake hl _ _ hq
        · intro a; simp only [hbody]; exact hi.locking a
        · intro a
          by_cases h : a = r
          · subst h; intro _; exact hm
          · simp only [set_other _ _ h]; exact hi.waits a
    · rename_i hm
      rw [if_neg (by rw [runs_locks _ hm]; simp)]
      have hbody : ∀ r', set s.phase r .ended r' = .body ↔ s.phase r' = .body := by
        intro r'
        by_cases h : r' = r
        · subst h; simp [set_same, hr]
        · rw [set_other _ _ h]
      refine ⟨?_, ?_, ?_, ?_, hi.nodup, hi.asleep, hi.second, hi.awake, ?_, ?_⟩
      · simp only [hbody]; exact hi.held
      · intro a b; simp only [hbody]; exact hi.one a b
      · intro a; simp only [hbody]; exact hi.settings a
      · intro a
        by_cases h : a = r
        · subst h; simp only [set_same]; exact ⟨(by simp), fun h => absurd h hnq⟩
        · simp only [set_other _ _ h]; exact hi.queue a
      · intro a; simp only [hbody]; exact hi.locking a
      · intro a
        by_cases h : a = r
        · subst h; simp [set_same]
        · simp only [set_other _ _ h]; exact hi.waits a
  | @resume r hr hw =>
    have hl : s.locked = false := by
      cases h : s.locked with
      | false => rfl
      | true => exact absurd rfl (hi.asleep h _ _ hw)
    refine inv_enter (s := { s with waiters := unwait r s.waiters }) (fun r => hi.body_absurd hl) ?_ ?_ ?_ ?_ ?_ hi.waits
    · exact hi.waits r hr
    · intro a ha
      rw [hi.queue a]
      simp [unwait, ha]
    · simp [unwait]
    · exact List.Nodup.sublist (List.Sublist.map _ List.filter_sublist) hi.nodup
    · intro a f h1
      obtain ⟨h1, h2⟩ := mem_unwait.1 h1
      cases hq : s.waiters with
      | nil => rw [hq] at h1; cases h1
      | cons w ws =>
        rw [hq] at h1 hw
        rcases List.mem_cons.1 hw with hw | hw
        · rcases List.mem_cons.1 h1 with h1 | h1
          · rw [← hw] at h1; simp only [Prod.mk.injEq] at h1; exact absurd h1.1 h2
          · exact hi.second _ _ hq _ _ h1
        · exact absurd rfl (hi.second _ _ hq _ _ hw)
  | @cancel r hr =>
    have hmem : ∀ a f, (a, f) ∈ cancelFut r s.waiters → (a, f) ∈ s.waiters ∨ f = .cancelled := by
      intro a f h1
      unfold cancelFut at h1
      rw [List.mem_map] at h1
      obtain ⟨w, h2, h3⟩ := h1
      split at h3
      · simp only [Prod.mk.injEq] at h3; exact .inr h3.2.symm
      · subst h3; exact .inl h2
    refine ⟨hi.held, hi.one, hi.settings, ?_, ?_, ?_, ?_, ?_, hi.locking, hi.waits⟩
    · intro a; simp only [cancelFut_map]; exact hi.queue a
    · simp only [cancelFut_map]; exact hi.nodup
    · intro hl a f h1
      rcases hmem a f h1 with h1 | h1
      · exact hi.asleep hl a f h1
      · rw [h1]; simp
    · intro w ws hws a f h1
      cases hq : s.waiters with
      | nil => simp [hq, cancelFut] at hws
      | cons w' ws' =>
        simp only [hq, cancelFut, List.map_cons, List.cons.injEq] at hws
        rw [← hws.2, List.mem_map] at h1
        obtain ⟨⟨a', f'⟩, h2, h3⟩ := h1
        split at h3
        · simp only [Prod.mk.injEq] at h3; rw [← h3.2]; simp
        · cases h3; exact hi.second _ _ hq _ _ h2
    · intro hl w ws hws
      cases hq : s.waiters with
      | nil => simp [hq, cancelFut] at hws
      | cons w' ws' =>
        simp only [hq, cancelFut, List.map_cons, List.cons.injEq] at hws
        rw [← hws.1]
        split
        · rfl
        · exact hi.awake hl _ _ hq
  | @giveUp r f hr hf hd =>
    have hbody : ∀ r', set s.phase r .ended r' = .body ↔ s.phase r' = .body := by
      intro r'
      by_cases h : r' = r
      · subst h; simp [set_same, hr]
      · rw [set_other _ _ h]
    have hmap : (giveUp s r).waiters.map (·.1) = (unwait r s.waiters).map (·.1) := by
      simp only [giveUp]; split
      · rfl
      · rw [wakeFirst_map]
    refine ⟨?_, ?_, ?_, ?_, ?_, ?_, ?_, ?_, ?_, ?_⟩
    · simp only [giveUp, hbody]; exact hi.held
    · intro a b; simp only [giveUp, hbody]; exact hi.one a b
    · intro a; simp only [giveUp, hbody]; exact hi.settings a
    · intro a
      rw [hmap]
      by_cases h : a = r
      · subst h; simp [giveUp, set_same, unwait]
      · simp only [giveUp, set_other _ _ h, hi.queue a]; simp [unwait, h]
    · rw [hmap]
      exact List.Nodup.sublist (List.Sublist.map _ List.filter_sublist) hi.nodup
    · intro hl a g h1
      have hl : s.locked = true := hl
      simp only [giveUp, hl, if_true] at h1
      exact hi.asleep hl _ _ (mem_unwait.1 h1).1
    · intro w ws hws a g h1
      cases hl : s.locked with
      | true =>
        simp only [giveUp, hl, if_true] at hws
        exact hi.asleep hl a g (mem_unwait.1 (by rw [hws]; exact List.mem_cons_of_mem _ h1)).1
      | false =>
        simp only [giveUp, hl, Bool.false_eq_true, if_false] at hws
        exact second_wake hi hws h1
    · intro hl w ws hws
      have hl : s.locked = false := hl
      simp only [giveUp, hl, Bool.false_eq_true, if_false] at hws
      exact head_wake hws
    · intro a; simp only [giveUp, hbody]; exact hi.locking a
    · intro a
      by_cases h : a = r
      · subst h; simp [giveUp, set_same]
      · simp only [giveUp, set_other _ _ h]; exact hi.waits a
  | @leave r s' hr hs =>
    have hl : s.locked = true := hi.held.2 ⟨r, hr⟩
    simp only [leave, hl, if_true, Option.some.injEq] at hs
    subst hs
    have hbody : ∀ r', set s.phase r .ended r' ≠ .body := by
      intro r'
      by_cases h : r' = r
      · subst h; simp [set_same]
      · rw [set_other _ _ h]; intro hb; exact h (hi.one _ _ hb hr)
    refine ⟨?_, ?_, ?_, ?_, ?_, ?_, ?_, ?_, ?_, ?_⟩
    · simp [hbody]
    · intro a b h1; exact absurd h1 (hbody a)
    · intro a h1; exact absurd h1 (hbody a)
    · intro a
      simp only [wakeFirst_map, ← hi.queue a]
      by_cases h : a = r
      · subst h; simp [set_same, hr]
      · rw [set_other _ _ h]
    · simp only [wakeFirst_map]; exact hi.nodup
    · intro h; cases h
    · intro w ws hws a g h1
      cases hq : s.waiters with
      | nil => simp [hq, wakeFirst] at hws
      | cons w' ws' =>
        have : ws = ws' := by
          simp only [hq, wakeFirst] at hws
          split at hws <;> simp_all
        subst this
        exact hi.second _ _ hq a g h1
    · intro _ w ws hws; exact head_wake hws
    · intro a h1; exact absurd h1 (hbody a)
    · intro a
      by_cases h : a = r
      · subst h; simp [set_same]
      · simp only [set_other _ _ h]; exact hi.waits a
  | spawn => exact ⟨hi.held, hi.one, hi.settings, hi.queue, hi.nodup, hi.asleep, hi.second, hi.awake, hi.locking, hi.waits⟩
  | taskEnd => exact ⟨hi.held, hi.one, hi.settings, hi.queue, hi.nodup, hi.asleep, hi.second, hi.awake, hi.locking, hi.waits⟩

theorem inv_steps {s s' : State} (hi : Inv s) (h : Steps s s') : Inv s' := by
  induction h with
  | refl => exact hi
  | tail _ hs ih => exact inv_step ih hs

/-! ## The properties -/

/-- **C40** Two bodies of `Construct` or `Call` never run at the same time, whatever requests arrive and whenever they are
cancelled. -/
theorem serialised {m : Nat → Method} {s : State} (h : Steps (State.init m) s) (r r' : Nat) (hr : s.phase r = .body)
    (hr' : s.phase r' = .body) : r = r' :=
  (inv_steps (inv_init m) h).one r r' hr hr'

/-- **C40** All the time while a body runs, the global settings are those of its request. -/
theorem own_settings {m : Nat → Method} {s : State} (h : Steps (State.init m) s) (r : Nat) (hr : s.phase r = .body) :
    s.settings = some r :=
  (inv_steps (inv_init m) h).settings r hr

/-- **C40** The lock is held exactly while a body runs: it is released on every way out, and releasing it never fails. -/
theorem released {m : Nat → Method} {s : State} (h : Steps (State.init m) s) :
    (s.locked = true ↔ ∃ r, s.phase r = .body) ∧
    ∀ r, s.phase r = .body → ∃ s', leave s r = some s' ∧ s'.locked = false ∧ s'.phase r = .ended := by
  have hi := inv_steps (inv_init m) h
  refine ⟨hi.held, fun r hr => ?_⟩
  have hl : s.locked = true := hi.held.2 ⟨r, hr⟩
  exact ⟨_, by simp only [leave, hl, if_true]; rfl, rfl, by simp [set_same]⟩

/-- **C40** Requests get the lock in the order in which they asked for it: whoever enters its body is the first in the
queue, or the queue holds only cancelled requests. -/
theorem in_order {m : Nat → Method} {s s' : State} (h : Steps (State.init m) s) (hs : Step s s') (r : Nat)
    (h0 : s.phase r ≠ .body) (h1 : s'.phase r = .body) :
    (∃ f ws, s.waiters = (r, f) :: ws) ∨ ∀ w ∈ s.waiters, w.2 = .cancelled := by
  have hi := inv_steps (inv_init m) h
  cases hs with
  | @arrive a ha =>
    unfold arrive at h1
    split at h1
    · split at h1
      · rename_i hf
        unfold fast at hf
        simp only [Bool.and_eq_true, Bool.not_eq_true', List.all_eq_true, decide_eq_true_eq] at hf
        exact .inr hf.2
      · by_cases hra : r = a
        · subst hra; simp [set_same] at h1
        · simp only [set_other _ _ hra] at h1; exact absurd h1 h0
    · rename_i hm
      rw [if_neg (by rw [runs_locks _ hm]; simp)] at h1
      by_cases hra : r = a
      · subst hra; simp [set_same] at h1
      · simp only [set_other _ _ hra] at h1; exact absurd h1 h0
  | @resume a ha hw =>
    by_cases hra : r = a
    · subst hra
      cases hq : s.waiters with
      | nil => rw [hq] at hw; cases hw
      | cons w ws =>
        rw [hq] at hw
        rcases List.mem_cons.1 hw with hw | hw
        · exact .inl ⟨_, ws, by rw [← hw]⟩
        · exact absurd rfl (hi.second _ _ hq _ _ hw)
    · simp only [resume, enter, set_other _ _ hra] at h1; exact absurd h1 h0
  | cancel => exact absurd h1 h0
  | @giveUp a f ha =>
    by_cases hra : r = a
    · subst hra; simp [giveUp, set_same] at h1
    · simp only [giveUp, set_other _ _ hra] at h1; exact absurd h1 h0
  | @leave a s' ha hs =>
    unfold leave at hs
    split at hs
    · cases hs
      by_cases hra : r = a
      · subst hra; simp [set_same] at h1
      · simp only [set_other _ _ hra] at h1; exact absurd h1 h0
    · cases hs
  | spawn => exact absurd h1 h0
  | taskEnd => exact absurd h1 h0

/-- **C40** No wake-up is lost: while a request waits, a body is running, or the first in the queue can go on. -/
theorem no_lost_wakeup {m : Nat → Method} {s : State} (h : Steps (State.init m) s) (r : Nat) (hr : s.phase r = .waiting) :
    (∃ b, s.phase b = .body) ∨ ∃ a f ws, s.waiters = (a, f) :: ws ∧ s.phase a = .waiting ∧ f.done = true := by
  have hi := inv_steps (inv_init m) h
  cases hl : s.locked with
  | true => exact .inl (hi.held.1 hl)
  | false =>
    cases hq : s.waiters with
    | nil => rw [hi.queue, hq] at hr; cases hr
    | cons w ws =>
      refine .inr ⟨w.1, w.2, ws, rfl, ?_, hi.awake hl _ _ hq⟩
      rw [hi.queue, hq]
      simp

theorem others_step {m : Nat → Method} {s t : State} (hm : s.method = m)
    (hp : ∀ r, m r = .other → s.phase r = .new ∨ s.phase r = .ended) (hs : Step s t) :
    t.method = m ∧ ∀ r, m r = .other → t.phase r = .new ∨ t.phase r = .ended := by
  have busy : ∀ {a : Nat} {p : Phase}, s.phase a = p → p ≠ .new → p ≠ .ended → ∀ r, m r = .other → r ≠ a := by
    intro a p ha h1 h2 r hr he
    subst he
    rcases hp r hr with h | h <;> rw [ha] at h
    · exact h1 h
    · exact h2 h
  cases hs with
  | @arrive a ha =>
    have key : ∀ r, m r = .other → ((arrive s a).phase r = .new ∨ (arrive s a).phase r = .ended) := by
      intro r hr
      by_cases hra : r = a
      · subst hra
        right
        simp [arrive, hm, hr, Method.locks, Method.runs, set_same]
      · have : (arrive s a).phase r = s.phase r := by
          unfold arrive enter
          split
          · split <;> exact set_other _ _ hra
          · split <;> exact set_other _ _ hra
        rw [this]
        exact hp r hr
    refine ⟨?_, key⟩
    rw [← hm]
    unfold arrive enter
    split
    · split <;> rfl
    · split <;> rfl
  | @resume a ha _ =>
    exact ⟨hm, fun r hr => by simp only [resume, enter, set_other _ _ (busy ha (by simp) (by simp) r hr)]; exact hp r hr⟩
  | cancel _ => exact ⟨hm, hp⟩
  | @giveUp a f ha _ _ =>
    exact ⟨hm, fun r hr => by simp only [giveUp, set_other _ _ (busy ha (by simp) (by simp) r hr)]; exact hp r hr⟩
  | @leave a s' ha hl =>
    unfold leave at hl
    split at hl
    · cases hl
      exact ⟨hm, fun r hr => by simp only [set_other _ _ (busy ha (by simp) (by simp) r hr)]; exact hp r hr⟩
    · cases hl
  | spawn _ => exact ⟨hm, hp⟩
  | taskEnd _ => exact ⟨hm, hp⟩

/-- **C40** The other requests (`Configure`, `GetPluginInfo`) are answered as they arrive, however long the running body
takes: they never wait, and they change neither the lock, nor the queue, nor the settings. -/
theorem others_at_once {m : Nat → Method} {s : State} (h : Steps (State.init m) s) {r : Nat} (hr : m r = .other) :
    s.phase r ≠ .waiting ∧ s.phase r ≠ .body ∧
      (arrive s r).phase r = .ended ∧ (arrive s r).locked = s.locked ∧ (arrive s r).waiters = s.waiters ∧
      (arrive s r).settings = s.settings := by
  have key : s.method = m ∧ ∀ r, m r = .other → s.phase r = .new ∨ s.phase r = .ended := by
    clear hr
    induction h with
    | refl => exact ⟨rfl, fun _ _ => .inl rfl⟩
    | tail _ hs ih => exact others_step ih.1 ih.2 hs
  obtain ⟨hm, hp⟩ := key
  have ha : arrive s r = { s with phase := set s.phase r .ended } := by
    simp [arrive, hm, hr, Method.locks, Method.runs]
  rw [ha]
  refine ⟨?_, ?_, by simp [set_same], rfl, rfl, rfl⟩ <;> intro hc <;> rcases hp r hr with h | h <;> rw [hc] at h <;> cases h

/-- Non-trivial instance: a request that is answered while a body runs. -/
example : let m : Nat → Method := fun r => if r = 0 then .construct else .other
    Steps (State.init m) (arrive (State.init m) 0) ∧ (arrive (State.init m) 0).phase 0 = .body ∧
      (arrive (arrive (State.init m) 0) 1).phase 1 = .ended :=
  ⟨.tail .refl (.arrive rfl), rfl, rfl⟩

/-- **C40** From every state, all requests that have arrived can be served or given up: if bodies end, nobody waits for
ever. -/
theorem can_finish {m : Nat → Method} {s : State} (h : Steps (State.init m) s) :
    ∃ s', Steps s s' ∧ s'.locked = false ∧ s'.waiters = [] ∧ ∀ r, s'.phase r = s.phase r ∨ s'.phase r = .ended := by
  have trans : ∀ {a b c : State}, Steps a b → Steps b c → Steps a c := by
    intro a b c h1 h2
    induction h2 with
    | refl => exact h1
    | tail _ hs ih => exact .tail ih hs
  have key : ∀ (n : Nat) (s : State), s.waiters.length ≤ n → Inv s → s.locked = false →
      ∃ s', Steps s s' ∧ s'.locked = false ∧ s'.waiters = [] ∧ ∀ r, s'.phase r = s.phase r ∨ s'.phase r = .ended := by
    intro n
    induction n with
    | zero =>
      intro s hn hi hl
      exact ⟨s, .refl, hl, List.length_eq_zero_iff.1 (by omega), fun r => .inl rfl⟩
    | succ n ih =>
      intro s hn hi hl
      cases hq : s.waiters with
      | nil => exact ⟨s, .refl, hl, hq, fun r => .inl rfl⟩
      | cons w ws =>
        obtain ⟨a, f⟩ := w
        have ha : s.phase a = .waiting := by rw [hi.queue, hq]; simp
        have hd := hi.awake hl _ _ hq
        have hmem : (a, f) ∈ s.waiters := by rw [hq]; simp
        have hlen : (unwait a s.waiters).length ≤ n := by
          have : (unwait a s.waiters).length < s.waiters.length := by
            rw [hq]
            unfold unwait
            rw [List.filter_cons_of_neg (by simp)]
            exact Nat.lt_succ_of_le (List.length_filter_le _ _)
          omega
        have hwl : ∀ l : List (Nat × Fut), (wakeFirst l).length = l.length := by
          intro l
          have := congrArg List.length (wakeFirst_map l)
          simpa using this
        cases hf : f with
        | pending => rw [hf] at hd; cases hd
        | cancelled =>
          have hs : Step s (giveUp s a) := .giveUp ha hmem hd
          obtain ⟨s', h1, h2, h3, h4⟩ := ih (giveUp s a) (by simp only [giveUp, hl]; simp only [Bool.false_eq_true, if_false, hwl]; exact hlen)
            (inv_step hi hs) hl
          refine ⟨s', trans (.tail .refl hs) h1, h2, h3, fun r => ?_⟩
          rcases h4 r with h5 | h5
          · by_cases hra : r = a
            · subst hra; right; rw [h5]; simp [giveUp, set_same]
            · left; rw [h5]; simp [giveUp, set_other _ _ hra]
          · exact .inr h5
        | woken =>
          rw [hf] at hmem
          have hs : Step s (resume s a) := .resume ha hmem
          have hi1 := inv_step hi hs
          have hb : (resume s a).phase a = .body := by simp [resume, enter, set_same]
          have hs2 : Step (resume s a) { (resume s a) with locked := false, waiters := wakeFirst (resume s a).waiters, phase := set (resume s a).phase a .ended } :=
            .leave hb rfl
          obtain ⟨s', h1, h2, h3, h4⟩ := ih _ (by simp only [resume, enter, hwl]; exact hlen) (inv_step hi1 hs2) rfl
          refine ⟨s', trans (.tail (.tail .refl hs) hs2) h1, h2, h3, fun r => ?_⟩
          rcases h4 r with h5 | h5
          · by_cases hra : r = a
            · subst hra; right; rw [h5]; simp [set_same]
            · left; rw [h5]; simp [resume, enter, set_other _ _ hra]
          · exact .inr h5
  have hi := inv_steps (inv_init m) h
  cases hl : s.locked with
  | false => exact key _ s (Nat.le_refl _) hi hl
  | true =>
    obtain ⟨b, hb⟩ := hi.held.1 hl
    have hs : Step s { s with locked := false, waiters := wakeFirst s.waiters, phase := set s.phase b .ended } :=
      .leave hb (by simp [leave, hl])
    obtain ⟨s', h1, h2, h3, h4⟩ := key _ _ (Nat.le_refl _) (inv_step hi hs) rfl
    refine ⟨s', trans (.tail .refl hs) h1, h2, h3, fun r => ?_⟩
    rcases h4 r with h5 | h5
    · by_cases hra : r = b
      · subst hra; right; rw [h5]; simp [set_same]
      · left; rw [h5]; simp [set_other _ _ hra]
    · exact .inr h5

/-- A state with one request in its body, one waiting and one that was cancelled in between. -/
theorem contended : ∃ s, Steps (State.init fun r => if r = 0 then .construct else .call) s ∧
    s.phase 0 = .body ∧ s.phase 1 = .waiting ∧ s.phase 2 = .waiting ∧ s.settings = some 0 ∧
    s.waiters = [(1, .cancelled), (2, .pending)] := by
  have a1 : Steps (State.init fun r => if r = 0 then .construct else .call) _ := .tail .refl (.arrive (r := 0) rfl)
  have a2 := Steps.tail a1 (.arrive (r := 1) rfl)
  have a3 := Steps.tail a2 (.arrive (r := 2) rfl)
  have a4 := Steps.tail a3 (.cancel (r := 1) rfl)
  exact ⟨_, a4, rfl, rfl, rfl, rfl, rfl⟩

/-- **Not so** for tasks a body leaves behind: they go on under the settings of the next request. -/
theorem leftover_sees_other_settings : ∃ s, Steps (State.init fun _ => .construct) s ∧
    0 ∈ s.tasks ∧ s.phase 0 = .ended ∧ s.phase 1 = .body ∧ s.settings = some 1 := by
  have a1 : Steps (State.init fun _ => .construct) _ := .tail .refl (.arrive (r := 0) rfl)
  have a2 := Steps.tail a1 (.spawn (r := 0) rfl)
  have a3 := Steps.tail a2 (.leave (r := 0) rfl rfl)
  have a4 := Steps.tail a3 (.arrive (r := 1) rfl)
  exact ⟨_, a4, by decide, rfl, rfl, rfl⟩

end Pulumi.Server
