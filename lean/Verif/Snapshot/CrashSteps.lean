import Verif.Snapshot.Crash
/-! Each event keeps the invariant. -/
namespace Pulumi.Snapshot

theorem inv_save {E : Env} {s : Sys} (h : Inv s) (b : Bool) :
    Inv { s with mgr := { s.mgr with hasElidedWrites := false }, disk := (saveSnapshot E s.heap s.mgr s.disk b).1 } where
  disk p hp := save_accounts b (h.wit p hp) (h.disk p hp)
  wit p hp := h.wit p hp
  entries a ha := entry_save b (h.entries a ha)
  nodup := h.nodup
  notBase := h.notBase

theorem inv_heap {s : Sys} (h : Inv s) (h' : Heap)
    (heq : ∀ q, (h' q).urn = (s.heap q).urn ∧ (h' q).id = (s.heap q).id ∧ (h' q).external = (s.heap q).external) :
    Inv { s with heap := h' } where
  disk := h.disk
  wit p hp := wit_heap heq (h.wit p hp)
  entries a ha := entry_heap heq (h.entries a ha)
  nodup := h.nodup
  notBase := h.notBase

/-- adding a step that only just begins -/
theorem wit_append {h : Heap} {m : Manager} {active : List (Step × Phase)} {gone : List Ptr} {p : Phys} {st : Step}
    (hf : ∀ n, newOf st = some n → n ∉ m.operations.map (·.1)) (hw : Wit h m active gone p) :
    Wit h m (active ++ [(st, .begun)]) gone p := by
  rcases hw with hw | hw | ⟨n, hop, hc, hu, ha⟩ | hw
  · exact Or.inl hw
  · exact Or.inr (Or.inl hw)
  · refine Or.inr (Or.inr (Or.inl ⟨n, hop, hc, hu, ?_⟩))
    intro a hm o b he
    rcases List.mem_append.mp hm with hm | hm
    · exact ha a hm o b he
    · simp only [List.mem_singleton] at hm
      subst hm
      simp only at he
      subst he
      exact absurd (List.mem_map.mpr ⟨_, hop, rfl⟩) (hf n rfl)
  · exact Or.inr (Or.inr (Or.inr hw))

theorem wit_pending {h : Heap} {m : Manager} {active : List (Step × Phase)} {gone : List Ptr} {p : Phys}
    (q : Ptr) (t : OpType) (hw : Wit h m active gone p) : Wit h (m.markPending q t) active gone p := by
  rcases hw with hw | hw | ⟨n, hop, hc, hu, ha⟩ | hw
  · exact Or.inl hw
  · exact Or.inr (Or.inl hw)
  · exact Or.inr (Or.inr (Or.inl ⟨n, by simp [Manager.markPending, hop], hc, hu, ha⟩))
  · exact Or.inr (Or.inr (Or.inr hw))

theorem entry_pending {h : Heap} {m : Manager} {gone : List Ptr} {d : Snap} {st : Step} {ph : Phase} {q : Ptr}
    {t : OpType} (hq : t = .creating → ∀ n, newOf st = some n → n ≠ q) (hen : EntryOk h m gone d st ph) :
    EntryOk h (m.markPending q t) gone d st ph := by
  refine ⟨hen.1, ?_⟩
  have h2 := hen.2
  have hno : ∀ n, newOf st = some n → (n, OpType.creating) ∉ m.operations →
      (n, OpType.creating) ∉ (m.markPending q t).operations := by
    intro n hn hni
    simp only [Manager.markPending, List.mem_append, List.mem_singleton, not_or]
    refine ⟨hni, fun he => ?_⟩
    simp only [Prod.mk.injEq] at he
    exact hq he.2.symm n hn he.1
  cases st with
  | same o n sk => cases sk <;> exact h2
  | create o n pd =>
    refine ⟨?_, h2.2⟩
    simp only [Manager.markPending, List.mem_append]
    exact Or.inl h2.1
  | update o n => exact ⟨h2.1, h2.2.1, h2.2.2.1, h2.2.2.2.1, hno n rfl h2.2.2.2.2⟩
  | delete o r => exact h2
  | read o n r => exact ⟨h2.1, hno n rfl h2.2.1, h2.2.2⟩
  | «import» o n => exact hno n rfl h2
  | _ => exact h2

theorem fresh_active {s : Sys} {n : Ptr} (hf : Fresh s n) : ∀ a ∈ s.active, newOf a.1 ≠ some n := by
  intro a ha he
  exact hf.active (List.mem_filterMap.mpr ⟨a, ha, he⟩)

theorem goodStep_fresh {s : Sys} {st : Step} (hg : GoodStep s st) : ∀ n, newOf st = some n → Fresh s n := by
  intro n hn
  cases st with
  | same o n' sk => cases sk <;> (simp only [newOf, Option.some.injEq] at hn; subst hn; exact hg.1)
  | create o n' pd => simp only [newOf, Option.some.injEq] at hn; subst hn; exact hg.1
  | update o n' => simp only [newOf, Option.some.injEq] at hn; subst hn; exact hg.1
  | read o n' r => simp only [newOf, Option.some.injEq] at hn; subst hn; exact hg
  | «import» o n' => simp only [newOf, Option.some.injEq] at hn; subst hn; exact hg
  | _ => simp [newOf] at hn

theorem nodup_append {s : Sys} {st : Step} (ph : Phase) (h : Inv s) (hg : GoodStep s st) :
    ((s.active ++ [(st, ph)]).filterMap (fun a => newOf a.1)).Nodup := by
  rw [List.filterMap_append, List.nodup_append]
  refine ⟨h.nodup, ?_, ?_⟩
  · simp only [List.filterMap_cons, List.filterMap_nil]
    split <;> simp
  · intro a ha b hb hab
    subst hab
    simp only [List.filterMap_cons, List.filterMap_nil] at hb
    split at hb
    · simp at hb
    · rename_i n hn
      simp only [List.mem_singleton] at hb
      subst hb
      exact (goodStep_fresh hg _ hn).active ha

theorem inv_begin {E : Env} {s s' : Sys} {st : Step} {b : Bool} (h : Inv s) (hal : Careful s (.begin st b))
    (hn : next E s (.begin st b) = some s') : Inv s' := by
  have hg : GoodStep s st := hal.1
  have hfresh := goodStep_fresh hg
  simp only [next] at hn
  cases hb : begins st with
  | none =>
    rw [hb] at hn
    simp only [Option.some.injEq] at hn
    subst hn
    refine ⟨h.disk, fun p hp => wit_append (fun n hn => (hfresh n hn).operations) (h.wit p hp), ?_,
      nodup_append _ h hg, h.notBase⟩
    intro a ha
    rcases List.mem_append.mp ha with ha | ha
    · exact h.entries a ha
    · simp only [List.mem_singleton] at ha
      subst ha
      refine ⟨fun n hn => ⟨(hfresh n hn).resources, (hfresh n hn).base⟩, ?_⟩
      cases st with
      | same o n sk =>
        cases sk with
        | false => exact ⟨hg.2.1, hg.2.2, by simp⟩
        | true => exact hg.2
      | create => simp [begins] at hb
      | update => simp [begins] at hb
      | delete => simp [begins] at hb
      | read => simp [begins] at hb
      | «import» => simp [begins] at hb
      | _ => trivial
  | some pt =>
    obtain ⟨q, t⟩ := pt
    rw [hb] at hn
    simp only [service, Option.some.injEq] at hn
    -- the state with the operation recorded, before the save
    have hq : t = .creating → ∀ a ∈ s.active, ∀ n, newOf a.1 = some n → n ≠ q := by
      intro ht a ha n hna he
      subst he
      cases st with
      | create o n' pd =>
        simp only [begins, Option.some.injEq, Prod.mk.injEq] at hb
        rw [← hb.1] at hna
        exact fresh_active (hfresh _ rfl) a ha hna
      | _ => simp [begins] at hb <;> (rw [← hb.2] at ht; exact absurd ht (by simp))
    have h1 : Inv { s with mgr := s.mgr.markPending q t } := by
      refine ⟨h.disk, fun p hp => wit_pending q t (h.wit p hp), ?_, h.nodup, ?_⟩
      · exact fun a ha => entry_pending (fun ht => hq ht a ha) (h.entries a ha)
      · intro n hn
        simp only [Manager.markPending, List.mem_append, List.mem_singleton, Prod.mk.injEq] at hn
        rcases hn with hn | ⟨rfl, ht⟩
        · exact h.notBase n hn
        · cases st with
          | create o n' pd =>
            simp only [begins, Option.some.injEq, Prod.mk.injEq] at hb
            rw [← hb.1]
            exact (hfresh _ rfl).base
          | _ => simp [begins] at hb <;> (rw [← hb.2] at ht; exact absurd ht (by simp))
    have h2 := inv_save (E := E) h1 b
    -- is the step performed?
    by_cases her : (saveSnapshot E s.heap (s.mgr.markPending q t) s.disk b).2 = true
    · simp only [her, if_true] at hn
      subst hn
      exact h2
    · simp only [her, Bool.false_eq_true, if_false] at hn
      subst hn
      simp only [Bool.not_eq_true] at her
      have hsaved := saveSnapshot_ok E _ _ _ _ her
      have hops : ∀ n, newOf st = some n → n ∉ s.mgr.operations.map (·.1) := fun n hn => (hfresh n hn).operations
      refine ⟨h2.disk, ?_, ?_, nodup_append _ h hg, h2.notBase⟩
      · intro p hp
        exact wit_pending (m := { s.mgr with hasElidedWrites := false }) q t (wit_append hops (h.wit p hp))
      · intro a ha
        rcases List.mem_append.mp ha with ha | ha
        · exact h2.entries a ha
        · simp only [List.mem_singleton] at ha
          subst ha
          refine ⟨fun n hn => ⟨(hfresh n hn).resources, (hfresh n hn).base⟩, ?_⟩
          have hno : ∀ n, newOf st = some n → t ≠ .creating →
              (n, OpType.creating) ∉ (s.mgr.markPending q t).operations := by
            intro n hn ht
            simp only [Manager.markPending, List.mem_append, List.mem_singleton, not_or, Prod.mk.injEq, not_and]
            refine ⟨fun hm => hops n hn (List.mem_map.mpr ⟨_, hm, rfl⟩), fun _ he => ht he.symm⟩
          cases st with
          | same => simp [begins] at hb
          | replace => simp [begins] at hb
          | refresh => simp [begins] at hb
          | removePendingReplace => simp [begins] at hb
          | create o n pd =>
            simp only [begins, Option.some.injEq, Prod.mk.injEq] at hb
            obtain ⟨rfl, rfl⟩ := hb
            have hmem : (n, OpType.creating) ∈ (s.mgr.markPending n .creating).operations := by
              simp [Manager.markPending]
            have hnc : n ∉ (s.mgr.markPending n .creating).completeOps := (hfresh n rfl).complete
            exact ⟨hmem, hnc, hg.2, ⟨_, snap_op hsaved hmem hnc, rfl, rfl⟩⟩
          | update o n =>
            simp only [begins, Option.some.injEq, Prod.mk.injEq] at hb
            exact ⟨hg.2.1, hg.2.2.1, hg.2.2.2, by simp, hno n rfl (by rw [← hb.2]; simp)⟩
          | delete o r => exact ⟨hg, by simp⟩
          | read o n r =>
            simp only [begins, Option.some.injEq, Prod.mk.injEq] at hb
            exact ⟨hal.2.1, hno n rfl (by rw [← hb.2]; simp), by simp⟩
          | «import» o n =>
            simp only [begins, Option.some.injEq, Prod.mk.injEq] at hb
            exact hno n rfl (by rw [← hb.2]; simp)

/-- What the provider may do. -/
theorem act_cases {h : Heap} {world w : List Phys} {gone g : List Ptr} {st : Step} {o : Outcome}
    (ha : act h world gone st o = some (w, g)) :
    (∃ q n b id, st = .create q n b ∧ (o = .created id ∨ o = .createdUnknown id) ∧ w = ⟨(h n).urn, id⟩ :: world ∧
      g = gone) ∨
    (w = world ∧ g = gone ∧ (∀ old r, st = .delete old r → o = .ok → (h old).external = true) ∧
      (∀ old n, st = .read (some old) n false → o = .ok → (h old).external = true)) ∨
    (∃ old, w = world.filter (fun p => p.id ≠ (h old).id) ∧ g = old :: gone ∧ o = .ok ∧
      ((∃ r, st = .delete old r) ∨ ∃ n, st = .read (some old) n false)) := by
  unfold act at ha
  split at ha
  · split at ha
    · simp only [Option.some.injEq, Prod.mk.injEq] at ha
      exact Or.inl ⟨_, _, _, _, rfl, Or.inl rfl, ha.1.symm, ha.2.symm⟩
    · exact absurd ha (by simp)
  · split at ha
    · simp only [Option.some.injEq, Prod.mk.injEq] at ha
      exact Or.inl ⟨_, _, _, _, rfl, Or.inr rfl, ha.1.symm, ha.2.symm⟩
    · exact absurd ha (by simp)
  · split at ha
    · exact absurd ha (by simp)
    · simp only [Option.some.injEq, Prod.mk.injEq] at ha
      exact Or.inr (Or.inl ⟨ha.1.symm, ha.2.symm, by simp, by simp⟩)
  · simp only [Option.some.injEq, Prod.mk.injEq] at ha
    exact Or.inr (Or.inl ⟨ha.1.symm, ha.2.symm, by simp, by simp⟩)
  · exact absurd ha (by simp)
  · split at ha
    · exact absurd ha (by simp)
    · split at ha
      · rename_i hext
        simp only [Option.some.injEq, Prod.mk.injEq] at ha
        refine Or.inr (Or.inl ⟨ha.1.symm, ha.2.symm, ?_, by simp⟩)
        intro old r he _
        simp only [Step.delete.injEq] at he
        rw [← he.1]; exact hext
      · simp only [Option.some.injEq, Prod.mk.injEq] at ha
        exact Or.inr (Or.inr ⟨_, ha.1.symm, ha.2.symm, rfl, Or.inl ⟨_, rfl⟩⟩)
  · simp only [Option.some.injEq, Prod.mk.injEq] at ha
    exact Or.inr (Or.inl ⟨ha.1.symm, ha.2.symm, by simp, by simp⟩)
  · exact absurd ha (by simp)
  · split at ha
    · rename_i hext
      simp only [Option.some.injEq, Prod.mk.injEq] at ha
      refine Or.inr (Or.inl ⟨ha.1.symm, ha.2.symm, by simp, ?_⟩)
      intro old r he _
      simp only [Step.read.injEq, Option.some.injEq] at he
      rw [← he.1]; exact hext
    · simp only [Option.some.injEq, Prod.mk.injEq] at ha
      exact Or.inr (Or.inr ⟨_, ha.1.symm, ha.2.symm, rfl, Or.inr ⟨_, rfl⟩⟩)
  all_goals first
    | simp only [reduceCtorEq] at ha
    | (simp only [Option.some.injEq, Prod.mk.injEq] at ha
       refine Or.inr (Or.inl ⟨ha.1.symm, ha.2.symm, ?_, ?_⟩)
       · first
         | (intros; simp_all)
         | simp
       · first
         | (intros; simp_all)
         | simp)

theorem wit_acted {h : Heap} {m : Manager} {active : List (Step × Phase)} {gone : List Ptr} {p : Phys} {i : Nat}
    {st : Step} (ph : Phase) (hi : active[i]? = some (st, .begun)) (hw : Wit h m active gone p) :
    Wit h m (active.set i (st, ph)) gone p := by
  rcases hw with hw | hw | ⟨n, hop, hc, hu, ha⟩ | hw
  · exact Or.inl hw
  · exact Or.inr (Or.inl hw)
  · refine Or.inr (Or.inr (Or.inl ⟨n, hop, hc, hu, ?_⟩))
    intro a hm q b he
    rcases mem_set hm with rfl | hm
    · have := ha (st, .begun) (List.mem_of_getElem? hi) q b he
      simp at this
    · exact ha a hm q b he
  · exact Or.inr (Or.inr (Or.inr hw))

theorem entry_gone {h : Heap} {m : Manager} {gone : List Ptr} {d : Snap} {st : Step} {ph : Phase} (q : Ptr)
    (hen : EntryOk h m gone d st ph) : EntryOk h m (q :: gone) d st ph := by
  refine ⟨hen.1, ?_⟩
  have h2 := hen.2
  cases st with
  | same o n sk => cases sk <;> exact h2
  | delete o r =>
    refine ⟨h2.1, fun hp => ?_⟩
    rcases h2.2 hp with h | h
    · exact Or.inl h
    · exact Or.inr (List.mem_cons_of_mem _ h)
  | read o n r =>
    refine ⟨h2.1, h2.2.1, fun o' ho hp => ?_⟩
    rcases h2.2.2 o' ho hp with h | h
    · exact Or.inl h
    · exact Or.inr (List.mem_cons_of_mem _ h)
  | _ => exact h2

/-- the entry of a step the provider has acted for -/
theorem entry_acted {h : Heap} {m : Manager} {gone g : List Ptr} {d : Snap} {st : Step} {o : Outcome}
    (hdel : ∀ old r, st = .delete old r → o = .ok → (h old).external = true ∨ old ∈ g)
    (hread : ∀ old n, st = .read (some old) n false → o = .ok → (h old).external = true ∨ old ∈ g)
    (hen : EntryOk h m gone d st .begun) : EntryOk h m g d st (.acted o) := by
  refine ⟨hen.1, ?_⟩
  have h2 := hen.2
  cases st with
  | same o n sk =>
    cases sk with
    | false => exact ⟨h2.1, h2.2.1, by simp⟩
    | true => exact h2
  | create q n b => exact h2
  | update q n => exact ⟨h2.1, h2.2.1, h2.2.2.1, by simp, h2.2.2.2.2⟩
  | delete q r =>
    refine ⟨h2.1, fun hp => hdel q r rfl ?_⟩
    simpa using hp
  | read q n r =>
    refine ⟨h2.1, h2.2.1, fun o' ho hp => ?_⟩
    have hr : r = false := h2.1
    subst hr ho
    exact hread o' n rfl (by simpa using hp)
  | _ => exact h2

theorem inv_act {E : Env} {s s' : Sys} {i : Nat} {o : Outcome} (h : Inv s) (hal : Careful s (.act i o))
    (hn : next E s (.act i o) = some s') : Inv s' := by
  simp only [next] at hn
  split at hn
  · rename_i st hi
    split at hn
    · rename_i w g hact
      simp only [Option.some.injEq] at hn
      subst hn
      have hmem : (st, Phase.begun) ∈ s.active := List.mem_of_getElem? hi
      have hnd : ((s.active.set i (st, .acted o)).filterMap (fun a => newOf a.1)).Nodup := by
        rw [filterMap_set (b := (st, Phase.acted o)) (fun a => newOf a.1) hi rfl]; exact h.nodup
      rcases act_cases hact with ⟨q, n, b, id, rfl, ho, hw, hg⟩ | ⟨hw, hg, hdel, hread⟩ | ⟨old, hw, hg, ho, hst⟩
      · -- a resource has been created
        have ho : o = .created id := by
          rcases ho with ho | ho
          · exact ho
          · subst ho; exact absurd hal.2.2.1 (by simp [NoUnknownCreate])
        subst hw hg ho
        have hen := (h.entries _ hmem)
        refine ⟨?_, ?_, ?_, hnd, h.notBase⟩
        · intro p hp
          rcases List.mem_cons.mp hp with rfl | hp
          · have ⟨o, ho, h1, h2⟩ := hen.2.2.2.2
            exact Or.inr ⟨o, ho, h1, h2⟩
          · exact h.disk p hp
        · intro p hp
          rcases List.mem_cons.mp hp with rfl | hp
          · refine Or.inr (Or.inr (Or.inl ⟨n, hen.2.1, hen.2.2.1, rfl, ?_⟩))
            intro a ha q' b' he
            rcases mem_set_index ha with rfl | ⟨j, hj, hja⟩
            · exact Or.inl rfl
            · exact absurd (nodup_index h.nodup hja hi (by rw [he]; rfl) rfl) hj
          · exact wit_acted _ hi (h.wit p hp)
        · intro a ha
          rcases mem_set ha with rfl | ha
          · exact entry_acted (by simp) (by simp) hen
          · exact h.entries a ha
      · subst hw hg
        refine ⟨h.disk, fun p hp => wit_acted _ hi (h.wit p hp), ?_, hnd, h.notBase⟩
        intro a ha
        rcases mem_set ha with rfl | ha
        · exact entry_acted (fun o r h1 h2 => Or.inl (hdel o r h1 h2))
            (fun o n h1 h2 => Or.inl (hread o n h1 h2)) (h.entries _ hmem)
        · exact h.entries a ha
      · subst hw hg
        refine ⟨fun p hp => h.disk p (List.mem_filter.mp hp).1, ?_, ?_, hnd, h.notBase⟩
        · intro p hp
          have ⟨hp1, hp2⟩ := List.mem_filter.mp hp
          have hw := wit_acted (.acted o) hi (h.wit p hp1)
          rcases hw with hw | ⟨q, h1, h2, h3, h4⟩ | hw | hw
          · exact Or.inl hw
          · refine Or.inr (Or.inl ⟨q, h1, h2, ?_, h4⟩)
            simp only [List.mem_cons, not_or]
            refine ⟨fun he => ?_, h3⟩
            subst he
            simp only [decide_eq_true_eq] at hp2
            exact hp2 h4.2.symm
          · exact Or.inr (Or.inr (Or.inl hw))
          · exact Or.inr (Or.inr (Or.inr hw))
        · intro a ha
          rcases mem_set ha with rfl | ha
          · refine entry_acted ?_ ?_ (h.entries _ hmem)
            · intro old' r h1 _
              rcases hst with ⟨r', h2⟩ | ⟨n, h2⟩
              · rw [h2] at h1
                simp only [Step.delete.injEq] at h1
                exact Or.inr (by simp [h1.1])
              · rw [h2] at h1; exact absurd h1 (by simp)
            · intro old' r h1 _
              rcases hst with ⟨r', h2⟩ | ⟨n, h2⟩
              · rw [h2] at h1; exact absurd h1 (by simp)
              · rw [h2] at h1
                simp only [Step.read.injEq, Option.some.injEq] at h1
                exact Or.inr (by simp [h1.1])
          · exact entry_gone _ (h.entries a ha)
    · exact absurd hn (by simp)
  · exact absurd hn (by simp)

/-- What `Apply` may change. -/
theorem apply_heap (h : Heap) (st : Step) (o : Outcome) (outs rid : String) (q : Ptr) :
    ((apply h st o outs rid).1 q).urn = (h q).urn ∧ ((apply h st o outs rid).1 q).external = (h q).external ∧
      (newOf st ≠ some q → ((apply h st o outs rid).1 q).id = (h q).id) := by
  unfold apply
  repeat' split
  all_goals
    (simp only [newOf, Heap.set]
     (repeat' split) <;> simp_all)

/-- A same or update step leaves the new state with the ID of the old one. -/
theorem apply_keeps_id (h : Heap) (o : Outcome) (outs rid : String) {old new : Ptr} (hne : old ≠ new) :
    (∀ sk, ((apply h (.same old new sk) o outs rid).1 new).id = ((apply h (.same old new sk) o outs rid).1 old).id) ∧
    ((apply h (.update old new) o outs rid).1 new).id = ((apply h (.update old new) o outs rid).1 old).id := by
  constructor
  · intro sk
    simp [apply, Heap.set, hne]
  · unfold apply
    cases o <;> simp [Heap.set, hne]

theorem apply_created (h : Heap) (id outs rid : String) (old : Option Ptr) (new : Ptr) (pd : Bool) :
    (apply h (.create old new pd) (.created id) outs rid).2 = true ∧
    ((apply h (.create old new pd) (.created id) outs rid).1 new).id = id := by
  unfold apply
  cases old with
  | none => simp [Heap.set]
  | some q =>
    cases pd
    · simp [Heap.set]
    · by_cases hq : new = q
      · subst hq; simp [Heap.set]
      · simp [Heap.set, hq]

theorem apply_ok (h : Heap) (st : Step) (o : Outcome) (outs rid : String)
    (hst : (∃ old r, st = .delete old r) ∨ ∃ old n r, st = .read old n r)
    (hok : (apply h st o outs rid).2 = true) : o = .ok := by
  rcases hst with ⟨old, r, rfl⟩ | ⟨old, n, r, rfl⟩ <;> cases o <;> simp_all [apply]

theorem wit_ret {h : Heap} {m : Manager} {active : List (Step × Phase)} {gone : List Ptr} {d : Snap} {p : Phys}
    {i : Nat} {st : Step} {o : Outcome} (outs rid : String) (hi : active[i]? = some (st, .acted o))
    (hnd : (active.filterMap (fun a => newOf a.1)).Nodup) (hen : EntryOk h m gone d st (.acted o))
    (hw : Wit h m active gone p) :
    Wit (apply h st o outs rid).1 m (active.set i (st, .applied (apply h st o outs rid).2)) gone p := by
  have hap := apply_heap h st o outs rid
  rcases hw with ⟨q, hq, h1, h2⟩ | ⟨q, hq, hd, hg, h1, h2⟩ | ⟨n, hop, hc, hu, ha⟩ | ⟨q, hq, h1, h2⟩
  · refine Or.inl ⟨q, hq, (hap q).2.1.trans h1, ?_⟩
    rw [(hap q).2.2 (fun he => (hen.1 q he).1 hq)]; exact h2
  · refine Or.inr (Or.inl ⟨q, hq, hd, hg, (hap q).2.1.trans h1, ?_⟩)
    rw [(hap q).2.2 (fun he => (hen.1 q he).2 hq)]; exact h2
  · refine Or.inr (Or.inr (Or.inl ⟨n, hop, hc, (hap n).1.trans hu, ?_⟩))
    intro a hm q b he
    rcases mem_set_index hm with rfl | ⟨j, hj, hja⟩
    · simp only at he
      subst he
      have := ha _ (List.mem_of_getElem? hi) q b rfl
      simp only [Phase.acted.injEq, reduceCtorEq, false_and, or_false] at this
      subst this
      have h3 := apply_created h p.id outs rid q n b
      refine Or.inr ⟨by rw [h3.1], (hap n).2.1.trans hen.2.2.2.1, h3.2⟩
    · have hne : newOf st ≠ some n := fun hn => hj (nodup_index hnd hja hi (by rw [he]; rfl) hn)
      rcases ha a (List.mem_of_getElem? hja) q b he with h1 | ⟨h1, h2, h3⟩
      · exact Or.inl h1
      · exact Or.inr ⟨h1, (hap n).2.1.trans h2, ((hap n).2.2 hne).trans h3⟩
  · exact Or.inr (Or.inr (Or.inr ⟨q, hq, h1, (hap q.1).1.trans h2⟩))

/-- the entries of the other steps -/
theorem entry_ret_other {h : Heap} {m : Manager} {gone : List Ptr} {d : Snap} {st : Step} {o : Outcome}
    (outs rid : String) (hen : EntryOk h m gone d st (.acted o)) {st' : Step} {ph' : Phase}
    (hne : ∀ n, newOf st' = some n → newOf st ≠ some n) (hen' : EntryOk h m gone d st' ph') :
    EntryOk (apply h st o outs rid).1 m gone d st' ph' := by
  have hap := apply_heap h st o outs rid
  refine ⟨hen'.1, ?_⟩
  have h2 := hen'.2
  cases st' with
  | same q n sk =>
    cases sk with
    | true => exact h2
    | false =>
      refine ⟨h2.1, by rw [(hap q).2.1, (hap n).2.1]; exact h2.2.1, fun ok hp => ?_⟩
      rw [(hap n).2.2 (hne n rfl), (hap q).2.2 (fun he => (hen.1 q he).2 h2.1)]
      exact h2.2.2 ok hp
  | create q n b =>
    refine ⟨h2.1, h2.2.1, (hap n).2.1.trans h2.2.2.1, ?_⟩
    rw [(hap n).1]; exact h2.2.2.2
  | update q n =>
    refine ⟨h2.1, (hap q).2.1.trans h2.2.1, (hap n).2.1.trans h2.2.2.1, fun ok hp => ?_, h2.2.2.2.2⟩
    rw [(hap n).2.2 (hne n rfl), (hap q).2.2 (fun he => (hen.1 q he).2 h2.1)]
    exact h2.2.2.2.1 ok hp
  | delete q r =>
    refine ⟨h2.1, fun hp => ?_⟩
    rw [(hap q).2.1]; exact h2.2 hp
  | read q n r =>
    refine ⟨h2.1, h2.2.1, fun o' ho hp => ?_⟩
    rw [(hap o').2.1]; exact h2.2.2 o' ho hp
  | _ => exact h2

theorem entry_ret_self {h : Heap} {m : Manager} {gone : List Ptr} {d : Snap} {st : Step} {o : Outcome}
    (outs rid : String) (hen : EntryOk h m gone d st (.acted o)) :
    EntryOk (apply h st o outs rid).1 m gone d st (.applied (apply h st o outs rid).2) := by
  have hap := apply_heap h st o outs rid
  refine ⟨hen.1, ?_⟩
  have h2 := hen.2
  cases st with
  | same q n sk =>
    cases sk with
    | true => exact h2
    | false =>
      refine ⟨h2.1, by rw [(hap q).2.1, (hap n).2.1]; exact h2.2.1, fun ok hp => ?_⟩
      exact (apply_keeps_id h o outs rid (fun he : q = n => (hen.1 n rfl).2 (by rw [← he]; exact h2.1))).1 false
  | create q n b => exact ⟨h2.1, h2.2.1, (hap n).2.1.trans h2.2.2.1, by rw [(hap n).1]; exact h2.2.2.2⟩
  | update q n =>
    refine ⟨h2.1, (hap q).2.1.trans h2.2.1, (hap n).2.1.trans h2.2.2.1, fun ok hp => ?_, h2.2.2.2.2⟩
    exact (apply_keeps_id h o outs rid (fun he : q = n => (hen.1 n rfl).2 (by rw [← he]; exact h2.1))).2
  | delete q r =>
    refine ⟨h2.1, fun hp => ?_⟩
    rw [(hap q).2.1]
    simp only [reduceCtorEq, Phase.applied.injEq, false_or] at hp
    refine h2.2 (Or.inl ?_)
    rw [apply_ok h _ o outs rid (Or.inl ⟨_, _, rfl⟩) hp]
  | read q n r =>
    refine ⟨h2.1, h2.2.1, fun o' ho hp => ?_⟩
    rw [(hap o').2.1]
    simp only [reduceCtorEq, Phase.applied.injEq, false_or] at hp
    refine h2.2.2 o' ho (Or.inl ?_)
    rw [apply_ok h _ o outs rid (Or.inr ⟨_, _, _, rfl⟩) hp]
  | _ => exact h2

theorem inv_ret {E : Env} {s s' : Sys} {i : Nat} {outs rid : String} (h : Inv s)
    (hn : next E s (.ret i outs rid) = some s') : Inv s' := by
  simp only [next] at hn
  split at hn
  · rename_i st o hi
    simp only [Option.some.injEq] at hn
    subst hn
    have hen := h.entries _ (List.mem_of_getElem? hi)
    refine ⟨h.disk, fun p hp => wit_ret outs rid hi h.nodup hen (h.wit p hp), ?_, ?_, h.notBase⟩
    · intro a ha
      rcases mem_set_index ha with rfl | ⟨j, hj, hja⟩
      · exact entry_ret_self outs rid hen
      · exact entry_ret_other outs rid hen (fun n h1 h2 => hj (nodup_index h.nodup hja hi h1 h2))
          (h.entries a (List.mem_of_getElem? hja))
    · rw [filterMap_set (b := (st, Phase.applied (apply s.heap st o outs rid).2)) (fun a => newOf a.1) hi rfl]
      exact h.nodup
  · exact absurd hn (by simp)

theorem inv_abandon {s : Sys} (i : Nat) (h : Inv s) : Inv { s with active := s.active.eraseIdx i } where
  disk := h.disk
  wit p hp := by
    rcases h.wit p hp with hw | hw | ⟨n, hop, hc, hu, ha⟩ | hw
    · exact Or.inl hw
    · exact Or.inr (Or.inl hw)
    · exact Or.inr (Or.inr (Or.inl ⟨n, hop, hc, hu, fun a hm => ha a (List.mem_of_mem_eraseIdx hm)⟩))
    · exact Or.inr (Or.inr (Or.inr hw))
  entries a ha := h.entries a (List.mem_of_mem_eraseIdx ha)
  nodup := nodup_eraseIdx _ i h.nodup
  notBase := h.notBase

/-- What the end of a step does to the manager. -/
structure EndOk (h : Heap) (m : Manager) (gone : List Ptr) (st : Step) (ok : Bool) (m' : Manager) : Prop where
  base : m'.base = m.base
  baseOps : m'.baseOps = m.baseOps
  operations : m'.operations = m.operations
  res : ∀ q ∈ m.resources, q ∈ m'.resources
  resNew : ∀ q ∈ m'.resources, q ∈ m.resources ∨ newOf st = some q
  done : ∀ q ∈ m'.dones, q ∈ m.dones ∨ q ∉ m.base ∨ (h q).external = true ∨ q ∈ gone ∨
    ∃ n ∈ m'.resources, (h n).id = (h q).id ∧ (h n).external = (h q).external
  comp : ∀ q ∈ m'.completeOps, q ∈ m.completeOps ∨ q ∈ m.base ∨
    (newOf st = some q ∧ ((q, OpType.creating) ∉ m.operations ∨
      (∃ o b, st = .create o q b ∧ (ok = true → q ∈ m'.resources))))

theorem ends_ok {s : Sys} {d : Snap} {st : Step} {ok : Bool} (hen : EntryOk s.heap s.mgr s.gone d st (.applied ok))
    (hdr : DropsDeleted s st ok) : EndOk s.heap s.mgr s.gone st ok (ends s.heap s.mgr st ok).1 := by
  have h2 := hen.2
  cases st with
  | same q n sk =>
    cases sk with
    | true =>
      simp only [ends, endSame, if_true]
      refine ⟨rfl, rfl, rfl, fun _ h => h, fun _ h => Or.inl h, ?_, fun _ h => Or.inl h⟩
      intro x hx
      rcases List.mem_cons.mp hx with rfl | hx
      · exact Or.inr (Or.inl h2)
      · exact Or.inl hx
    | false =>
      simp only [ends, endSame, Bool.false_eq_true, if_false]
      refine ⟨rfl, rfl, rfl, fun _ h => List.mem_append_left _ h, ?_, ?_, fun _ h => Or.inl h⟩
      · intro x hx
        rcases List.mem_append.mp hx with hx | hx
        · exact Or.inl hx
        · simp only [List.mem_singleton] at hx; subst hx; exact Or.inr rfl
      · intro x hx
        rcases List.mem_cons.mp hx with rfl | hx
        · exact Or.inr (Or.inr (Or.inr (Or.inr ⟨n, by simp [Manager.markNew], h2.2.2 ok rfl, h2.2.1.symm⟩)))
        · exact Or.inl hx
  | create q n b =>
    simp only [ends, endCreate]
    cases ok with
    | false =>
      simp only [Bool.false_eq_true, if_false]
      refine ⟨rfl, rfl, rfl, fun _ h => h, fun _ h => Or.inl h, fun _ h => Or.inl h, ?_⟩
      intro x hx
      rcases List.mem_cons.mp hx with rfl | hx
      · exact Or.inr (Or.inr ⟨rfl, Or.inr ⟨_, _, rfl, by simp⟩⟩)
      · exact Or.inl hx
    | true =>
      simp only [if_true]
      have key : ∀ m' : Manager, m'.base = s.mgr.base → m'.baseOps = s.mgr.baseOps →
          m'.operations = s.mgr.operations → m'.resources = s.mgr.resources ++ [n] →
          m'.completeOps = n :: s.mgr.completeOps →
          (∀ x ∈ m'.dones, x ∈ s.mgr.dones ∨ x ∈ s.gone) → EndOk s.heap s.mgr s.gone (.create q n b) true m' := by
        intro m' h1 h2 h3 h4 h5 h6
        refine ⟨h1, h2, h3, fun x hx => by rw [h4]; exact List.mem_append_left _ hx, ?_, ?_, ?_⟩
        · intro x hx
          rw [h4] at hx
          rcases List.mem_append.mp hx with hx | hx
          · exact Or.inl hx
          · simp only [List.mem_singleton] at hx; subst hx; exact Or.inr rfl
        · intro x hx
          rcases h6 x hx with h | h
          · exact Or.inl h
          · exact Or.inr (Or.inr (Or.inr (Or.inl h)))
        · intro x hx
          rw [h5] at hx
          rcases List.mem_cons.mp hx with rfl | hx
          · exact Or.inr (Or.inr ⟨rfl, Or.inr ⟨_, _, rfl, fun _ => by rw [h4]; simp⟩⟩)
          · exact Or.inl hx
      cases q with
      | none => exact key _ rfl rfl rfl rfl rfl (fun _ h => Or.inl h)
      | some o =>
        simp only
        by_cases hp : (s.heap o).pendingReplacement = true
        · rw [if_pos hp]
          refine key _ rfl rfl rfl rfl rfl (fun x hx => ?_)
          rcases List.mem_cons.mp hx with rfl | hx
          · exact Or.inr (hdr rfl hp)
          · exact Or.inl hx
        · rw [if_neg hp]
          exact key _ rfl rfl rfl rfl rfl (fun _ h => Or.inl h)
  | update q n =>
    simp only [ends, endUpdate]
    cases ok with
    | false =>
      simp only [Bool.false_eq_true, if_false]
      refine ⟨rfl, rfl, rfl, fun _ h => h, fun _ h => Or.inl h, fun _ h => Or.inl h, ?_⟩
      intro x hx
      rcases List.mem_cons.mp hx with rfl | hx
      · exact Or.inr (Or.inr ⟨rfl, Or.inl h2.2.2.2.2⟩)
      · exact Or.inl hx
    | true =>
      simp only [if_true]
      refine ⟨rfl, rfl, rfl, fun _ h => List.mem_append_left _ h, ?_, ?_, ?_⟩
      · intro x hx
        rcases List.mem_append.mp hx with hx | hx
        · exact Or.inl hx
        · simp only [List.mem_singleton] at hx; subst hx; exact Or.inr rfl
      · intro x hx
        rcases List.mem_cons.mp hx with rfl | hx
        · exact Or.inr (Or.inr (Or.inr (Or.inr
            ⟨n, by simp [Manager.markNew], h2.2.2.2.1 true rfl, by rw [h2.2.1, h2.2.2.1]⟩)))
        · exact Or.inl hx
      · intro x hx
        rcases List.mem_cons.mp hx with rfl | hx
        · exact Or.inr (Or.inr ⟨rfl, Or.inl h2.2.2.2.2⟩)
        · exact Or.inl hx
  | delete q r =>
    simp only [ends, endDelete]
    have key : ∀ m' : Manager, m'.base = s.mgr.base → m'.baseOps = s.mgr.baseOps →
        m'.operations = s.mgr.operations → m'.resources = s.mgr.resources →
        m'.completeOps = q :: s.mgr.completeOps →
        (∀ x ∈ m'.dones, x ∈ s.mgr.dones ∨ (ok = true ∧ x = q)) → EndOk s.heap s.mgr s.gone (.delete q r) ok m' := by
      intro m' h1 h3 h4 h5 h6 h7
      refine ⟨h1, h3, h4, fun x hx => by rw [h5]; exact hx, fun x hx => Or.inl (by rw [← h5]; exact hx), ?_, ?_⟩
      · intro x hx
        rcases h7 x hx with h | ⟨rfl, rfl⟩
        · exact Or.inl h
        · rcases h2.2 (Or.inr rfl) with h | h
          · exact Or.inr (Or.inr (Or.inl h))
          · exact Or.inr (Or.inr (Or.inr (Or.inl h)))
      · intro x hx
        rw [h6] at hx
        rcases List.mem_cons.mp hx with rfl | hx
        · exact Or.inr (Or.inl h2.1)
        · exact Or.inl hx
    cases ok with
    | false => exact key _ rfl rfl rfl rfl rfl (fun _ h => Or.inl h)
    | true =>
      simp only [if_true]
      split
      · exact key _ rfl rfl rfl rfl rfl (fun _ h => Or.inl h)
      · refine key _ rfl rfl rfl rfl rfl (fun x hx => ?_)
        rcases List.mem_cons.mp hx with rfl | hx
        · exact Or.inr ⟨rfl, rfl⟩
        · exact Or.inl hx
  | replace q n => exact ⟨rfl, rfl, rfl, fun _ h => h, fun _ h => Or.inl h, fun _ h => Or.inl h, fun _ h => Or.inl h⟩
  | refresh q => exact ⟨rfl, rfl, rfl, fun _ h => h, fun _ h => Or.inl h, fun _ h => Or.inl h, fun _ h => Or.inl h⟩
  | removePendingReplace q =>
    refine ⟨rfl, rfl, rfl, fun _ h => h, fun _ h => Or.inl h, ?_, fun _ h => Or.inl h⟩
    intro x hx
    rcases List.mem_cons.mp hx with rfl | hx
    · exact Or.inr (Or.inr (Or.inr (Or.inl hdr)))
    · exact Or.inl hx
  | read q n r =>
    simp only [ends, endRead]
    have key : ∀ m' : Manager, m'.base = s.mgr.base → m'.baseOps = s.mgr.baseOps →
        m'.operations = s.mgr.operations → (m'.resources = s.mgr.resources ∨ m'.resources = s.mgr.resources ++ [n]) →
        m'.completeOps = n :: s.mgr.completeOps →
        (∀ x ∈ m'.dones, x ∈ s.mgr.dones ∨ (ok = true ∧ q = some x)) →
        EndOk s.heap s.mgr s.gone (.read q n r) ok m' := by
      intro m' h1 h3 h4 h5 h6 h7
      refine ⟨h1, h3, h4, ?_, ?_, ?_, ?_⟩
      · intro x hx
        rcases h5 with h5 | h5 <;> rw [h5]
        · exact hx
        · exact List.mem_append_left _ hx
      · intro x hx
        rcases h5 with h5 | h5 <;> rw [h5] at hx
        · exact Or.inl hx
        · rcases List.mem_append.mp hx with hx | hx
          · exact Or.inl hx
          · simp only [List.mem_singleton] at hx; subst hx; exact Or.inr rfl
      · intro x hx
        rcases h7 x hx with h | ⟨rfl, hq⟩
        · exact Or.inl h
        · rcases h2.2.2 x hq (Or.inr rfl) with h | h
          · exact Or.inr (Or.inr (Or.inl h))
          · exact Or.inr (Or.inr (Or.inr (Or.inl h)))
      · intro x hx
        rw [h6] at hx
        rcases List.mem_cons.mp hx with rfl | hx
        · exact Or.inr (Or.inr ⟨rfl, Or.inl h2.2.1⟩)
        · exact Or.inl hx
    cases ok with
    | false => exact key _ rfl rfl rfl (Or.inl rfl) rfl (fun _ h => Or.inl h)
    | true =>
      simp only [if_true]
      cases q with
      | none => exact key _ rfl rfl rfl (Or.inr rfl) rfl (fun _ h => Or.inl h)
      | some o =>
        refine key _ rfl rfl rfl (Or.inr rfl) rfl (fun x hx => ?_)
        rcases List.mem_cons.mp hx with rfl | hx
        · exact Or.inr ⟨rfl, rfl⟩
        · exact Or.inl hx
  | «import» q n =>
    simp only [ends, endImport]
    have comp : ∀ x ∈ n :: s.mgr.completeOps, x ∈ s.mgr.completeOps ∨ x ∈ s.mgr.base ∨
        (newOf (.import q n) = some x ∧ ((x, OpType.creating) ∉ s.mgr.operations ∨
          (∃ o b, Step.import q n = .create o x b ∧
            (ok = true → x ∈ (if ok = true then (s.mgr.markComplete n).markNew n else s.mgr.markComplete n).resources)))) := by
      intro x hx
      rcases List.mem_cons.mp hx with rfl | hx
      · exact Or.inr (Or.inr ⟨rfl, Or.inl h2⟩)
      · exact Or.inl hx
    cases ok with
    | false => exact ⟨rfl, rfl, rfl, fun _ h => h, fun _ h => Or.inl h, fun _ h => Or.inl h, comp⟩
    | true =>
      refine ⟨rfl, rfl, rfl, fun _ h => List.mem_append_left _ h, ?_, fun _ h => Or.inl h, comp⟩
      intro x hx
      rcases List.mem_append.mp hx with hx | hx
      · exact Or.inl hx
      · simp only [List.mem_singleton] at hx; subst hx; exact Or.inr rfl

/-- the end of a step, before anything is saved -/
theorem inv_ends {s : Sys} {i : Nat} {st : Step} {ok : Bool} {m' : Manager} (h : Inv s)
    (hi : s.active[i]? = some (st, .applied ok)) (he : EndOk s.heap s.mgr s.gone st ok m') :
    Inv { s with mgr := m', active := s.active.eraseIdx i } := by
  refine ⟨h.disk, ?_, ?_, nodup_eraseIdx _ i h.nodup, ?_⟩
  · intro p hp
    rcases h.wit p hp with ⟨q, hq, hl⟩ | ⟨q, hq, hd, hg, hl⟩ | ⟨n, hop, hc, hu, ha⟩ | hw
    · exact Or.inl ⟨q, he.res q hq, hl⟩
    · by_cases hd' : q ∈ m'.dones
      · rcases he.done q hd' with h1 | h1 | h1 | h1 | ⟨n, hn, h1, h2⟩
        · exact absurd h1 hd
        · exact absurd hq h1
        · exact absurd h1 (by rw [hl.1]; simp)
        · exact absurd h1 hg
        · exact Or.inl ⟨n, hn, h2.trans hl.1, h1.trans hl.2⟩
      · exact Or.inr (Or.inl ⟨q, by rw [he.base]; exact hq, hd', hg, hl⟩)
    · by_cases hc' : n ∈ m'.completeOps
      · rcases he.comp n hc' with h1 | h1 | ⟨h1, h2 | ⟨o, b, h2, h3⟩⟩
        · exact absurd h1 hc
        · exact absurd h1 (h.notBase n hop)
        · exact absurd hop h2
        · have := ha _ (List.mem_of_getElem? hi) o b h2
          simp only [reduceCtorEq, Phase.applied.injEq, false_or] at this
          exact Or.inl ⟨n, h3 this.1, this.2⟩
      · exact Or.inr (Or.inr (Or.inl ⟨n, by rw [he.operations]; exact hop, hc', hu,
          fun a hm => ha a (List.mem_of_mem_eraseIdx hm)⟩))
    · exact Or.inr (Or.inr (Or.inr (by rw [he.baseOps]; exact hw)))
  · intro a ha
    have ⟨j, hj, hja⟩ := mem_eraseIdx_index ha
    have hen := h.entries a (List.mem_of_getElem? hja)
    have hne : ∀ n, newOf a.1 = some n → newOf st ≠ some n :=
      fun n h1 h2 => hj (nodup_index h.nodup hja hi h1 h2)
    refine ⟨fun n hn => ⟨fun hr => ?_, by rw [he.base]; exact (hen.1 n hn).2⟩, ?_⟩
    · rcases he.resNew n hr with h1 | h1
      · exact (hen.1 n hn).1 h1
      · exact hne n hn h1
    · obtain ⟨st', ph'⟩ := a
      have h2 := hen.2
      simp only [he.base, he.operations]
      cases st' with
      | same q n sk => cases sk <;> exact h2
      | create q n b =>
        refine ⟨h2.1, fun hc => ?_, h2.2.2⟩
        rcases he.comp n hc with h1 | h1 | ⟨h1, _⟩
        · exact h2.2.1 h1
        · exact h.notBase n h2.1 h1
        · exact hne n rfl h1
      | _ => exact h2
  · intro n hn
    rw [he.operations] at hn
    simp only [he.base]
    exact h.notBase n hn

theorem inv_elided {s : Sys} (h : Inv s) (b : Bool) :
    Inv { s with mgr := { s.mgr with hasElidedWrites := b } } := ⟨h.disk, h.wit, h.entries, h.nodup, h.notBase⟩

theorem inv_service {E : Env} {s : Sys} (h : Inv s) (w : Write) (b : Bool) :
    Inv { s with mgr := (service E s.heap s.mgr w s.disk b).1, disk := (service E s.heap s.mgr w s.disk b).2.1 } := by
  cases w with
  | nothing => exact h
  | elide => exact inv_elided h true
  | save => exact inv_save h b

theorem inv_finish {E : Env} {s s' : Sys} {i : Nat} {b : Bool} (h : Inv s) (hal : Careful s (.finish i b))
    (hn : next E s (.finish i b) = some s') : Inv s' := by
  simp only [next] at hn
  split at hn
  · rename_i st ok hi
    simp only [Option.some.injEq] at hn
    subst hn
    exact inv_service (inv_ends h hi (ends_ok (h.entries _ (List.mem_of_getElem? hi)) (hal.2.2.2.1 st ok hi))) _ b
  · exact absurd hn (by simp)

end Pulumi.Snapshot
