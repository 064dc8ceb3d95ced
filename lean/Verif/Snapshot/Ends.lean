import Verif.Snapshot.Theorems
/-! What the end of a step and the end of an update write. -/
namespace Pulumi.Snapshot

theorem service_mgr (E : Env) (h : Heap) (m : Manager) (w : Write) (d : Snap) (b : Bool) (h' : Heap) :
    (service E h m w d b).1.snap h' = m.snap h' := by
  cases w <;> rfl

/-- C135. A step that failed leaves the resources of the checkpoint as they were: what would be saved after its end lists
the same resources as what would have been saved before it, and no operation of that step. -/
theorem failed_step_changes_no_resource {E : Env} {s t : Sys} {i : Nat} {b : Bool} {st : Step} {op : Ptr × OpType}
    (hi : s.active[i]? = some (st, .applied false)) (hb : begins st = some op)
    (hn : next E s (.finish i b) = some t) :
    (t.mgr.snap t.heap).resources = (s.mgr.snap s.heap).resources ∧
      (t.mgr.snap t.heap).ops = (((s.mgr.operations.filter (fun o => o.1 ∉ s.mgr.completeOps)).filter
        (fun o => o.1 ≠ op.1)) ++ (s.mgr.baseOps.filter (fun o => o.2 = .creating))).map
        (fun o => (s.heap o.1, o.2)) := by
  simp only [next, hi, Option.some.injEq] at hn
  subst hn
  simp only [service_mgr]
  have key : ∀ q, ((s.mgr.markComplete q).snap s.heap).resources = (s.mgr.snap s.heap).resources ∧
      ((s.mgr.markComplete q).snap s.heap).ops = (((s.mgr.operations.filter (fun o => o.1 ∉ s.mgr.completeOps)).filter
        (fun o => o.1 ≠ q)) ++ (s.mgr.baseOps.filter (fun o => o.2 = .creating))).map
        (fun o => (s.heap o.1, o.2)) := by
    intro q
    refine ⟨rfl, ?_⟩
    simp only [Manager.snap, Manager.markComplete, List.mem_cons, not_or, List.filter_filter]
    congr 3
    funext o
    simp
  cases st <;> simp only [begins, Option.some.injEq, reduceCtorEq] at hb <;> subst hb <;> exact key _

/-- C135. A resource that is not created because it is not among the targets of the update is not listed. -/
theorem skipped_create_is_not_listed {E : Env} {s t : Sys} {i : Nat} {b : Bool} {old new : Ptr} {ok : Bool}
    (hi : s.active[i]? = some (.same old new true, .applied ok)) (ho : old ∉ s.mgr.base)
    (hn : next E s (.finish i b) = some t) : t.mgr.snap t.heap = s.mgr.snap s.heap := by
  simp only [next, hi, Option.some.injEq] at hn
  subst hn
  rw [service_mgr]
  simp only [ends, endSame, if_true, Manager.snap, Manager.markDone, List.mem_cons, not_or]
  congr 3
  apply List.filter_congr
  intro p hp
  have : p ≠ old := fun he => ho (he ▸ hp)
  simp [this]

/-- C135. When an update ends with the end of a step, other than a logical replacement, the checkpoint holds everything
the engine knows, even if the write for that step was left out. -/
theorem close_writes_everything {E : Env} {s t u : Sys} {i : Nat} {d : Snap} {st : Step} {ok : Bool}
    (hi : s.active[i]? = some (st, .applied ok)) (hr : ∀ o n, st ≠ .replace o n)
    (hn : next E s (.finish i true) = some t) (hc : next E t (.close true) = some u)
    (hd : normalize E (u.mgr.snap u.heap) = .ok d) : u.disk = d := by
  have save : ∀ (h : Heap) (m : Manager) (x : Snap), normalize E (m.snap h) = .ok d →
      (saveSnapshot E h m x true).1 = d := by
    intro h m x hm
    simp only [saveSnapshot, hm, if_true]
    split <;> rfl
  simp only [next, hi, Option.some.injEq] at hn
  subst hn
  simp only [next, Option.some.injEq] at hc
  subst hc
  have hw : (ends s.heap s.mgr st ok).2 = .save ∨ (ends s.heap s.mgr st ok).2 = .elide := by
    cases st with
    | replace o n => exact absurd rfl (hr o n)
    | same o n sk =>
      cases sk
      · simp only [ends, endSame, Bool.false_eq_true, if_false]
        split
        · exact Or.inl rfl
        · exact Or.inr rfl
      · exact Or.inr rfl
    | refresh o => exact Or.inr rfl
    | _ => exact Or.inl rfl
  rcases hw with hw | hw
  · simp only [hw, service, Bool.false_eq_true, if_false] at hd ⊢
    exact save _ _ _ hd
  · simp only [hw, service, if_true] at hd ⊢
    exact save _ _ _ hd

example : ∃ s t u d, s.active[0]? = some (.same 0 2 false, .applied true) ∧
    next plainEnv s (.finish 0 true) = some t ∧ t.mgr.hasElidedWrites = true ∧ next plainEnv t (.close true) = some u ∧
    normalize plainEnv (u.mgr.snap u.heap) = .ok d ∧ d.resources.length = 1 :=
  ⟨after [.begin (.same 0 2 false) true, .act 0 .ok, .ret 0 "" ""] (restart [0] (after createA emptyStack)), _, _, _,
    rfl, rfl, by decide, rfl, rfl, rfl⟩

example : ∃ s, s.active[0]? = some (.update 0 2, .applied false) ∧ (s.mgr.snap s.heap).resources.length = 1 ∧
    (next plainEnv s (.finish 0 true)).isSome :=
  ⟨after [.begin (.update 0 2) true, .act 0 .failed, .ret 0 "" ""] (restart [0] (after createA emptyStack)),
    rfl, rfl, by decide⟩

example : ∃ s, s.active[0]? = some (.same 6 2 true, .applied true) ∧ 6 ∉ s.mgr.base ∧
    (next plainEnv s (.finish 0 true)).isSome :=
  ⟨after [.begin (.same 6 2 true) true, .act 0 .ok, .ret 0 "" ""] (restart [0] (after createA emptyStack)),
    rfl, by decide, by decide⟩

end Pulumi.Snapshot
