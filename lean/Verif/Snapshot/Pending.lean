import Verif.Snapshot.CrashRun
/-! Pending creates of the base. -/
namespace Pulumi.Snapshot

structure Stays (u : String) (t : Sys) : Prop where
  base : ∃ o ∈ t.mgr.baseOps, o.2 = .creating ∧ (t.heap o.1).urn = u
  disk : ∃ o ∈ t.disk.ops, o.2 = .creating ∧ o.1.urn = u

theorem stays_service {E : Env} {s : Sys} {u : String} (h : Stays u s) (w : Write) (b : Bool) :
    Stays u { s with
      mgr := (service E s.heap s.mgr w s.disk b).1
      disk := (service E s.heap s.mgr w s.disk b).2.1 } := by
  cases w with
  | nothing => exact h
  | elide => exact ⟨h.base, h.disk⟩
  | save =>
    refine ⟨h.base, ?_⟩
    have ⟨o, ho, hc, hu⟩ := h.base
    rcases saveSnapshot_disk E s.heap s.mgr s.disk b with h1 | h1
    · simp only [service]; rw [h1]; exact h.disk
    · exact ⟨_, snap_baseOp h1 ho hc, hc, hu⟩

theorem ends_baseOps (h : Heap) (m : Manager) (st : Step) (ok : Bool) : (ends h m st ok).1.baseOps = m.baseOps := by
  cases st with
  | same o n sk => cases sk <;> rfl
  | create o n b =>
    cases ok
    · rfl
    · cases o with
      | none => rfl
      | some o =>
        simp only [ends, endCreate, if_true]
        split <;> rfl
  | update o n => cases ok <;> rfl
  | delete o r =>
    cases ok
    · rfl
    · simp only [ends, endDelete, if_true]
      split <;> rfl
  | read o n r =>
    cases ok
    · rfl
    · cases o <;> rfl
  | «import» o n => cases ok <;> rfl
  | _ => rfl

theorem stays_heap {s : Sys} {u : String} (h : Stays u s) (h' : Heap) (heq : ∀ q, (h' q).urn = (s.heap q).urn) :
    Stays u { s with heap := h' } := by
  have ⟨o, ho, hc, hu⟩ := h.base
  exact ⟨⟨o, ho, hc, (heq o.1).trans hu⟩, h.disk⟩

theorem stays_mgr {s : Sys} {u : String} (h : Stays u s) (m : Manager) (hm : m.baseOps = s.mgr.baseOps)
    (a : List (Step × Phase)) (w : List Phys) (g : List Ptr) :
    Stays u { s with mgr := m, active := a, world := w, gone := g } := by
  refine ⟨?_, h.disk⟩
  have ⟨o, ho, hc, hu⟩ := h.base
  exact ⟨o, by rw [hm]; exact ho, hc, hu⟩

theorem stays_next {E : Env} {s s' : Sys} {e : Event} {u : String} (h : Stays u s) (hn : next E s e = some s') :
    Stays u s' := by
  cases e with
  | begin st b =>
    simp only [next] at hn
    split at hn
    · simp only [Option.some.injEq] at hn
      subst hn
      exact stays_mgr h _ rfl _ _ _
    · rename_i q t _
      simp only [Option.some.injEq] at hn
      subst hn
      have h1 := stays_service (E := E) (stays_mgr h (s.mgr.markPending q t) rfl s.active s.world s.gone) .save b
      exact ⟨h1.base, h1.disk⟩
  | act i o =>
    simp only [next] at hn
    split at hn
    · split at hn
      · simp only [Option.some.injEq] at hn
        subst hn
        exact stays_mgr h _ rfl _ _ _
      · exact absurd hn (by simp)
    · exact absurd hn (by simp)
  | ret i outs rid =>
    simp only [next] at hn
    split at hn
    · rename_i st o _
      simp only [Option.some.injEq] at hn
      subst hn
      have h1 := stays_heap h (apply s.heap st o outs rid).1 (fun q => (apply_heap s.heap st o outs rid q).1)
      exact ⟨h1.base, h1.disk⟩
    · exact absurd hn (by simp)
  | finish i b =>
    simp only [next] at hn
    split at hn
    · rename_i st ok _
      simp only [Option.some.injEq] at hn
      subst hn
      exact stays_service (stays_mgr h _ (ends_baseOps s.heap s.mgr st ok) (s.active.eraseIdx i) s.world s.gone) _ b
    · exact absurd hn (by simp)
  | abandon i =>
    simp only [next, Option.some.injEq] at hn
    subst hn
    exact ⟨h.base, h.disk⟩
  | outputs p outs b =>
    simp only [next, Option.some.injEq] at hn
    subst hn
    exact stays_service (stays_heap h _ (fun q =>
      (set_identity s.heap p (fun x => { x with outputs := outs }) (fun _ => ⟨rfl, rfl, rfl⟩) q).1)) .save b
  | condemn p b =>
    simp only [next, Option.some.injEq] at hn
    subst hn
    exact stays_heap h _ (fun q =>
      (set_identity s.heap p (fun x => { x with pendingReplacement := b }) (fun _ => ⟨rfl, rfl, rfl⟩) q).1)
  | rebuild f =>
    simp only [next, Option.some.injEq] at hn
    subst hn
    have h1 := stays_heap h (rebuildBase (stepFor f) s.heap s.mgr.base).1 (fun q => by
      have ⟨_, _, he⟩ := rebuildBase_heap (stepFor f) s.heap s.mgr.base q
      rw [he])
    exact ⟨h1.base, h1.disk⟩
  | close b =>
    simp only [next, Option.some.injEq] at hn
    subst hn
    split
    · exact stays_service h .save b
    · exact h

theorem stays_reload {s t : Sys} {u : String} (hr : Reloads s t)
    (h : ∃ o ∈ s.disk.ops, o.2 = .creating ∧ o.1.urn = u) : Stays u t := by
  have hd : ∃ o ∈ t.disk.ops, o.2 = .creating ∧ o.1.urn = u := by rw [hr.disk]; exact h
  refine ⟨?_, hd⟩
  have ⟨o, ho, hc, hu⟩ := hd
  rw [hr.loaded] at ho
  have ⟨q, hq, he⟩ := List.mem_map.mp ho
  subst he
  exact ⟨q, hq, hc, hu⟩

theorem stays_later {E : Env} {t v : Sys} {u : String} (hl : Later E t v) (h : Stays u t) : Stays u v := by
  induction hl with
  | refl => exact h
  | event e _ hn ih => exact stays_next ih hn
  | again _ hr ih => exact stays_reload hr ih.disk

end Pulumi.Snapshot
