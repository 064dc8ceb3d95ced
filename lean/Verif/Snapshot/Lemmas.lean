import Verif.Snapshot.Spec
/-! Helper lemmas for the theorems on the checkpoint. -/
namespace Pulumi.Snapshot

theorem Heap.set_same (h : Heap) (p : Ptr) (s : State) : (h.set p s) p = s := by simp [Heap.set]
theorem Heap.set_other (h : Heap) {p q : Ptr} (s : State) (hne : q ≠ p) : (h.set p s) q = h q := by
  simp [Heap.set, hne]

/-- The parts of a state that say whose it is. -/
def SameId (a b : State) : Prop := a.urn = b.urn ∧ a.id = b.id ∧ a.external = b.external ∧ a.delete = b.delete

theorem fixResource_id {E : Env} {m : List (String × String)} {s s' : State} (h : fixResource E m s = .ok s') :
    SameId s' s := by
  unfold fixResource at h
  split at h
  · exact absurd h (by simp)
  · simp only [Except.ok.injEq] at h
    subst h
    exact ⟨rfl, rfl, rfl, rfl⟩

theorem fixAll_id {E : Env} {m : List (String × String)} : ∀ {ss ss' : List State}, fixAll E m ss = .ok ss' →
    ∀ r ∈ ss, ∃ r' ∈ ss', SameId r' r
  | [], _, _, r, hr => absurd hr (by simp)
  | s :: ss, ss', h, r, hr => by
    simp only [fixAll] at h
    split at h
    · exact absurd h (by simp)
    · rename_i s1 h1
      split at h
      · exact absurd h (by simp)
      · rename_i ss1 h2
        simp only [Except.ok.injEq] at h
        subst h
        rcases List.mem_cons.mp hr with rfl | hr
        · exact ⟨s1, by simp, fixResource_id h1⟩
        · have ⟨r', hr', hid⟩ := fixAll_id h2 r hr
          exact ⟨r', by simp [hr'], hid⟩

theorem normalize_id {E : Env} {s s' : Snap} (h : normalize E s = .ok s') :
    s'.ops = s.ops ∧ ∀ r ∈ s.resources, ∃ r' ∈ s'.resources, SameId r' r := by
  unfold normalize at h
  split at h
  · exact absurd h (by simp)
  · split at h
    · exact absurd h (by simp)
    · rename_i rs h2
      simp only [Except.ok.injEq] at h
      subst h
      exact ⟨rfl, fixAll_id h2⟩

theorem saveSnapshot_disk (E : Env) (h : Heap) (m : Manager) (disk : Snap) (b : Bool) :
    (saveSnapshot E h m disk b).1 = disk ∨ normalize E (m.snap h) = .ok (saveSnapshot E h m disk b).1 := by
  unfold saveSnapshot
  split
  · exact Or.inl rfl
  · rename_i s hs
    split
    · split
      · exact Or.inr hs
      · exact Or.inr hs
    · exact Or.inl rfl

/-- If saving reports no error, what was saved is the current state. -/
theorem saveSnapshot_ok (E : Env) (h : Heap) (m : Manager) (disk : Snap) (b : Bool)
    (hok : (saveSnapshot E h m disk b).2 = false) : normalize E (m.snap h) = .ok (saveSnapshot E h m disk b).1 := by
  unfold saveSnapshot at hok ⊢
  split
  · rename_i hs; rw [hs] at hok; simp at hok
  · rename_i s hs
    rw [hs] at hok
    by_cases hb : b = true
    · rw [if_pos hb]
      split <;> exact hs
    · simp [hb] at hok

/-- A pending create is in what is saved. -/
theorem snap_op {E : Env} {h : Heap} {m : Manager} {d : Snap} {o : Ptr × OpType} (hn : normalize E (m.snap h) = .ok d)
    (ho : o ∈ m.operations) (hc : o.1 ∉ m.completeOps) : (h o.1, o.2) ∈ d.ops := by
  rw [(normalize_id hn).1]
  simp only [Manager.snap, List.mem_map, List.mem_append, List.mem_filter]
  exact ⟨o, Or.inl ⟨ho, by simpa using hc⟩, rfl⟩

theorem snap_baseOp {E : Env} {h : Heap} {m : Manager} {d : Snap} {o : Ptr × OpType}
    (hn : normalize E (m.snap h) = .ok d) (ho : o ∈ m.baseOps) (hc : o.2 = .creating) : (h o.1, o.2) ∈ d.ops := by
  rw [(normalize_id hn).1]
  simp only [Manager.snap, List.mem_map, List.mem_append, List.mem_filter]
  exact ⟨o, Or.inr ⟨ho, by simpa using hc⟩, rfl⟩

theorem snap_resource {E : Env} {h : Heap} {m : Manager} {d : Snap} {q : Ptr} (hn : normalize E (m.snap h) = .ok d)
    (hq : q ∈ m.resources ∨ (q ∈ m.base ∧ q ∉ m.dones)) : ∃ r ∈ d.resources, SameId r (h q) := by
  refine (normalize_id hn).2 (h q) ?_
  simp only [Manager.snap, List.mem_map, List.mem_append, List.mem_filter]
  refine ⟨q, ?_, rfl⟩
  rcases hq with hq | ⟨h1, h2⟩
  · exact Or.inl hq
  · exact Or.inr ⟨h1, by simpa using h2⟩

end Pulumi.Snapshot
