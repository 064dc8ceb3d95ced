import Verif.Snapshot.Lemmas
/-! The invariant behind crash safety, and that every event keeps it. -/
namespace Pulumi.Snapshot

def Live (h : Heap) (q : Ptr) (p : Phys) : Prop := (h q).external = false ∧ (h q).id = p.id

/-- Why every later checkpoint will account for `p`. -/
def Wit (h : Heap) (m : Manager) (active : List (Step × Phase)) (gone : List Ptr) (p : Phys) : Prop :=
  (∃ q ∈ m.resources, Live h q p) ∨
  (∃ q ∈ m.base, q ∉ m.dones ∧ q ∉ gone ∧ Live h q p) ∨
  (∃ n, (n, OpType.creating) ∈ m.operations ∧ n ∉ m.completeOps ∧ (h n).urn = p.urn ∧
    ∀ a ∈ active, ∀ o b, a.1 = .create o n b → a.2 = .acted (.created p.id) ∨ (a.2 = .applied true ∧ Live h n p)) ∨
  (∃ o ∈ m.baseOps, o.2 = .creating ∧ (h o.1).urn = p.urn)

def EntryOk (h : Heap) (m : Manager) (gone : List Ptr) (d : Snap) (st : Step) (ph : Phase) : Prop :=
  (∀ n, newOf st = some n → n ∉ m.resources ∧ n ∉ m.base) ∧
  match st with
  | .same old new false => old ∈ m.base ∧ (h old).external = (h new).external ∧
      (∀ ok, ph = .applied ok → (h new).id = (h old).id)
  | .same old _ true => old ∉ m.base
  | .create _ new _ => (new, OpType.creating) ∈ m.operations ∧ new ∉ m.completeOps ∧ (h new).external = false ∧
      (∃ o ∈ d.ops, o.2 = .creating ∧ o.1.urn = (h new).urn)
  | .update old new => old ∈ m.base ∧ (h old).external = false ∧ (h new).external = false ∧
      (∀ ok, ph = .applied ok → (h new).id = (h old).id) ∧ (new, OpType.creating) ∉ m.operations
  | .delete old _ => old ∈ m.base ∧ (ph = .acted .ok ∨ ph = .applied true → (h old).external = true ∨ old ∈ gone)
  | .read old new r => r = false ∧ (new, OpType.creating) ∉ m.operations ∧
      (∀ o, old = some o → ph = .acted .ok ∨ ph = .applied true → (h o).external = true ∨ o ∈ gone)
  | .import _ new => (new, OpType.creating) ∉ m.operations
  | _ => True

structure Inv (s : Sys) : Prop where
  disk : ∀ p ∈ s.world, Accounts s.disk p
  wit : ∀ p ∈ s.world, Wit s.heap s.mgr s.active s.gone p
  entries : ∀ a ∈ s.active, EntryOk s.heap s.mgr s.gone s.disk a.1 a.2
  nodup : (s.active.filterMap (fun a => newOf a.1)).Nodup
  notBase : ∀ n, (n, OpType.creating) ∈ s.mgr.operations → n ∉ s.mgr.base

/-- What a save writes accounts for every resource with a reason to be accounted for. -/
theorem wit_accounts {E : Env} {h : Heap} {m : Manager} {active : List (Step × Phase)} {gone : List Ptr} {p : Phys}
    {d : Snap} (hw : Wit h m active gone p) (hn : normalize E (m.snap h) = .ok d) : Accounts d p := by
  rcases hw with ⟨q, hq, he, hi⟩ | ⟨q, hb, hd, _, he, hi⟩ | ⟨n, hop, hc, hu, _⟩ | ⟨o, ho, hc, hu⟩
  · have ⟨r, hr, _, h2, h3, _⟩ := snap_resource hn (Or.inl hq)
    exact Or.inl ⟨r, hr, h3.trans he, h2.trans hi⟩
  · have ⟨r, hr, _, h2, h3, _⟩ := snap_resource hn (Or.inr ⟨hb, hd⟩)
    exact Or.inl ⟨r, hr, h3.trans he, h2.trans hi⟩
  · exact Or.inr ⟨_, snap_op hn hop hc, rfl, hu⟩
  · exact Or.inr ⟨_, snap_baseOp hn ho hc, hc, hu⟩

theorem save_accounts {E : Env} {h : Heap} {m : Manager} {active : List (Step × Phase)} {gone : List Ptr} {p : Phys}
    {d : Snap} (b : Bool) (hw : Wit h m active gone p) (hd : Accounts d p) :
    Accounts (saveSnapshot E h m d b).1 p := by
  rcases saveSnapshot_disk E h m d b with h1 | h1
  · rw [h1]; exact hd
  · exact wit_accounts hw h1

/-- The pending create of a step in progress stays in the checkpoint. -/
theorem save_pending {E : Env} {h : Heap} {m : Manager} {d : Snap} {n : Ptr} (b : Bool)
    (hop : (n, OpType.creating) ∈ m.operations) (hc : n ∉ m.completeOps)
    (hd : ∃ o ∈ d.ops, o.2 = OpType.creating ∧ o.1.urn = (h n).urn) :
    ∃ o ∈ (saveSnapshot E h m d b).1.ops, o.2 = OpType.creating ∧ o.1.urn = (h n).urn := by
  rcases saveSnapshot_disk E h m d b with h1 | h1
  · rw [h1]; exact hd
  · exact ⟨_, snap_op h1 hop hc, rfl, rfl⟩

theorem entry_save {E : Env} {h : Heap} {m : Manager} {gone : List Ptr} {d : Snap} {st : Step} {ph : Phase} (b : Bool)
    (hen : EntryOk h m gone d st ph) : EntryOk h m gone (saveSnapshot E h m d b).1 st ph := by
  refine ⟨hen.1, ?_⟩
  have h2 := hen.2
  cases st with
  | create o n pd =>
    simp only at h2 ⊢
    exact ⟨h2.1, h2.2.1, h2.2.2.1, save_pending b h2.1 h2.2.1 h2.2.2.2⟩
  | same o n sk => cases sk <;> exact h2
  | _ => exact h2

/-- Only identity matters of a heap. -/
theorem wit_heap {h h' : Heap} {m : Manager} {active : List (Step × Phase)} {gone : List Ptr} {p : Phys}
    (heq : ∀ q, (h' q).urn = (h q).urn ∧ (h' q).id = (h q).id ∧ (h' q).external = (h q).external)
    (hw : Wit h m active gone p) : Wit h' m active gone p := by
  unfold Wit Live at hw ⊢
  simpa only [(heq _).1, (heq _).2.1, (heq _).2.2] using hw

theorem entry_heap {h h' : Heap} {m : Manager} {gone : List Ptr} {d : Snap} {st : Step} {ph : Phase}
    (heq : ∀ q, (h' q).urn = (h q).urn ∧ (h' q).id = (h q).id ∧ (h' q).external = (h q).external)
    (hen : EntryOk h m gone d st ph) : EntryOk h' m gone d st ph := by
  refine ⟨hen.1, ?_⟩
  have h2 := hen.2
  cases st with
  | same o n sk =>
    cases sk <;> simpa only [(heq _).1, (heq _).2.1, (heq _).2.2] using h2
  | create o n pd => simpa only [(heq _).1, (heq _).2.1, (heq _).2.2] using h2
  | update o n => simpa only [(heq _).1, (heq _).2.1, (heq _).2.2] using h2
  | delete o r => simpa only [(heq _).1, (heq _).2.1, (heq _).2.2] using h2
  | read o n r => simpa only [(heq _).1, (heq _).2.1, (heq _).2.2] using h2
  | _ => exact h2

theorem mem_set {α : Type} {l : List α} {i : Nat} {a b : α} (h : a ∈ l.set i b) : a = b ∨ a ∈ l := by
  rcases List.mem_or_eq_of_mem_set h with h | h
  · exact Or.inr h
  · exact Or.inl h

theorem filterMap_set {α β : Type} (f : α → Option β) {l : List α} {i : Nat} {a b : α} (hi : l[i]? = some a)
    (hf : f b = f a) : (l.set i b).filterMap f = l.filterMap f := by
  induction l generalizing i with
  | nil => simp at hi
  | cons x xs ih =>
    cases i with
    | zero =>
      simp only [List.length_cons, Nat.zero_lt_succ, List.getElem?_eq_getElem, List.getElem_cons_zero,
        Option.some.injEq] at hi
      subst hi
      simp [List.filterMap_cons, hf]
    | succ i =>
      simp only [List.getElem?_cons_succ] at hi
      simp only [List.set_cons_succ, List.filterMap_cons, ih hi]

/-- Two steps in progress that make the same state are the same step at the same place. -/
theorem nodup_index {l : List (Step × Phase)} (hnd : (l.filterMap (fun a => newOf a.1)).Nodup) {i j : Nat}
    {a b : Step × Phase} {n : Ptr} (hi : l[i]? = some a) (hj : l[j]? = some b) (ha : newOf a.1 = some n)
    (hb : newOf b.1 = some n) : i = j := by
  induction l generalizing i j with
  | nil => simp at hi
  | cons x xs ih =>
    cases i with
    | zero =>
      cases j with
      | zero => rfl
      | succ j =>
        simp only [List.getElem?_cons_zero, Option.some.injEq] at hi
        subst hi
        simp only [List.getElem?_cons_succ] at hj
        simp only [List.filterMap_cons, ha, List.nodup_cons, List.mem_filterMap, not_exists, not_and] at hnd
        exact absurd hb (hnd.1 b (List.mem_of_getElem? hj))
    | succ i =>
      simp only [List.getElem?_cons_succ] at hi
      have hnd' : (xs.filterMap (fun a => newOf a.1)).Nodup := by
        simp only [List.filterMap_cons] at hnd
        split at hnd
        · exact hnd
        · exact (List.nodup_cons.mp hnd).2
      cases j with
      | zero =>
        simp only [List.getElem?_cons_zero, Option.some.injEq] at hj
        subst hj
        simp only [List.filterMap_cons, hb, List.nodup_cons, List.mem_filterMap, not_exists, not_and] at hnd
        exact absurd ha (hnd.1 a (List.mem_of_getElem? hi))
      | succ j =>
        simp only [List.getElem?_cons_succ] at hj
        rw [ih hnd' hi hj]

theorem mem_eraseIdx_index {α : Type} {l : List α} {i : Nat} {a : α} (h : a ∈ l.eraseIdx i) :
    ∃ j, j ≠ i ∧ l[j]? = some a := by
  induction l generalizing i with
  | nil => simp at h
  | cons x xs ih =>
    cases i with
    | zero =>
      simp only [List.eraseIdx_cons_zero] at h
      have ⟨j, hj⟩ := List.mem_iff_getElem?.mp h
      exact ⟨j + 1, by omega, by simpa using hj⟩
    | succ i =>
      simp only [List.eraseIdx_cons_succ, List.mem_cons] at h
      rcases h with rfl | h
      · exact ⟨0, by omega, by simp⟩
      · have ⟨j, hj, he⟩ := ih h
        exact ⟨j + 1, by omega, by simpa using he⟩

theorem mem_set_index {α : Type} {l : List α} {i : Nat} {a b : α} (h : a ∈ l.set i b) :
    a = b ∨ ∃ j, j ≠ i ∧ l[j]? = some a := by
  have ⟨j, hj⟩ := List.mem_iff_getElem?.mp h
  by_cases hij : i = j
  · subst hij
    rw [List.getElem?_set_self'] at hj
    cases hl : l[i]? with
    | none => simp [hl] at hj
    | some x => simp [hl] at hj; exact Or.inl hj.symm
  · rw [List.getElem?_set_ne hij] at hj
    exact Or.inr ⟨j, Ne.symm hij, hj⟩

theorem nodup_eraseIdx (f : Step × Phase → Option Ptr) {l : List (Step × Phase)} (i : Nat)
    (h : (l.filterMap f).Nodup) : ((l.eraseIdx i).filterMap f).Nodup :=
  h.sublist ((List.eraseIdx_sublist l i).filterMap f)

end Pulumi.Snapshot
