import Verif.Snapshot.CrashSteps
/-! The remaining events, and whole updates. -/
namespace Pulumi.Snapshot

/-- Rebuilding the base changes no state but for its dependencies and its parent. -/
theorem rebuildList_heap (f : Ptr → Option Ptr) (ps : List Ptr) : ∀ (h : Heap) (seen : List String) (q : Ptr),
    ∃ deps, (rebuildList f h seen ps).1 q = { h q with deps := deps } := by
  induction ps with
  | nil => exact fun h _ q => ⟨(h q).deps, rfl⟩
  | cons p ps ih =>
    intro h seen q
    simp only [rebuildList]
    split
    · exact ih h seen q
    · rename_i r hr
      have ⟨deps, hd⟩ := ih (h.set r { h r with deps := (h r).deps.filter (fun d => d ∈ seen) })
        ((h.set r { h r with deps := (h r).deps.filter (fun d => d ∈ seen) } r).urn :: seen) q
      simp only at hd ⊢
      rw [hd]
      by_cases hq : q = r
      · subst hq; exact ⟨deps, by rw [Heap.set_same]⟩
      · exact ⟨deps, by rw [Heap.set_other _ _ hq]⟩

theorem undangle_heap (u : List String) (ps : List Ptr) : ∀ (h : Heap) (parents : List (String × String)) (q : Ptr),
    { (undangle u h parents ps) q with parent := "" } = { h q with parent := "" } := by
  induction ps with
  | nil => exact fun h _ q => rfl
  | cons p ps ih =>
    intro h parents q
    simp only [undangle]
    rw [ih]
    by_cases hq : q = p
    · subst hq; rw [Heap.set_same]
    · rw [Heap.set_other _ _ hq]

theorem rebuildBase_heap (f : Ptr → Option Ptr) (h : Heap) (base : List Ptr) (q : Ptr) :
    ∃ deps parent, (rebuildBase f h base).1 q = { h q with deps := deps, parent := parent } := by
  have hp : { (rebuildBase f h base).1 q with parent := "" } =
      { (rebuildList f h [] base).1 q with parent := "" } := undangle_heap _ _ _ _ q
  have ⟨deps, hd⟩ := rebuildList_heap f base h [] q
  rw [hd] at hp
  refine ⟨deps, ((rebuildBase f h base).1 q).parent, ?_⟩
  have := congrArg (fun x : State => { x with parent := ((rebuildBase f h base).1 q).parent }) hp
  exact this

/-- The states that stay, in order. -/
theorem rebuildList_base (f : Ptr → Option Ptr) (ps : List Ptr) : ∀ (h : Heap) (seen : List String),
    (rebuildList f h seen ps).2 = ps.filterMap f := by
  induction ps with
  | nil => exact fun _ _ => rfl
  | cons p ps ih =>
    intro h seen
    simp only [rebuildList, List.filterMap_cons]
    split
    · rename_i hf; rw [hf]; exact ih _ _
    · rename_i q hf; rw [hf]; simp only [ih]

theorem rebuildBase_base (f : Ptr → Option Ptr) (h : Heap) (base : List Ptr) :
    (rebuildBase f h base).2 = base.filterMap f := rebuildList_base f base h []

theorem inv_rebuild {s : Sys} {f : List (Ptr × Option Ptr)} (h : Inv s) (he : Engine s (.rebuild f))
    (hk : Keeps s f) :
    Inv { s with
      heap := (rebuildBase (stepFor f) s.heap s.mgr.base).1
      mgr := { s.mgr with base := (rebuildBase (stepFor f) s.heap s.mgr.base).2 } } := by
  have heq : ∀ q, ((rebuildBase (stepFor f) s.heap s.mgr.base).1 q).urn = (s.heap q).urn ∧
      ((rebuildBase (stepFor f) s.heap s.mgr.base).1 q).id = (s.heap q).id ∧
      ((rebuildBase (stepFor f) s.heap s.mgr.base).1 q).external = (s.heap q).external := by
    intro q
    have ⟨_, _, he⟩ := rebuildBase_heap (stepFor f) s.heap s.mgr.base q
    rw [he]; exact ⟨rfl, rfl, rfl⟩
  rw [rebuildBase_base]
  refine inv_heap (s := { s with mgr := { s.mgr with base := s.mgr.base.filterMap (stepFor f) } }) ?_ _ heq
  refine ⟨h.disk, ?_, ?_, h.nodup, ?_⟩
  · intro p hp
    rcases h.wit p hp with hw | ⟨q, hq, hd, hg, hl⟩ | hw | hw
    · exact Or.inl hw
    · have ⟨q', h1, h2, h3, h4, h5⟩ := hk.kept q hq hd hg hl.1 ⟨p, hp, hl.2.symm⟩
      exact Or.inr (Or.inl ⟨q', List.mem_filterMap.mpr ⟨q, hq, h1⟩, h4, h5, h3, h2.trans hl.2⟩)
    · exact Or.inr (Or.inr (Or.inl hw))
    · exact Or.inr (Or.inr (Or.inr hw))
  · intro a ha
    simp only [hk.quiet] at ha
    exact absurd ha (by simp)
  · intro n hn hb
    have ⟨q, hq, hf⟩ := List.mem_filterMap.mp hb
    exact he q hq n hf (List.mem_map.mpr ⟨_, hn, rfl⟩)

theorem set_identity (h : Heap) (p : Ptr) (f : State → State)
    (hf : ∀ x, (f x).urn = x.urn ∧ (f x).id = x.id ∧ (f x).external = x.external) (q : Ptr) :
    ((h.set p (f (h p))) q).urn = (h q).urn ∧ ((h.set p (f (h p))) q).id = (h q).id ∧
      ((h.set p (f (h p))) q).external = (h q).external := by
  by_cases hq : q = p
  · subst hq; rw [Heap.set_same]; exact hf _
  · rw [Heap.set_other _ _ hq]; exact ⟨rfl, rfl, rfl⟩

theorem inv_next {E : Env} {s s' : Sys} {e : Event} (h : Inv s) (hal : Careful s e) (hn : next E s e = some s') :
    Inv s' := by
  cases e with
  | begin st b => exact inv_begin h hal hn
  | act i o => exact inv_act h hal hn
  | ret i outs rid => exact inv_ret h hn
  | finish i b => exact inv_finish h hal hn
  | abandon i =>
    simp only [next, Option.some.injEq] at hn
    subst hn
    exact inv_abandon i h
  | outputs p outs b =>
    simp only [next, Option.some.injEq] at hn
    subst hn
    exact inv_service (inv_heap h _ (set_identity s.heap p (fun x => { x with outputs := outs }) (fun _ => ⟨rfl, rfl, rfl⟩)))
      .save b
  | condemn p b =>
    simp only [next, Option.some.injEq] at hn
    subst hn
    exact inv_heap h _ (set_identity s.heap p (fun x => { x with pendingReplacement := b }) (fun _ => ⟨rfl, rfl, rfl⟩))
  | rebuild f =>
    simp only [next, Option.some.injEq] at hn
    subst hn
    exact inv_rebuild h hal.1 hal.2.2.2.2
  | close b =>
    simp only [next, Option.some.injEq] at hn
    subst hn
    split
    · exact inv_service h .save b
    · exact h

theorem inv_again {s t : Sys} (h : ∀ p ∈ s.world, Accounts s.disk p) (hr : Reloads s t) : Inv t := by
  have hops : t.mgr.operations = [] := by rw [hr.mgr]; rfl
  have hdones : t.mgr.dones = [] := by rw [hr.mgr]; rfl
  refine ⟨?_, ?_, ?_, ?_, ?_⟩
  · intro p hp
    rw [hr.disk]; rw [hr.world] at hp
    exact h p hp
  · intro p hp
    have ha := h p (by rw [← hr.world]; exact hp)
    rw [← hr.disk, hr.loaded] at ha
    rcases ha with ⟨r, hm, h1, h2⟩ | ⟨o, hm, h1, h2⟩
    · have ⟨q, hq, he⟩ := List.mem_map.mp hm
      subst he
      exact Or.inr (Or.inl ⟨q, hq, by rw [hdones]; simp, fun hg => hr.gone q hg p hp h2.symm, h1, h2⟩)
    · have ⟨q, hq, he⟩ := List.mem_map.mp hm
      subst he
      exact Or.inr (Or.inr (Or.inr ⟨q, hq, h1, h2⟩))
  · intro a ha; rw [hr.quiet] at ha; exact absurd ha (by simp)
  · rw [hr.quiet]; simp
  · intro n hn; rw [hops] at hn; exact absurd hn (by simp)

theorem inv_reach {E : Env} {s : Sys} (h : Reach E Careful s) : Inv s := by
  induction h with
  | new h => exact ⟨by simp, by simp, by simp, by simp, by simp [newManager]⟩
  | event _ ha hn ih => exact inv_next ih ha hn
  | again _ hr ih => exact inv_again ih.disk hr

end Pulumi.Snapshot
