import Verif.StepGen.Fates
import Verif.DepGraph.Theorems
namespace Pulumi.StepGen
open Pulumi.Snapshot (State Provider Ref)
open Pulumi.DepGraph (Seen Deletion Differ oldOf dependentReplacements deletions deletionOf pendingDeletes Parsed Later)

theorem countP_index (q : Nat → Bool) (i n : Nat) (hq : ∀ j, q j = true → j = i) :
    (List.range n).reverse.countP q = if q i = true ∧ i < n then 1 else 0 := by
  rw [List.countP_reverse]
  by_cases h : q i = true
  · have hc : (List.range n).countP q = (List.range n).count i := by
      unfold List.count
      apply List.countP_congr
      intro j _
      constructor
      · intro hj; simp [hq j hj]
      · intro hj
        have : j = i := by simpa using hj
        rw [this]; exact h
    rw [hc, (List.nodup_range).count]
    simp [h]
  · have hc : (List.range n).countP q = 0 := by
      rw [List.countP_eq_zero]
      intro j _ hj
      have := hq j hj
      rw [this] at hj
      exact h hj
    rw [hc]
    simp [h]

/-- How often the deletions at the end delete a state. -/
theorem dropsOf_deletions (seen : Seen) (rs : List State) (i : Nat) (s : State) (hs : rs[i]? = some s) :
    dropsOf i ((deletions seen rs).map Step.ofDeletion) =
      if deletionOf seen i s = some (.replaced i) ∨ deletionOf seen i s = some (.gone i) then 1 else 0 := by
  unfold dropsOf deletions
  rw [List.countP_map, List.countP_filterMap]
  have hi : i < rs.length := by
    rcases Nat.lt_or_ge i rs.length with h | h
    · exact h
    · rw [List.getElem?_eq_none h] at hs; cases hs
  have hpos : ∀ j t d, deletionOf seen j t = some d → d = .replaced j ∨ d = .gone j ∨ d = .removed j := by
    intro j t d hd
    unfold deletionOf at hd
    split at hd
    · split at hd
      · cases hd
      · cases hd; exact .inl rfl
    · split at hd
      · cases hd
      · split at hd
        · cases hd; exact .inr (.inr rfl)
        · cases hd; exact .inr (.inl rfl)
  rw [countP_index _ i]
  · rw [hs]
    cases hd : deletionOf seen i s with
    | none => simp [hd]
    | some d =>
      rcases hpos i s d hd with rfl | rfl | rfl <;> simp [hd, Step.ofDeletion, Step.drops, hi]
  · intro j hj
    cases hr : rs[j]? with
    | none => rw [hr] at hj; simp at hj
    | some t =>
      rw [hr] at hj
      simp only at hj
      cases hd : deletionOf seen j t with
      | none => rw [hd] at hj; simp at hj
      | some d =>
        rw [hd] at hj
        rcases hpos j t d hd with rfl | rfl | rfl <;> simp_all [Step.ofDeletion, Step.drops]

theorem keepsOf_deletions (ds : List Deletion) (i : Nat) : keepsOf i (ds.map Step.ofDeletion) = 0 := by
  unfold keepsOf
  rw [List.countP_map, List.countP_eq_zero]
  intro d _
  cases d <;> simp [Step.ofDeletion, Step.keeps]

theorem dropsOf_retire (rs : List State) (i : Nat) (s : State) (hs : rs[i]? = some s) :
    dropsOf i ((pendingDeletes rs).map Step.delete) = if s.delete then 1 else 0 := by
  unfold dropsOf pendingDeletes
  have hi : i < rs.length := by
    rcases Nat.lt_or_ge i rs.length with h | h
    · exact h
    · rw [List.getElem?_eq_none h] at hs; cases hs
  rw [List.countP_map, List.countP_filter, countP_index _ i]
  · have hg : rs[i] = s := by
      rw [List.getElem?_eq_getElem hi] at hs
      exact Option.some.inj hs
    simp [Step.drops, hi, hg]
  · intro j hj
    simp only [Function.comp, Step.drops, Bool.and_eq_true, decide_eq_true_eq] at hj
    exact hj.1

theorem keepsOf_retire (l : List Nat) (i : Nat) : keepsOf i (l.map Step.delete) = 0 := by
  unfold keepsOf
  rw [List.countP_map, List.countP_eq_zero]
  intro d _
  simp [Step.keeps]

theorem marked_get (p : Prev) (st : St) (i : Nat) (s : State) (hs : p.rs[i]? = some s) :
    (marked p st)[i]? = some { s with delete := s.delete || decide (i ∈ st.superseded),
                                      pendingReplacement := s.pendingReplacement || decide (i ∈ st.awaiting) } := by
  unfold marked
  rw [List.getElem?_mapIdx, hs]
  rfl

theorem mem_pendingDeletes (rs : List State) (i : Nat) : i ∈ pendingDeletes rs ↔ ∃ s, rs[i]? = some s ∧ s.delete = true := by
  unfold pendingDeletes
  rw [List.mem_filter, List.mem_reverse, List.mem_range]
  constructor
  · rintro ⟨_, h⟩
    cases hs : rs[i]? with
    | none => rw [hs] at h; cases h
    | some s => rw [hs] at h; exact ⟨s, rfl, h⟩
  · rintro ⟨s, hs, hd⟩
    refine ⟨?_, by rw [hs]; exact hd⟩
    rcases Nat.lt_or_ge i rs.length with h | h
    · exact h
    · rw [List.getElem?_eq_none h] at hs; cases hs

/-- What an update that succeeds consists of. -/
theorem update_some (p : Prev) (o : Opts) (es : List Ev) (l : List Step) (h : update p o es = some l) :
    ∃ l₀ st, handleAll p o (initial p none) es = .steps l₀ st ∧
      l = (pendingDeletes p.rs).map Step.delete ++ l₀ ++ (deletions st.seen (marked p st)).map Step.ofDeletion := by
  unfold update at h
  simp only at h
  split at h
  · cases h
  · cases hh : handleAll p o (initial p none) es with
    | error e => rw [hh] at h; cases h
    | bail => rw [hh] at h; cases h
    | crash => rw [hh] at h; cases h
    | steps l₀ st =>
      rw [hh] at h
      injection h with h
      exact ⟨l₀, st, rfl, h.symm⟩

theorem handleAll_sublist {l₀ : List Step} {a b l : List Step} (h : l = a ++ l₀ ++ b) {x : Step} (hx : x ∈ l₀) : x ∈ l := by
  rw [h]; exact List.mem_append.mpr (.inl (List.mem_append.mpr (.inr hx)))

/-- The fate of an old state at the end of an update. -/
theorem fate (p : Prev) (hp : Parsed p.rs) (hdi : Distinct p) (o : Opts) (es : List Ev) (l : List Step) (hna : NoAliases es)
    (h : update p o es = some l) (hr : NoneReadAfterDeletion l) (i : Nat) (s : State) (hs : p.rs[i]? = some s) :
    (s.delete = true → keepsOf i l = 0 ∧ dropsOf i l = 1) ∧
    (s.delete = false → (keepsOf i l = 1 ∧ dropsOf i l = 0) ∨ (keepsOf i l = 0 ∧ dropsOf i l = 1) ∨
      (s.pendingReplacement = true ∧ keepsOf i l = 0 ∧ dropsOf i l = 0)) := by
  obtain ⟨l₀, st, hh, hl⟩ := update_some p o es l h
  have hinv : Inv p l₀ st := by
    have := handleAll_inv p hp hdi o es [] (initial p none) l₀ st (inv_initial p none) hna hh (by
      intro j u hj
      have := hr j u (handleAll_sublist hl (by simpa using hj))
      exact ⟨fun hm => this.1 (handleAll_sublist hl (by simpa using hm)),
        fun hm => this.2 (handleAll_sublist hl (by simpa using hm))⟩)
    simpa using this
  have hm := marked_get p st i s hs
  have hk : keepsOf i l = keepsOf i l₀ := by
    rw [hl, keepsOf_append, keepsOf_append, keepsOf_retire, keepsOf_deletions]; omega
  have hd : dropsOf i l = (if s.delete then 1 else 0) + (if i ∈ st.awaiting then 1 else 0) +
      dropsOf i ((deletions st.seen (marked p st)).map Step.ofDeletion) := by
    rw [hl, dropsOf_append, dropsOf_append, dropsOf_retire _ _ _ hs, hinv.drops]
  rw [dropsOf_deletions st.seen _ i _ hm] at hd
  refine ⟨?_, ?_⟩
  · intro hsd
    have hna' : i ∉ st.awaiting := by
      intro ha
      obtain ⟨t, ht, htd, _⟩ := hinv.aw i ha
      rw [hs] at ht; cases ht
      rw [hsd] at htd; cases htd
    have hk0 : keepsOf i l₀ = 0 := by
      cases hc : keepsOf i l₀ with
      | zero => rfl
      | succ n =>
        obtain ⟨_, t, ht, htd, _⟩ := hinv.ke i (by rw [hc]; exact Nat.succ_ne_zero n)
        rw [hs] at ht; cases ht
        rw [hsd] at htd; cases htd
    refine ⟨hk.trans hk0, ?_⟩
    have hpen : i ∈ st.seen.pendingDeletes := by rw [hinv.pending, mem_pendingDeletes]; exact ⟨s, hs, hsd⟩
    rw [hd, if_pos hsd, if_neg hna', if_neg]
    unfold deletionOf
    simp [hsd, hpen]
  · intro hsd
    have hpen : i ∉ st.seen.pendingDeletes := by
      rw [hinv.pending, mem_pendingDeletes]
      rintro ⟨t, ht, htd⟩
      rw [hs] at ht; cases ht
      rw [hsd] at htd; cases htd
    rw [hd, hk]
    rw [hsd]
    simp only [Bool.false_eq_true, if_false, Nat.zero_add, Bool.false_or]
    by_cases hsu : i ∈ st.superseded
    · obtain ⟨h1, h2, _⟩ := hinv.su i hsu
      right; left
      refine ⟨h2, ?_⟩
      rw [if_neg h1, if_pos]
      left
      unfold deletionOf
      simp [hsu, hpen]
    · by_cases ha : i ∈ st.awaiting
      · have hk0 : keepsOf i l₀ = 0 := by
          cases hc : keepsOf i l₀ with
          | zero => rfl
          | succ n => exact absurd ha (hinv.ke i (by rw [hc]; exact Nat.succ_ne_zero n)).1
        right; left
        refine ⟨hk0, ?_⟩
        rw [if_pos ha, if_neg]
        unfold deletionOf
        simp only [hsu, ha, decide_true, decide_false, Bool.or_true, if_true, Bool.false_eq_true, if_false]
        split <;> simp
      · by_cases hkk : keepsOf i l₀ = 0
        · have hu : s.urn ∉ st.seen.urns := by
            intro hu
            cases ho : oldOf p.rs s.urn with
            | none => exact oldOf_none p.rs s.urn ho i s hs hsd rfl
            | some j =>
              obtain ⟨t, ht, htd, htu⟩ := oldOf_some p.rs s.urn j ho
              have hji : j = i := hdi j i t s ht hs htd hsd htu
              rw [hji] at ho
              rcases hinv.ur s.urn hu i ho with hx | hx | hx
              · exact ha hx
              · exact hsu hx
              · exact hx hkk
          have hsets : ¬ (s.urn ∈ st.seen.sames ∨ s.urn ∈ st.seen.updates ∨ s.urn ∈ st.seen.replaces ∨
              s.urn ∈ st.seen.reads ∨ s.urn ∈ st.seen.aliased) := by
            rintro (h | h | h | h | h)
            · exact hu (hinv.sets _ (.inl h))
            · exact hu (hinv.sets _ (.inr (.inl h)))
            · exact hu (hinv.sets _ (.inr (.inr (.inl h))))
            · exact hu (hinv.sets _ (.inr (.inr (.inr h))))
            · rw [hinv.aliased] at h; cases h
          right
          cases hpr : s.pendingReplacement with
          | true =>
            right
            refine ⟨rfl, hkk, ?_⟩
            rw [if_neg ha, if_neg]
            unfold deletionOf
            simp [hsu, hsets]
          | false =>
            left
            refine ⟨hkk, ?_⟩
            rw [if_neg ha, if_pos]
            right
            unfold deletionOf
            simp [hsu, hsets, ha]
        · left
          obtain ⟨_, t, ht, _, _, hset⟩ := hinv.ke i hkk
          rw [hs] at ht; cases ht
          have := hinv.keeps i
          refine ⟨by omega, ?_⟩
          rw [if_neg ha, if_neg]
          have hsets : (s.urn ∈ st.seen.sames ∨ s.urn ∈ st.seen.updates ∨ s.urn ∈ st.seen.replaces ∨
              s.urn ∈ st.seen.reads ∨ s.urn ∈ st.seen.aliased) := by
            rcases hset with h | h | h
            · exact .inl h
            · exact .inr (.inl h)
            · exact .inr (.inr (.inr (.inl h)))
          unfold deletionOf
          simp [hsu, hsets]

end Pulumi.StepGen
