import Verif.StepGen.Limits
/-!
# Which resources of the program take over which resources of the checkpoint
-/
namespace Pulumi.StepGen
open Pulumi.Snapshot (State Provider Ref)
open Pulumi.DepGraph (Seen oldOf)

theorem Outcome.aliased {p : Prev} {o : Opts} {st : St} {g : Reg} {urn parent : String} {old : Option (Nat × State)}
    {l : List Step} {st' : St} (h : Outcome p o st g urn parent old l st') : st'.seen.aliased = st.seen.aliased := by
  cases h with
  | importFresh _ _ _ _ c => rw [c.seen]
  | importOver _ i s _ _ _ _ _ c => rw [c.seen]
  | recreate _ i s _ _ _ _ c => rw [c.seen]
  | external _ i s _ _ _ _ _ c => rw [c.seen]
  | same _ i s _ _ _ _ _ c => rw [c.seen]
  | update _ i s _ _ _ _ _ _ c => rw [c.seen]
  | before _ s₁ s₂ i s l _ _ _ _ _ _ c1 hc _ c => rw [c.seen, (condemnDependents_superseded p o s₁ i l s₂ hc).2.1, c1.seen]
  | after _ i s _ _ _ _ _ _ _ c => rw [c.seen]
  | skip _ _ _ _ _ c => rw [c.seen]
  | create _ _ _ _ _ c => rw [c.seen]

theorem countP_made {l : List Step} {urn : String} (h : l.filterMap Step.made = [urn]) :
    l.countP (fun x => decide (x.made = some urn)) = 1 := by
  have : l.countP (fun x => decide (x.made = some urn)) = (l.filterMap Step.made).count urn := by
    unfold List.count
    rw [List.countP_filterMap]
    apply List.countP_congr
    intro x _
    cases x.made <;> simp
  rw [this, h]; simp

/-- What one event takes over: at most one old state, by its URN or by a name that is an alias of the event's resource. -/
theorem handle_takes {p : Prev} {o : Opts} {st st' : St} {e : Ev} {l : List Step} (h : handle p o st e = .steps l st') :
    (∀ i, l.countP (Step.succeeds i) ≤ 1) ∧
    (∀ i, l.countP (Step.succeeds i) ≠ 0 → ∃ s, p.rs[i]? = some s ∧
      (((s.urn ∈ st'.seen.urns ∧ s.urn ∉ st.seen.urns) ∧ st'.seen.aliased = st.seen.aliased) ∨
       (∃ g, e = .register g ∧ s.urn ∈ g.aliases ∧ s.urn ∈ st'.seen.aliased ∧ (s.urn ∉ st.seen.aliased ∨ g.id ≠ "")))) ∧
    (∀ u ∈ st'.seen.aliased, u ∈ st.seen.aliased ∨ ∃ g, e = .register g ∧ u ∈ g.aliases) ∧
    (∀ u ∈ st.seen.aliased, u ∈ st'.seen.aliased) := by
  obtain ⟨urn₀, _, hmade, _, hurns⟩ := each_event_makes_one_resource p o st e l st' h
  cases e with
  | register g =>
    obtain ⟨urn, parent, h1, h2, h3, h4, h5⟩ := register_outcome p o st g l st' h
    have hm := h4.made.1
    rw [hm] at hmade
    injection hmade with hmade
    subst hmade
    have hsu := h4.succeeds
    have hal := h4.aliased
    refine ⟨fun i => ?_, ?_⟩
    · refine Nat.le_trans ?_ (Nat.le_of_eq (countP_made hm))
      apply List.countP_mono_left
      intro x hx hi
      obtain ⟨s, _, h⟩ := hsu x hx i hi
      simpa using h
    · cases hf : findOld p (urn :: g.aliases) with
      | none =>
        have hl : lookedUp p (withUrn st urn) g urn = withUrn st urn := by unfold lookedUp; rw [hf]; rfl
        rw [hl] at hal
        refine ⟨fun i hi => ?_, ?_, ?_⟩
        · exfalso
          have : 0 < l.countP (Step.succeeds i) := by omega
          obtain ⟨x, hx, hi⟩ := List.countP_pos_iff.mp this
          obtain ⟨s, ho, _⟩ := hsu x hx i hi
          unfold oldFor at ho
          rw [hf] at ho
          cases ho
        · intro u hu; rw [hal] at hu; exact .inl hu
        · intro u hu; rw [hal]; exact hu
      | some f =>
        obtain ⟨u, i⟩ := f
        obtain ⟨hmem, ho⟩ := findOld_some p _ u i hf
        obtain ⟨s, hs, _, hu⟩ := oldOf_some p.rs u i ho
        have hold : ∀ j, l.countP (Step.succeeds j) ≠ 0 → j = i := by
          intro j hj
          have : 0 < l.countP (Step.succeeds j) := by omega
          obtain ⟨x, hx, hj⟩ := List.countP_pos_iff.mp this
          obtain ⟨t, ho', _⟩ := hsu x hx j hj
          unfold oldFor at ho'
          rw [hf] at ho'
          simp only [Option.bind_some, hs, Option.map_some, Option.some.injEq, Prod.mk.injEq] at ho'
          exact ho'.1.symm
        by_cases hue : u = urn
        · have hl : lookedUp p (withUrn st urn) g urn = withUrn st urn := by
            unfold lookedUp; rw [hf]; simp only [noteAlias, if_pos hue]
          rw [hl] at hal
          refine ⟨fun j hj => ?_, ?_, ?_⟩
          · have := hold j hj
            subst this
            refine ⟨s, hs, .inl ⟨⟨?_, ?_⟩, hal⟩⟩
            · rw [hurns, hu, hue]; exact List.mem_cons_self
            · rw [hu, hue]; exact h3
          · intro v hv; rw [hal] at hv; exact .inl hv
          · intro v hv; rw [hal]; exact hv
        · have hl : (lookedUp p (withUrn st urn) g urn).seen.aliased = u :: st.seen.aliased := by
            unfold lookedUp; rw [hf]; simp only [noteAlias, if_neg hue]; rfl
          rw [hl] at hal
          have hga : u ∈ g.aliases := by
            rcases List.mem_cons.mp hmem with h | h
            · exact absurd h hue
            · exact h
          refine ⟨fun j hj => ?_, ?_, ?_⟩
          · have := hold j hj
            subst this
            refine ⟨s, hs, .inr ⟨g, rfl, by rw [hu]; exact hga, by rw [hal, hu]; exact List.mem_cons_self, ?_⟩⟩
            rw [hu]
            rcases h5 with h5 | h5
            · left
              unfold taken at h5
              rw [hf] at h5
              simp only [noteAlias, if_neg hue, decide_eq_false_iff_not] at h5
              exact h5
            · right
              unfold isImport at h5
              simp only [Bool.and_eq_true, decide_eq_true_eq] at h5
              exact h5.1.2
          · intro v hv
            rw [hal] at hv
            rcases List.mem_cons.mp hv with hv | hv
            · exact .inr ⟨g, rfl, by rw [hv]; exact hga⟩
            · exact .inl hv
          · intro v hv; rw [hal]; exact List.mem_cons_of_mem _ hv
  | read r =>
    obtain ⟨urn, parent, h1, h2, h3, h4⟩ := read_outcome p o st r l st' h
    have hal : st'.seen.aliased = st.seen.aliased := by cases h4 <;> rfl
    have hm : l.filterMap Step.made = [urn] := by cases h4 <;> rfl
    rw [hm] at hmade
    injection hmade with hmade
    subst hmade
    refine ⟨fun i => ?_, fun i hi => ?_, fun u hu => .inl (hal ▸ hu), fun u hu => hal ▸ hu⟩
    · refine Nat.le_trans ?_ (Nat.le_of_eq (countP_made hm))
      apply List.countP_mono_left
      intro x hx hi
      simpa using (h4.succeeds x hx i hi).2
    · have : 0 < l.countP (Step.succeeds i) := by omega
      obtain ⟨x, hx, hi⟩ := List.countP_pos_iff.mp this
      obtain ⟨ho, _⟩ := h4.succeeds x hx i hi
      obtain ⟨s, hs, _, hu⟩ := oldOf_some p.rs urn i ho
      refine ⟨s, hs, .inl ⟨⟨?_, ?_⟩, hal⟩⟩
      · rw [hurns, hu]; exact List.mem_cons_self
      · rw [hu]; exact h3

theorem handleAll_takes (p : Prev) (o : Opts) (al : List String) : ∀ (es : List Ev) (pre : List Step) (st : St) (l : List Step)
    (st' : St), (∀ g, Ev.register g ∈ es → g.id = "" ∧ ∀ u ∈ g.aliases, u ∈ al) → (∀ u ∈ st.seen.aliased, u ∈ al) →
    (∀ u ∈ st'.seen.urns, u ∉ al) →
    (∀ i, pre.countP (Step.succeeds i) ≤ 1 ∧ (pre.countP (Step.succeeds i) ≠ 0 → ∃ s, p.rs[i]? = some s ∧
      (s.urn ∈ st.seen.urns ∨ s.urn ∈ st.seen.aliased))) →
    handleAll p o st es = .steps l st' → ∀ i, (pre ++ l).countP (Step.succeeds i) ≤ 1 := by
  intro es
  induction es with
  | nil =>
    intro pre st l st' _ _ _ hinv h i
    simp only [handleAll] at h
    injection h with h1 h2
    subst h1
    rw [List.append_nil]
    exact (hinv i).1
  | cons e es ih =>
    intro pre st l st' hes hst hst' hinv h i
    obtain ⟨l₁, st₁, l₂, h1, h2, h3⟩ := handleAll_cons h
    obtain ⟨a, b, c, d⟩ := handle_takes h1
    have hsub : ∀ u ∈ st₁.seen.urns, u ∈ st'.seen.urns := by
      intro u hu
      rw [(handleAll_made p o es st₁ l₂ st' h2).2.2.2]
      exact List.mem_append.mpr (.inr hu)
    obtain ⟨urn, _, _, _, hurns⟩ := each_event_makes_one_resource p o st e l₁ st₁ h1
    rw [h3, ← List.append_assoc]
    refine ih (pre ++ l₁) st₁ l₂ st' (fun g hg => hes g (List.mem_cons_of_mem _ hg)) ?_ hst' ?_ h2 i
    · intro u hu
      rcases c u hu with hu | ⟨g, rfl, hg⟩
      · exact hst u hu
      · exact (hes g List.mem_cons_self).2 u hg
    · intro j
      rw [List.countP_append]
      have hj := hinv j
      by_cases hl : l₁.countP (Step.succeeds j) = 0
      · rw [hl, Nat.add_zero]
        refine ⟨hj.1, fun hne => ?_⟩
        obtain ⟨s, hs, hx⟩ := hj.2 hne
        refine ⟨s, hs, ?_⟩
        rcases hx with hx | hx
        · left; rw [hurns]; exact List.mem_cons_of_mem _ hx
        · exact .inr (d _ hx)
      · obtain ⟨s, hs, hx⟩ := b j hl
        have h0 : pre.countP (Step.succeeds j) = 0 := by
          apply Decidable.byContradiction
          intro hne
          obtain ⟨t, ht, hy⟩ := hj.2 hne
          rw [hs] at ht; cases ht
          rcases hx with ⟨⟨hx1, hx2⟩, hx3⟩ | ⟨g, rfl, hx1, hx2, hx3⟩
          · rcases hy with hy | hy
            · exact hx2 hy
            · exact hst' _ (hsub _ hx1) (hst _ hy)
          · have hal := (hes g List.mem_cons_self).2 _ hx1
            rcases hy with hy | hy
            · exact hst' _ (hsub _ (by rw [hurns]; exact List.mem_cons_of_mem _ hy)) hal
            · rcases hx3 with hx3 | hx3
              · exact hx3 hy
              · exact hx3 (hes g List.mem_cons_self).1
        rw [h0, Nat.zero_add]
        refine ⟨a j, fun _ => ⟨s, hs, ?_⟩⟩
        rcases hx with ⟨⟨hx1, _⟩, _⟩ | ⟨g, rfl, _, hx2, _⟩
        · exact .inl hx1
        · exact .inr hx2

/-- C158: no two resources of the program take over the same resource of the checkpoint, if no resource of the program has the URN
of another's alias, and nothing is imported.

What is missing (`_partial`): without these conditions it is false, see `aliases_can_share_a_resource`; two imports with the same alias
crash the update, see `imports_by_the_same_alias_crash`. -/
theorem resources_are_taken_over_once_partial (p : Prev) (o : Opts) (es : List Ev) (l : List Step) (h : update p o es = some l)
    (hid : ∀ g, Ev.register g ∈ es → g.id = "")
    (hal : ∀ u ∈ l.filterMap Step.made, ∀ g, Ev.register g ∈ es → u ∉ g.aliases) (i : Nat) :
    l.countP (Step.succeeds i) ≤ 1 := by
  obtain ⟨l₀, st, hh, hl⟩ := update_some p o es l h
  have hmade := handleAll_made p o es _ _ _ hh
  have hm : l.filterMap Step.made = l₀.filterMap Step.made := by
    rw [hl, List.filterMap_append, List.filterMap_append, made_retire, made_ofDeletion]; simp
  have h0 : l.countP (Step.succeeds i) = l₀.countP (Step.succeeds i) := by
    have h1 : ((DepGraph.pendingDeletes p.rs).map Step.delete).countP (Step.succeeds i) = 0 := by
      rw [List.countP_eq_zero]
      intro x hx
      obtain ⟨j, _, rfl⟩ := List.mem_map.mp hx
      simp [Step.succeeds]
    have h2 : ((DepGraph.deletions st.seen (marked p st)).map Step.ofDeletion).countP (Step.succeeds i) = 0 := by
      rw [List.countP_eq_zero]
      intro x hx
      obtain ⟨j, _, rfl⟩ := List.mem_map.mp hx
      cases j <;> simp [Step.succeeds, Step.ofDeletion]
    rw [hl, List.countP_append, List.countP_append, h1, h2]; omega
  rw [h0]
  have := handleAll_takes p o (es.flatMap (fun e => match e with | .register g => g.aliases | .read _ => [])) es [] _ l₀ st
    (fun g hg => ⟨hid g hg, fun u hu => List.mem_flatMap.mpr ⟨_, hg, hu⟩⟩) (by intro u hu; cases hu) ?_ (by simp) hh i
  · simpa using this
  · intro u hu hmem
    rw [hmade.2.2.2] at hu
    simp [initial] at hu
    obtain ⟨e, he, hue⟩ := List.mem_flatMap.mp hmem
    cases e with
    | read r => cases hue
    | register g =>
      refine hal u ?_ g he hue
      rw [hm]
      exact List.mem_filterMap.mpr hu

/-- `b` and `c` were renamed to `b2` and `c2`. -/
theorem renamed_update : update (prevOf [res "a", res "b", res "c"]) plainOpts
    [.register (reg "a"), .register { reg "b2" with aliases := ["b"] }, .register { reg "c2" with aliases := ["d", "c"] }] =
    some [.same 0 "a", .same 1 "b2", .same 2 "c2"] := by decide +kernel

example := resources_are_taken_over_once_partial _ _ _ _ renamed_update (by
    intro g hg; simp at hg; rcases hg with rfl | rfl | rfl <;> rfl) (by
    intro u hu g hg
    simp [Step.made] at hu
    simp at hg
    rcases hg with rfl | rfl | rfl <;> rcases hu with rfl | rfl | rfl <;> simp [reg]) 1

end Pulumi.StepGen
