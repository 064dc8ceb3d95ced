import Verif.StepGen.Lemmas
import Verif.DepGraph.Replace
namespace Pulumi.StepGen
open Pulumi.Snapshot (State Provider Ref)
open Pulumi.DepGraph (Seen Deletion Differ oldOf dependentReplacements deletions pendingDeletes Parsed Later)

/-- What the loop over the dependents does. -/
structure Condemned (p : Prev) (is : List Nat) (st : St) (cond : List Nat) (l : List Step) (st' : St) : Prop where
  steps : l = cond.map (fun i => Step.deleteReplacement i true)
  sub : cond.Sublist is
  each : ∀ j ∈ cond, ∃ s, p.rs[j]? = some s ∧ s.urn ∉ st.deletes ∧ s.delete = false ∧ j ∉ st.superseded
  awaiting : ∀ j, j ∈ st'.awaiting ↔ j ∈ cond ∨ j ∈ st.awaiting
  deletes : ∀ u, u ∈ st'.deletes ↔ u ∈ st.deletes ∨ ∃ j ∈ cond, ∃ s, p.rs[j]? = some s ∧ s.urn = u
  all : ∀ j ∈ is, ∃ s, p.rs[j]? = some s ∧ s.urn ∈ st'.deletes

theorem condemn_spec (p : Prev) : ∀ (is : List Nat) (st : St) (l : List Step) (st' : St),
    condemn p is st = some (l, st') → ∃ cond, Condemned p is st cond l st' := by
  intro is
  induction is with
  | nil =>
    intro st l st' h
    simp only [condemn, Option.some.injEq, Prod.mk.injEq] at h
    rw [← h.1, ← h.2]
    exact ⟨[], rfl, List.Sublist.refl _, by simp, by simp, by simp, by simp⟩
  | cons i is ih =>
    intro st l st' h
    simp only [condemn] at h
    cases hs : p.rs[i]? with
    | none => rw [hs] at h; cases h
    | some s =>
      rw [hs] at h
      simp only at h
      by_cases hd : s.urn ∈ st.deletes
      · rw [if_pos hd] at h
        obtain ⟨cond, hc⟩ := ih st l st' h
        refine ⟨cond, hc.steps, hc.sub.cons _, hc.each, hc.awaiting, hc.deletes, ?_⟩
        intro j hj
        rcases List.mem_cons.mp hj with hj | hj
        · subst hj; exact ⟨s, hs, (hc.deletes _).mpr (.inl hd)⟩
        · exact hc.all j hj
      · rw [if_neg hd] at h
        by_cases hx : isDelete p st i = true
        · rw [if_pos hx] at h; cases h
        · rw [if_neg hx] at h
          have hx' : s.delete = false ∧ i ∉ st.superseded := by
            unfold isDelete at hx
            rw [hs] at hx
            simpa using hx
          split at h
          · cases h
          · next l' st'' hc =>
            simp only [Option.some.injEq, Prod.mk.injEq] at h
            obtain ⟨cond, hq⟩ := ih _ _ _ hc
            rw [← h.1, ← h.2]
            refine ⟨i :: cond, ?_, hq.sub.cons_cons _, ?_, ?_, ?_, ?_⟩
            · rw [hq.steps]; rfl
            · intro j hj
              rcases List.mem_cons.mp hj with hj | hj
              · subst hj; exact ⟨s, hs, hd, hx'.1, hx'.2⟩
              · obtain ⟨t, h1, h2, h3, h4⟩ := hq.each j hj
                exact ⟨t, h1, fun hm => h2 (List.mem_cons_of_mem _ hm), h3, h4⟩
            · intro j
              rw [hq.awaiting j]
              simp only [List.mem_cons]
              constructor
              · rintro (h | h | h)
                · exact .inl (.inr h)
                · exact .inl (.inl h)
                · exact .inr h
              · rintro ((h | h) | h)
                · exact .inr (.inl h)
                · exact .inl h
                · exact .inr (.inr h)
            · intro u
              rw [hq.deletes u]
              simp only [List.mem_cons]
              constructor
              · rintro ((h | h) | ⟨j, hj, t, h1, h2⟩)
                · exact .inr ⟨i, .inl rfl, s, hs, h.symm⟩
                · exact .inl h
                · exact .inr ⟨j, .inr hj, t, h1, h2⟩
              · rintro (h | ⟨j, hj | hj, t, h1, h2⟩)
                · exact .inl (.inr h)
                · subst hj
                  rw [hs] at h1
                  cases h1
                  exact .inl (.inl h2.symm)
                · exact .inr ⟨j, hj, t, h1, h2⟩
            · intro j hj
              rcases List.mem_cons.mp hj with hj | hj
              · subst hj; exact ⟨s, hs, (hq.deletes _).mpr (.inl List.mem_cons_self)⟩
              · exact hq.all j hj

/-- What is deleted ahead of a replacement: later resources of the checkpoint, not registered so far. -/
theorem condemnDependents_spec (p : Prev) (hp : Parsed p.rs) (o : Opts) (st : St) (i : Nat) (t : State)
    (ht : p.rs[i]? = some t) (l : List Step) (st' : St) (h : condemnDependents p o st i = some (.ok (l, st'))) :
    ∃ is cond, Condemned p is st cond l st' ∧ is.Pairwise (· > ·) ∧
      ∀ j ∈ is, Later p.rs (fun u => decide (u ∈ st.seen.urns)) false i j := by
  unfold condemnDependents at h
  by_cases htr : (!o.trustDependencies) = true
  · rw [if_pos htr] at h
    injection h with h; injection h with h
    simp only [Prod.mk.injEq] at h
    rw [← h.1, ← h.2]
    exact ⟨[], [], ⟨rfl, List.Sublist.refl _, by simp, by simp, by simp, by simp⟩, List.Pairwise.nil, by simp⟩
  · rw [if_neg htr] at h
    obtain ⟨r, hr, hsp⟩ := DepGraph.dependentReplacements_spec (seen := st.seen) (inputs := p.inputs) (differ := o.differ) hp ht
    rw [hr] at h
    cases r with
    | error e => cases h
    | ok deps =>
      simp only at h hsp
      cases hc : condemn p deps.reverse st with
      | none => rw [hc] at h; cases h
      | some x =>
        rw [hc] at h
        simp only [Option.map_some, Option.some.injEq, Except.ok.injEq] at h
        rw [h] at hc
        obtain ⟨cond, hq⟩ := condemn_spec p _ _ _ _ hc
        refine ⟨_, cond, hq, ?_, ?_⟩
        · rw [List.pairwise_reverse]; exact hsp.1
        · intro j hj
          exact ((hsp.2 j).mp (List.mem_reverse.mp hj)).1

theorem later_unseen {rs : List State} {ig : String → Bool} {ch : Bool} {i j : Nat} (h : Later rs ig ch i j) :
    ∃ s, rs[j]? = some s ∧ ig s.urn = false := by
  cases h with
  | child _ hs _ hi _ _ => exact ⟨_, hs, hi⟩
  | direct _ hs hi _ => exact ⟨_, hs, hi⟩
  | through _ _ hs hi _ => exact ⟨_, hs, hi⟩

/-- What holds of the steps so far and of what the generator remembers, for a program without aliases. -/
structure Inv (p : Prev) (l : List Step) (st : St) : Prop where
  aliased : st.seen.aliased = []
  pending : st.seen.pendingDeletes = pendingDeletes p.rs
  drops : ∀ i, dropsOf i l = if i ∈ st.awaiting then 1 else 0
  keeps : ∀ i, keepsOf i l ≤ 1
  form : ∀ x ∈ l, ∀ i, x.drops i = true → x = .deleteReplacement i true
  aw : ∀ i ∈ st.awaiting, ∃ s, p.rs[i]? = some s ∧ s.delete = false ∧ (s.urn ∈ st.deletes ∨ s.urn ∈ st.seen.urns)
  su : ∀ i ∈ st.superseded, i ∉ st.awaiting ∧ keepsOf i l = 0 ∧
    ∃ s, p.rs[i]? = some s ∧ s.delete = false ∧ s.urn ∈ st.seen.urns
  ke : ∀ i, keepsOf i l ≠ 0 → i ∉ st.awaiting ∧ ∃ s, p.rs[i]? = some s ∧ s.delete = false ∧ s.urn ∈ st.seen.urns ∧
    (s.urn ∈ st.seen.sames ∨ s.urn ∈ st.seen.updates ∨ s.urn ∈ st.seen.reads)
  de : ∀ u ∈ st.deletes, ∃ i ∈ st.awaiting, ∃ s, p.rs[i]? = some s ∧ s.urn = u
  ur : ∀ u ∈ st.seen.urns, ∀ i, oldOf p.rs u = some i → i ∈ st.awaiting ∨ i ∈ st.superseded ∨ keepsOf i l ≠ 0
  sets : ∀ u, u ∈ st.seen.sames ∨ u ∈ st.seen.updates ∨ u ∈ st.seen.replaces ∨ u ∈ st.seen.reads → u ∈ st.seen.urns

theorem dropsOf_append (i : Nat) (a b : List Step) : dropsOf i (a ++ b) = dropsOf i a + dropsOf i b :=
  List.countP_append ..

theorem keepsOf_append (i : Nat) (a b : List Step) : keepsOf i (a ++ b) = keepsOf i a + keepsOf i b :=
  List.countP_append ..

/-- What an event may do, in general. -/
structure Move (p : Prev) (st : St) (urn : String) (l : List Step) (st' : St) (cond sup kept : List Nat) : Prop where
  urns : st'.seen.urns = urn :: st.seen.urns
  aliased : st'.seen.aliased = st.seen.aliased
  pending : st'.seen.pendingDeletes = st.seen.pendingDeletes
  sets : ∀ u, u ∈ st'.seen.sames ∨ u ∈ st'.seen.updates ∨ u ∈ st'.seen.replaces ∨ u ∈ st'.seen.reads →
    u = urn ∨ u ∈ st.seen.sames ∨ u ∈ st.seen.updates ∨ u ∈ st.seen.replaces ∨ u ∈ st.seen.reads
  sames : ∀ u ∈ st.seen.sames, u ∈ st'.seen.sames
  updates : ∀ u ∈ st.seen.updates, u ∈ st'.seen.updates
  reads : ∀ u ∈ st.seen.reads, u ∈ st'.seen.reads
  awaiting : ∀ j, j ∈ st'.awaiting ↔ j ∈ cond ∨ j ∈ st.awaiting
  superseded : ∀ j, j ∈ st'.superseded ↔ j ∈ sup ∨ j ∈ st.superseded
  drops : ∀ i, dropsOf i l = if i ∈ cond then 1 else 0
  keeps : ∀ i, keepsOf i l = if i ∈ kept then 1 else 0
  form : ∀ x ∈ l, ∀ i, x.drops i = true → x = .deleteReplacement i true
  hcond : ∀ j ∈ cond, j ∉ st.awaiting ∧ ∃ s, p.rs[j]? = some s ∧ s.delete = false ∧ s.urn ∉ st.seen.urns ∧
    (s.urn ∈ st'.deletes ∨ s.urn = urn)
  hsup : ∀ j ∈ sup, oldOf p.rs urn = some j ∧ j ∉ st.awaiting ∧ j ∉ cond ∧ j ∉ kept
  hkept : ∀ j ∈ kept, oldOf p.rs urn = some j ∧ j ∉ st.awaiting ∧ j ∉ cond ∧
    (urn ∈ st'.seen.sames ∨ urn ∈ st'.seen.updates ∨ urn ∈ st'.seen.reads)
  del1 : ∀ u ∈ st.deletes, u ∈ st'.deletes ∨ u = urn
  del2 : ∀ u ∈ st'.deletes, u ∈ st.deletes ∨ ∃ j ∈ cond, ∃ s, p.rs[j]? = some s ∧ s.urn = u
  settled : ∀ i, oldOf p.rs urn = some i → i ∈ st.awaiting ∨ i ∈ cond ∨ i ∈ sup ∨ i ∈ kept

theorem Inv.move {p : Prev} {pre l : List Step} {st st' : St} {urn : String} {cond sup kept : List Nat}
    (h : Inv p pre st) (hn : urn ∉ st.seen.urns) (m : Move p st urn l st' cond sup kept) : Inv p (pre ++ l) st' := by
  have hkept : ∀ i, i ∈ kept → keepsOf i pre = 0 := by
    intro i hi
    cases hk : keepsOf i pre with
    | zero => rfl
    | succ n =>
      obtain ⟨_, s, hs, _, hu, _⟩ := h.ke i (by rw [hk]; exact Nat.succ_ne_zero n)
      obtain ⟨t, ht, _, hu'⟩ := oldOf_some p.rs urn i (m.hkept i hi).1
      rw [hs] at ht; cases ht
      rw [hu'] at hu
      exact absurd hu hn
  have hcond0 : ∀ i, i ∈ cond → keepsOf i pre = 0 ∧ i ∉ st.superseded := by
    intro i hi
    obtain ⟨_, s, hs, _, hu, _⟩ := m.hcond i hi
    refine ⟨?_, ?_⟩
    · cases hk : keepsOf i pre with
      | zero => rfl
      | succ n =>
        obtain ⟨_, t, ht, _, hu', _⟩ := h.ke i (by rw [hk]; exact Nat.succ_ne_zero n)
        rw [hs] at ht; cases ht
        exact absurd hu' hu
    · intro hsu
      obtain ⟨_, _, t, ht, _, hu'⟩ := h.su i hsu
      rw [hs] at ht; cases ht
      exact absurd hu' hu
  refine ⟨m.aliased.trans h.aliased, m.pending.trans h.pending, ?_, ?_, ?_, ?_, ?_, ?_, ?_, ?_, ?_⟩
  · intro i
    rw [dropsOf_append, h.drops, m.drops]
    by_cases hc : i ∈ cond
    · have := (m.hcond i hc).1
      rw [if_neg this, if_pos hc, if_pos ((m.awaiting i).mpr (.inl hc))]
    · rw [if_neg hc]
      by_cases ha : i ∈ st.awaiting
      · rw [if_pos ha, if_pos ((m.awaiting i).mpr (.inr ha))]
      · rw [if_neg ha, if_neg (fun hx => ((m.awaiting i).mp hx).elim hc ha)]
  · intro i
    rw [keepsOf_append, m.keeps]
    by_cases hk : i ∈ kept
    · rw [hkept i hk, if_pos hk]; exact Nat.le_refl _
    · rw [if_neg hk]; exact h.keeps i
  · intro x hx
    rcases List.mem_append.mp hx with hx | hx
    · exact h.form x hx
    · exact m.form x hx
  · intro i hi
    rcases (m.awaiting i).mp hi with hc | ha
    · obtain ⟨_, s, hs, hd, _, hu⟩ := m.hcond i hc
      refine ⟨s, hs, hd, ?_⟩
      rcases hu with hu | hu
      · exact .inl hu
      · right; rw [m.urns, hu]; exact List.mem_cons_self
    · obtain ⟨s, hs, hd, hu⟩ := h.aw i ha
      refine ⟨s, hs, hd, ?_⟩
      rcases hu with hu | hu
      · rcases m.del1 _ hu with h1 | h1
        · exact .inl h1
        · right; rw [m.urns, h1]; exact List.mem_cons_self
      · right; rw [m.urns]; exact List.mem_cons_of_mem _ hu
  · intro i hi
    rcases (m.superseded i).mp hi with hs | hs
    · obtain ⟨ho, ha, hc, hk⟩ := m.hsup i hs
      obtain ⟨s, hs', hd, hu⟩ := oldOf_some p.rs urn i ho
      refine ⟨fun hx => ((m.awaiting i).mp hx).elim hc ha, ?_, s, hs', hd, ?_⟩
      · rw [keepsOf_append, m.keeps, if_neg hk]
        cases hk0 : keepsOf i pre with
        | zero => rfl
        | succ n =>
          obtain ⟨_, t, ht, _, hu', _⟩ := h.ke i (by rw [hk0]; exact Nat.succ_ne_zero n)
          rw [hs'] at ht; cases ht
          rw [hu] at hu'
          exact absurd hu' hn
      · rw [m.urns, hu]; exact List.mem_cons_self
    · obtain ⟨h1, h2, s, hs', hd, hu⟩ := h.su i hs
      have hck : i ∉ cond := fun hc => (hcond0 i hc).2 hs
      have hkk : i ∉ kept := by
        intro hk
        obtain ⟨t, ht, _, hu'⟩ := oldOf_some p.rs urn i (m.hkept i hk).1
        rw [hs'] at ht; cases ht
        rw [hu'] at hu
        exact absurd hu hn
      refine ⟨fun hx => ((m.awaiting i).mp hx).elim hck h1, ?_, s, hs', hd, ?_⟩
      · rw [keepsOf_append, m.keeps, if_neg hkk, h2]
      · rw [m.urns]; exact List.mem_cons_of_mem _ hu
  · intro i hi
    rw [keepsOf_append, m.keeps] at hi
    by_cases hk : i ∈ kept
    · obtain ⟨ho, ha, hc, hset⟩ := m.hkept i hk
      obtain ⟨s, hs', hd, hu⟩ := oldOf_some p.rs urn i ho
      refine ⟨fun hx => ((m.awaiting i).mp hx).elim hc ha, s, hs', hd, ?_, ?_⟩
      · rw [m.urns, hu]; exact List.mem_cons_self
      · rw [hu]; exact hset
    · rw [if_neg hk] at hi
      obtain ⟨h1, s, hs', hd, hu, hset⟩ := h.ke i hi
      refine ⟨fun hx => ((m.awaiting i).mp hx).elim (fun hc => hi (hcond0 i hc).1) h1, s, hs', hd, ?_, ?_⟩
      · rw [m.urns]; exact List.mem_cons_of_mem _ hu
      · rcases hset with hx | hx | hx
        · exact .inl (m.sames _ hx)
        · exact .inr (.inl (m.updates _ hx))
        · exact .inr (.inr (m.reads _ hx))
  · intro u hu
    rcases m.del2 u hu with hx | ⟨j, hj, s, hs, he⟩
    · obtain ⟨i, hi, s, hs, he⟩ := h.de u hx
      exact ⟨i, (m.awaiting i).mpr (.inr hi), s, hs, he⟩
    · exact ⟨j, (m.awaiting j).mpr (.inl hj), s, hs, he⟩
  · intro u hu i ho
    rw [m.urns] at hu
    rcases List.mem_cons.mp hu with hu | hu
    · subst hu
      rcases m.settled i ho with hx | hx | hx | hx
      · exact .inl ((m.awaiting i).mpr (.inr hx))
      · exact .inl ((m.awaiting i).mpr (.inl hx))
      · exact .inr (.inl ((m.superseded i).mpr (.inl hx)))
      · right; right
        rw [keepsOf_append, m.keeps, if_pos hx]
        exact Nat.succ_ne_zero _
    · rcases h.ur u hu i ho with hx | hx | hx
      · exact .inl ((m.awaiting i).mpr (.inr hx))
      · exact .inr (.inl ((m.superseded i).mpr (.inr hx)))
      · right; right
        rw [keepsOf_append]
        omega
  · intro u hu
    rw [m.urns]
    rcases m.sets u hu with hx | hx
    · rw [hx]; exact List.mem_cons_self
    · exact List.mem_cons_of_mem _ (h.sets u hx)

theorem lookedUp_direct (p : Prev) (st : St) (g : Reg) (urn : String) (ha : g.aliases = []) : lookedUp p st g urn = st := by
  unfold lookedUp
  rw [ha]
  cases hf : findOld p [urn] with
  | none => rfl
  | some x =>
    obtain ⟨u, i⟩ := x
    have := (findOld_some p _ _ _ hf).1
    simp only [List.mem_singleton] at this
    unfold noteAlias
    simp [this]

theorem oldFor_direct_some (p : Prev) (urn : String) (i : Nat) (s : State) :
    oldFor p urn [] = some (i, s) ↔ oldOf p.rs urn = some i ∧ p.rs[i]? = some s := by
  unfold oldFor findOld findOld
  cases ho : oldOf p.rs urn with
  | none => simp
  | some j =>
    obtain ⟨t, ht, _, _⟩ := oldOf_some p.rs urn j ho
    simp only [Option.bind_some, ht, Option.map_some, Option.some.injEq, Prod.mk.injEq]
    constructor
    · rintro ⟨rfl, rfl⟩; exact ⟨rfl, ht⟩
    · rintro ⟨rfl, h⟩; rw [ht] at h; cases h; exact ⟨rfl, rfl⟩

theorem oldFor_direct_none (p : Prev) (urn : String) : oldFor p urn [] = none ↔ oldOf p.rs urn = none := by
  unfold oldFor findOld findOld
  cases ho : oldOf p.rs urn with
  | none => simp
  | some j =>
    obtain ⟨t, ht, _, _⟩ := oldOf_some p.rs urn j ho
    simp [ht]

theorem Inv.awaiting_old {p : Prev} {pre : List Step} {st : St} (h : Inv p pre st) (hdi : Distinct p) {urn : String} {i : Nat}
    (ho : oldOf p.rs urn = some i) (hd : urn ∈ st.deletes) : i ∈ st.awaiting := by
  obtain ⟨j, hj, s, hs, hu⟩ := h.de urn hd
  obtain ⟨t, ht, htd, htu⟩ := oldOf_some p.rs urn i ho
  obtain ⟨s', hs', hsd, _⟩ := h.aw j hj
  rw [hs] at hs'; cases hs'
  have := hdi j i s t hs ht hsd htd (hu.trans htu.symm)
  rw [← this]; exact hj

theorem Inv.not_awaiting {p : Prev} {pre : List Step} {st : St} (h : Inv p pre st) {urn : String} {i : Nat}
    (ho : oldOf p.rs urn = some i) (hd : urn ∉ st.deletes) (hn : urn ∉ st.seen.urns) : i ∉ st.awaiting := by
  intro hi
  obtain ⟨s, hs, _, hu⟩ := h.aw i hi
  obtain ⟨t, ht, _, htu⟩ := oldOf_some p.rs urn i ho
  rw [hs] at ht; cases ht
  rw [htu] at hu
  exact hu.elim hd hn

/-- An event that does not delete anything. -/
theorem Move.quiet {p : Prev} {st st' : St} {urn : String} {l : List Step} {sup kept : List Nat}
    (urns : st'.seen.urns = urn :: st.seen.urns) (aliased : st'.seen.aliased = st.seen.aliased)
    (pending : st'.seen.pendingDeletes = st.seen.pendingDeletes)
    (sets : ∀ u, u ∈ st'.seen.sames ∨ u ∈ st'.seen.updates ∨ u ∈ st'.seen.replaces ∨ u ∈ st'.seen.reads →
      u = urn ∨ u ∈ st.seen.sames ∨ u ∈ st.seen.updates ∨ u ∈ st.seen.replaces ∨ u ∈ st.seen.reads)
    (sames : ∀ u ∈ st.seen.sames, u ∈ st'.seen.sames) (updates : ∀ u ∈ st.seen.updates, u ∈ st'.seen.updates)
    (reads : ∀ u ∈ st.seen.reads, u ∈ st'.seen.reads) (awaiting : st'.awaiting = st.awaiting)
    (superseded : st'.superseded = sup ++ st.superseded) (drops : ∀ i, dropsOf i l = 0)
    (keeps : ∀ i, keepsOf i l = if i ∈ kept then 1 else 0)
    (hsup : ∀ j ∈ sup, oldOf p.rs urn = some j ∧ j ∉ st.awaiting ∧ j ∉ kept)
    (hkept : ∀ j ∈ kept, oldOf p.rs urn = some j ∧ j ∉ st.awaiting ∧
      (urn ∈ st'.seen.sames ∨ urn ∈ st'.seen.updates ∨ urn ∈ st'.seen.reads))
    (del1 : ∀ u ∈ st.deletes, u ∈ st'.deletes ∨ u = urn) (del2 : ∀ u ∈ st'.deletes, u ∈ st.deletes)
    (settled : ∀ i, oldOf p.rs urn = some i → i ∈ st.awaiting ∨ i ∈ sup ∨ i ∈ kept) :
    Move p st urn l st' [] sup kept where
  urns := urns
  aliased := aliased
  pending := pending
  sets := sets
  sames := sames
  updates := updates
  reads := reads
  awaiting := by intro j; rw [awaiting]; simp
  superseded := by intro j; rw [superseded]; simp
  drops := by intro i; rw [drops i]; simp
  keeps := keeps
  form := by
    intro x hx i hd
    have := List.countP_eq_zero.mp (drops i) x hx
    exact absurd hd this
  hcond := by simp
  hsup := by intro j hj; obtain ⟨a, b, c⟩ := hsup j hj; exact ⟨a, b, by simp, c⟩
  hkept := by intro j hj; obtain ⟨a, b, c⟩ := hkept j hj; exact ⟨a, b, by simp, c⟩
  del1 := del1
  del2 := fun u hu => .inl (del2 u hu)
  settled := by
    intro i hi
    rcases settled i hi with h | h | h
    · exact .inl h
    · exact .inr (.inr (.inl h))
    · exact .inr (.inr (.inr h))

theorem deletion_steps_drops (cond : List Nat) (hnd : cond.Nodup) (i : Nat) :
    dropsOf i (cond.map (fun i => Step.deleteReplacement i true)) = if i ∈ cond then 1 else 0 := by
  unfold dropsOf
  rw [List.countP_map]
  have : ((Step.drops i) ∘ fun j => Step.deleteReplacement j true) = fun j => j == i := by
    funext j; simp [Step.drops]; rfl
  rw [this]
  change cond.count i = _
  exact hnd.count

theorem deletion_steps_keeps (cond : List Nat) (i : Nat) :
    keepsOf i (cond.map (fun i => Step.deleteReplacement i true)) = 0 := by
  unfold keepsOf
  rw [List.countP_map, List.countP_eq_zero]
  intro j _
  simp [Step.keeps]

theorem register_move (p : Prev) (hp : Parsed p.rs) (hdi : Distinct p) (o : Opts) (pre : List Step) (st : St)
    (hinv : Inv p pre st) (g : Reg) (ha : g.aliases = []) (l : List Step) (st' : St)
    (h : handle p o st (.register g) = .steps l st') :
    ∃ urn cond sup kept, urn ∉ st.seen.urns ∧ Move p st urn l st' cond sup kept := by
  obtain ⟨urn, parent, _, _, hn, hout, _⟩ := register_outcome p o st g l st' h
  rw [lookedUp_direct p _ g urn ha, ha] at hout
  refine ⟨urn, ?_⟩
  have hno : oldOf p.rs urn = none → ∀ i, oldOf p.rs urn = some i → i ∈ st.awaiting ∨ i ∈ ([] : List Nat) ∨ i ∈ ([] : List Nat) := by
    intro h i hi; rw [h] at hi; cases hi
  cases hout with
  | importFresh _ _ ho _ hc =>
    obtain ⟨e1, e2, e3, e4⟩ := hc
    refine ⟨[], [], [], hn, Move.quiet (by rw [e1]; rfl) (by rw [e1]; rfl) (by rw [e1]; rfl) (by rw [e1]; exact fun u h => .inr h)
      (by rw [e1]; exact fun _ h => h) (by rw [e1]; exact fun _ h => h) (by rw [e1]; exact fun _ h => h) e4 e3
      (by intro i; rfl) (by intro i; rfl) (by simp) (by simp) (by rw [e2]; exact fun _ h => .inl h)
      (by rw [e2]; exact fun _ h => h) ?_⟩
    rcases ho with ho | ho
    · exact hno ((oldFor_direct_none p urn).mp ho)
    · exact fun i hi => .inl (hinv.awaiting_old hdi hi ho)
  | importOver _ i s _ ho hd _ _ hc =>
    obtain ⟨e1, e2, e3, e4⟩ := hc
    obtain ⟨ho, hs⟩ := (oldFor_direct_some p urn i s).mp ho
    refine ⟨[], [i], [], hn, Move.quiet (by rw [e1]; rfl) (by rw [e1]; rfl) (by rw [e1]; rfl)
      (by rw [e1]; exact fun u h => .inr h)
      (by rw [e1]; exact fun _ h => h) (by rw [e1]; exact fun _ h => h) (by rw [e1]; exact fun _ h => h) e4 e3
      (by intro i; rfl) (by intro i; rfl) ?_ (by simp) (by rw [e2]; exact fun _ h => .inl h)
      (by rw [e2]; exact fun _ h => h) ?_⟩
    · intro j hj; rw [List.mem_singleton] at hj; subst hj; exact ⟨ho, hinv.not_awaiting ho hd hn, by simp⟩
    · intro j hj; rw [ho] at hj; cases hj; exact .inr (.inl List.mem_cons_self)
  | recreate _ i s hd ho _ _ hc =>
    obtain ⟨e1, e2, e3, e4⟩ := hc
    obtain ⟨ho, hs⟩ := (oldFor_direct_some p urn i s).mp ho
    refine ⟨[], [], [], hn, Move.quiet (by rw [e1]; rfl) (by rw [e1]; rfl) (by rw [e1]; rfl) ?_
      (by rw [e1]; exact fun _ h => h) (by rw [e1]; exact fun _ h => h) (by rw [e1]; exact fun _ h => h) e4 e3
      (by intro i; rfl) (by intro i; rfl) (by simp) (by simp) ?_ ?_ ?_⟩
    · rw [e1]
      simp only [List.mem_cons]
      rintro u (h | h | (h | h) | h)
      · exact .inr (.inl h)
      · exact .inr (.inr (.inl h))
      · exact .inl h
      · exact .inr (.inr (.inr (.inl h)))
      · exact .inr (.inr (.inr (.inr h)))
    · intro u hu
      rw [e2]
      by_cases he : u = urn
      · exact .inr he
      · exact .inl (List.mem_filter.mpr ⟨hu, by simpa using he⟩)
    · intro u hu
      rw [e2] at hu
      exact (List.mem_filter.mp hu).1
    · intro j hj; exact .inl (hinv.awaiting_old hdi hj hd)
  | external _ i s hd ho _ _ _ hc =>
    obtain ⟨e1, e2, e3, e4⟩ := hc
    obtain ⟨ho, hs⟩ := (oldFor_direct_some p urn i s).mp ho
    refine ⟨[], [i], [], hn, Move.quiet (by rw [e1]; rfl) (by rw [e1]; rfl) (by rw [e1]; rfl)
      (by rw [e1]; exact fun u h => .inr h)
      (by rw [e1]; exact fun _ h => h) (by rw [e1]; exact fun _ h => h) (by rw [e1]; exact fun _ h => h) e4 e3
      (by intro i; rfl) (by intro i; rfl) ?_ (by simp) (by rw [e2]; exact fun _ h => .inl h)
      (by rw [e2]; exact fun _ h => h) ?_⟩
    · intro j hj; rw [List.mem_singleton] at hj; subst hj; exact ⟨ho, hinv.not_awaiting ho hd hn, by simp⟩
    · intro j hj; rw [ho] at hj; cases hj; exact .inr (.inl List.mem_cons_self)
  | same _ i s hd ho _ _ _ hc =>
    obtain ⟨e1, e2, e3, e4⟩ := hc
    obtain ⟨ho, hs⟩ := (oldFor_direct_some p urn i s).mp ho
    refine ⟨[], [], [i], hn, Move.quiet (by rw [e1]; rfl) (by rw [e1]; rfl) (by rw [e1]; rfl) ?_
      (by rw [e1]; exact fun _ h => List.mem_cons_of_mem _ h) (by rw [e1]; exact fun _ h => h) (by rw [e1]; exact fun _ h => h) e4 e3
      (by intro i; rfl) ?_ (by simp) ?_ (by rw [e2]; exact fun _ h => .inl h)
      (by rw [e2]; exact fun _ h => h) ?_⟩
    · rw [e1]
      simp only [List.mem_cons]
      rintro u ((h | h) | h | h | h)
      · exact .inl h
      · exact .inr (.inl h)
      · exact .inr (.inr (.inl h))
      · exact .inr (.inr (.inr (.inl h)))
      · exact .inr (.inr (.inr (.inr h)))
    · intro j
      by_cases hj : i = j
      · subst hj; simp [keepsOf, Step.keeps]
      · have : ¬ j = i := fun h => hj h.symm
        simp [keepsOf, Step.keeps, hj, this]
    · intro j hj; rw [List.mem_singleton] at hj; subst hj
      exact ⟨ho, hinv.not_awaiting ho hd hn, .inl (by rw [e1]; exact List.mem_cons_self)⟩
    · intro j hj; rw [ho] at hj; cases hj; exact .inr (.inr List.mem_cons_self)
  | update _ i s hd ho _ _ _ _ hc =>
    obtain ⟨e1, e2, e3, e4⟩ := hc
    obtain ⟨ho, hs⟩ := (oldFor_direct_some p urn i s).mp ho
    refine ⟨[], [], [i], hn, Move.quiet (by rw [e1]; rfl) (by rw [e1]; rfl) (by rw [e1]; rfl) ?_
      (by rw [e1]; exact fun _ h => h) (by rw [e1]; exact fun _ h => List.mem_cons_of_mem _ h) (by rw [e1]; exact fun _ h => h) e4 e3
      (by intro i; rfl) ?_ (by simp) ?_ (by rw [e2]; exact fun _ h => .inl h)
      (by rw [e2]; exact fun _ h => h) ?_⟩
    · rw [e1]
      simp only [List.mem_cons]
      rintro u (h | (h | h) | h | h)
      · exact .inr (.inl h)
      · exact .inl h
      · exact .inr (.inr (.inl h))
      · exact .inr (.inr (.inr (.inl h)))
      · exact .inr (.inr (.inr (.inr h)))
    · intro j
      by_cases hj : i = j
      · subst hj; simp [keepsOf, Step.keeps]
      · have : ¬ j = i := fun h => hj h.symm
        simp [keepsOf, Step.keeps, hj, this]
    · intro j hj; rw [List.mem_singleton] at hj; subst hj
      exact ⟨ho, hinv.not_awaiting ho hd hn, .inr (.inl (by rw [e1]; exact List.mem_cons_self))⟩
    · intro j hj; rw [ho] at hj; cases hj; exact .inr (.inr List.mem_cons_self)
  | before _ st₁ st₂ i s l hd ho _ hx _ _ hc1 hcd _ hc =>
    obtain ⟨ho, hs⟩ := (oldFor_direct_some p urn i s).mp ho
    obtain ⟨is, cond, hq, hpw, hlater⟩ := condemnDependents_spec p hp o st₁ i s hs l st₂ hcd
    obtain ⟨hsup, hseen, _⟩ := condemnDependents_superseded p o st₁ i l st₂ hcd
    obtain ⟨e1, e2, e3, e4⟩ := hc
    obtain ⟨k1, k2, k3, k4⟩ := hc1
    have hsu : s.urn = urn := by
      obtain ⟨t, ht, _, hu⟩ := oldOf_some p.rs urn i ho
      rw [hs] at ht; cases ht; exact hu
    have hdel : s.delete = false := by
      obtain ⟨t, ht, hu, _⟩ := oldOf_some p.rs urn i ho
      rw [hs] at ht; cases ht; exact hu
    have hcondu : ∀ j ∈ cond, ∃ t, p.rs[j]? = some t ∧ t.urn ∉ urn :: st.seen.urns := by
      intro j hj
      obtain ⟨t, ht, hu⟩ := later_unseen (hlater j (hq.sub.subset hj))
      rw [k1] at hu
      simp only [decide_eq_false_iff_not] at hu
      exact ⟨t, ht, hu⟩
    have hinot : i ∉ cond := by
      intro hi
      obtain ⟨t, ht, hu⟩ := hcondu i hi
      rw [hs] at ht; cases ht
      exact hu (by rw [hsu]; exact List.mem_cons_self)
    have hia : i ∉ st.awaiting := hinv.not_awaiting ho hd hn
    have hnd : cond.Nodup := by
      have : cond.Pairwise (· > ·) := hpw.sublist hq.sub
      exact this.imp (fun h => by omega)
    refine ⟨cond ++ [i], [], [], hn, ?_⟩
    refine { urns := by rw [e1, hseen, k1]; rfl, aliased := by rw [e1, hseen, k1]; rfl, pending := by rw [e1, hseen, k1]; rfl,
             sets := ?_, sames := by rw [e1, hseen, k1]; exact fun _ h => h, updates := by rw [e1, hseen, k1]; exact fun _ h => h,
             reads := by rw [e1, hseen, k1]; exact fun _ h => h, awaiting := ?_,
             superseded := by rw [e3, hsup, k3]; intro j; simp [withUrn], drops := ?_, keeps := ?_, form := ?_, hcond := ?_,
             hsup := by simp, hkept := by simp, del1 := ?_, del2 := ?_, settled := ?_ }
    · rw [e1, hseen, k1]
      simp only [List.mem_cons]
      rintro u (h | h | (h | h) | h)
      · exact .inr (.inl h)
      · exact .inr (.inr (.inl h))
      · exact .inl h
      · exact .inr (.inr (.inr (.inl h)))
      · exact .inr (.inr (.inr (.inr h)))
    · intro j
      rw [e4, List.mem_cons, hq.awaiting j, k4]
      simp only [List.mem_append, List.mem_singleton, withUrn]
      constructor
      · rintro (h | h | h)
        · exact .inl (.inr h)
        · exact .inl (.inl h)
        · exact .inr h
      · rintro ((h | h) | h)
        · exact .inr (.inl h)
        · exact .inl h
        · exact .inr (.inr h)
    · intro j
      rw [dropsOf_append, hq.steps, deletion_steps_drops cond hnd]
      by_cases hj : i = j
      · subst hj
        simp [hinot, dropsOf, Step.drops]
      · have hj' : ¬ j = i := fun h => hj h.symm
        simp [dropsOf, Step.drops, hj, hj']
    · intro j
      rw [keepsOf_append, hq.steps, deletion_steps_keeps]
      rfl
    · intro x hx j hj
      rcases List.mem_append.mp hx with hx | hx
      · rw [hq.steps] at hx
        obtain ⟨k, _, rfl⟩ := List.mem_map.mp hx
        simp only [Step.drops, decide_eq_true_eq] at hj
        rw [hj]
      · simp only [List.mem_cons, List.not_mem_nil, or_false] at hx
        rcases hx with rfl | rfl | rfl
        · simp only [Step.drops, decide_eq_true_eq] at hj
          rw [hj]
        · simp [Step.drops] at hj
        · simp [Step.drops] at hj
    · intro j hj
      rcases List.mem_append.mp hj with hj | hj
      · obtain ⟨t, ht, htd, htdel, _⟩ := hq.each j hj
        obtain ⟨t', ht', hu⟩ := hcondu j hj
        rw [ht] at ht'; cases ht'
        rw [k2] at htd
        have hu' : t.urn ∉ st.seen.urns := fun h => hu (List.mem_cons_of_mem _ h)
        refine ⟨?_, t, ht, htdel, hu', .inl ?_⟩
        · intro haw
          obtain ⟨t', ht', _, hor⟩ := hinv.aw j haw
          rw [ht] at ht'; cases ht'
          exact hor.elim htd hu'
        · rw [e2, hq.deletes]; exact .inr ⟨j, hj, t, ht, rfl⟩
      · rw [List.mem_singleton] at hj
        subst hj
        exact ⟨hia, s, hs, hdel, by rw [hsu]; exact hn, .inr hsu⟩
    · intro u hu
      left
      rw [e2, hq.deletes, k2]
      exact .inl hu
    · intro u hu
      rw [e2, hq.deletes, k2] at hu
      rcases hu with hu | ⟨j, hj, t, ht, he⟩
      · exact .inl hu
      · exact .inr ⟨j, List.mem_append.mpr (.inl hj), t, ht, he⟩
    · intro j hj
      rw [ho] at hj; cases hj
      exact .inr (.inl (List.mem_append.mpr (.inr List.mem_cons_self)))
  | after _ i s hd ho _ _ _ _ _ hc =>
    obtain ⟨e1, e2, e3, e4⟩ := hc
    obtain ⟨ho, hs⟩ := (oldFor_direct_some p urn i s).mp ho
    refine ⟨[], [i], [], hn, Move.quiet (by rw [e1]; rfl) (by rw [e1]; rfl) (by rw [e1]; rfl) ?_
      (by rw [e1]; exact fun _ h => h) (by rw [e1]; exact fun _ h => h) (by rw [e1]; exact fun _ h => h) e4 e3
      (by intro i; rfl) (by intro i; rfl) ?_ (by simp) (by rw [e2]; exact fun _ h => .inl h)
      (by rw [e2]; exact fun _ h => h) ?_⟩
    · rw [e1]
      simp only [List.mem_cons]
      rintro u (h | h | (h | h) | h)
      · exact .inr (.inl h)
      · exact .inr (.inr (.inl h))
      · exact .inl h
      · exact .inr (.inr (.inr (.inl h)))
      · exact .inr (.inr (.inr (.inr h)))
    · intro j hj; rw [List.mem_singleton] at hj; subst hj; exact ⟨ho, hinv.not_awaiting ho hd hn, by simp⟩
    · intro j hj; rw [ho] at hj; cases hj; exact .inr (.inl List.mem_cons_self)
  | skip _ hd ho _ _ hc =>
    obtain ⟨e1, e2, e3, e4⟩ := hc
    refine ⟨[], [], [], hn, Move.quiet (by rw [e1]; rfl) (by rw [e1]; rfl) (by rw [e1]; rfl) ?_
      (by rw [e1]; exact fun _ h => List.mem_cons_of_mem _ h) (by rw [e1]; exact fun _ h => h) (by rw [e1]; exact fun _ h => h) e4 e3
      (by intro i; rfl) (by intro i; rfl) (by simp) (by simp) (by rw [e2]; exact fun _ h => .inl h)
      (by rw [e2]; exact fun _ h => h) (hno ((oldFor_direct_none p urn).mp ho))⟩
    rw [e1]
    simp only [List.mem_cons]
    rintro u ((h | h) | h | h | h)
    · exact .inl h
    · exact .inr (.inl h)
    · exact .inr (.inr (.inl h))
    · exact .inr (.inr (.inr (.inl h)))
    · exact .inr (.inr (.inr (.inr h)))
  | create _ hd ho _ _ hc =>
    obtain ⟨e1, e2, e3, e4⟩ := hc
    exact ⟨[], [], [], hn, Move.quiet (by rw [e1]; rfl) (by rw [e1]; rfl) (by rw [e1]; rfl)
      (by rw [e1]; exact fun u h => .inr h)
      (by rw [e1]; exact fun _ h => h) (by rw [e1]; exact fun _ h => h) (by rw [e1]; exact fun _ h => h) e4 e3
      (by intro i; rfl) (by intro i; rfl) (by simp) (by simp) (by rw [e2]; exact fun _ h => .inl h)
      (by rw [e2]; exact fun _ h => h) (hno ((oldFor_direct_none p urn).mp ho))⟩

theorem read_move (p : Prev) (o : Opts) (st : St) (r : Rd) (l : List Step) (st' : St) (h : handle p o st (.read r) = .steps l st')
    (hok : ∀ i u, i ∈ st.awaiting → Step.read (some i) u ∉ l ∧ Step.readReplacement i u ∉ l) :
    ∃ urn cond sup kept, urn ∉ st.seen.urns ∧ Move p st urn l st' cond sup kept := by
  obtain ⟨urn, parent, _, _, hn, hout⟩ := read_outcome p o st r l st' h
  refine ⟨urn, ?_⟩
  cases hout with
  | over i s ho hs _ _ _ =>
    refine ⟨[], [i], [], hn, Move.quiet rfl rfl rfl ?_ (fun _ h => h) (fun _ h => h) (fun _ h => h) rfl rfl
      (by intro i; rfl) (by intro i; rfl) ?_ (by simp) (fun _ h => .inl h) (fun _ h => h) ?_⟩
    · simp only [List.mem_cons, withUrn]
      rintro u (h | h | (h | h) | h)
      · exact .inr (.inl h)
      · exact .inr (.inr (.inl h))
      · exact .inl h
      · exact .inr (.inr (.inr (.inl h)))
      · exact .inr (.inr (.inr (.inr h)))
    · intro j hj; rw [List.mem_singleton] at hj; subst hj
      exact ⟨ho, fun ha => (hok j urn ha).2 List.mem_cons_self, by simp⟩
    · intro j hj; rw [ho] at hj; cases hj; exact .inr (.inl List.mem_cons_self)
  | known i s ho hs _ =>
    refine ⟨[], [], [i], hn, Move.quiet rfl rfl rfl ?_ (fun _ h => h) (fun _ h => h) (fun _ h => List.mem_cons_of_mem _ h) rfl rfl
      (by intro i; rfl) ?_ (by simp) ?_ (fun _ h => .inl h) (fun _ h => h) ?_⟩
    · simp only [List.mem_cons, withUrn]
      rintro u (h | h | h | h | h)
      · exact .inr (.inl h)
      · exact .inr (.inr (.inl h))
      · exact .inr (.inr (.inr (.inl h)))
      · exact .inl h
      · exact .inr (.inr (.inr (.inr h)))
    · intro j
      by_cases hj : i = j
      · subst hj; simp [keepsOf, Step.keeps]
      · have : ¬ j = i := fun h => hj h.symm
        simp [keepsOf, Step.keeps, hj, this]
    · intro j hj; rw [List.mem_singleton] at hj; subst hj
      exact ⟨ho, fun ha => (hok j urn ha).1 List.mem_cons_self, .inr (.inr List.mem_cons_self)⟩
    · intro j hj; rw [ho] at hj; cases hj; exact .inr (.inr List.mem_cons_self)
  | fresh ho =>
    refine ⟨[], [], [], hn, Move.quiet rfl rfl rfl ?_ (fun _ h => h) (fun _ h => h) (fun _ h => List.mem_cons_of_mem _ h) rfl rfl
      (by intro i; rfl) (by intro i; rfl) (by simp) (by simp) (fun _ h => .inl h) (fun _ h => h) ?_⟩
    · simp only [List.mem_cons, withUrn]
      rintro u (h | h | h | h | h)
      · exact .inr (.inl h)
      · exact .inr (.inr (.inl h))
      · exact .inr (.inr (.inr (.inl h)))
      · exact .inl h
      · exact .inr (.inr (.inr (.inr h)))
    · intro i hi; rw [ho] at hi; cases hi

theorem handleAll_inv (p : Prev) (hp : Parsed p.rs) (hdi : Distinct p) (o : Opts) : ∀ (es : List Ev) (pre : List Step) (st : St)
    (l : List Step) (st' : St), Inv p pre st → NoAliases es → handleAll p o st es = .steps l st' →
    NoneReadAfterDeletion (pre ++ l) → Inv p (pre ++ l) st' := by
  intro es
  induction es with
  | nil =>
    intro pre st l st' hinv _ h _
    simp only [handleAll, Made.steps.injEq] at h
    rw [← h.1, ← h.2, List.append_nil]
    exact hinv
  | cons e es ih =>
    intro pre st l st' hinv hna h hok
    simp only [handleAll] at h
    cases he : handle p o st e with
    | error x => rw [he] at h; cases h
    | bail => rw [he] at h; cases h
    | crash => rw [he] at h; cases h
    | steps l₁ st₁ =>
      rw [he] at h
      simp only at h
      cases hr : handleAll p o st₁ es with
      | error x => rw [hr] at h; cases h
      | bail => rw [hr] at h; cases h
      | crash => rw [hr] at h; cases h
      | steps l₂ st₂ =>
        rw [hr] at h
        simp only [Made.steps.injEq] at h
        obtain ⟨h1, h2⟩ := h
        subst h1; subst h2
        have hmove : ∃ urn cond sup kept, urn ∉ st.seen.urns ∧ Move p st urn l₁ st₁ cond sup kept := by
          cases e with
          | register g =>
            exact register_move p hp hdi o pre st hinv g (hna g List.mem_cons_self) l₁ st₁ he
          | read r =>
            refine read_move p o st r l₁ st₁ he ?_
            intro i u hi
            have hd : dropsOf i pre = 1 := by rw [hinv.drops i, if_pos hi]
            have : 0 < dropsOf i pre := by omega
            obtain ⟨x, hx, hxd⟩ := List.countP_pos_iff.mp this
            have hx' := hinv.form x hx i hxd
            rw [hx'] at hx
            have := hok i u (List.mem_append.mpr (.inl hx))
            exact ⟨fun hm => this.1 (List.mem_append.mpr (.inr (List.mem_append.mpr (.inl hm)))),
              fun hm => this.2 (List.mem_append.mpr (.inr (List.mem_append.mpr (.inl hm))))⟩
        obtain ⟨urn, cond, sup, kept, hn, hm⟩ := hmove
        have hinv' := hinv.move hn hm
        rw [← List.append_assoc]
        exact ih (pre ++ l₁) st₁ l₂ st₂ hinv' (fun g hg => hna g (List.mem_cons_of_mem _ hg)) hr
          (by rw [List.append_assoc]; exact hok)

theorem inv_initial (p : Prev) (targets : Option (List String)) : Inv p [] (initial p targets) where
  aliased := rfl
  pending := rfl
  drops := by intro i; simp [dropsOf, initial]
  keeps := by intro i; simp [keepsOf]
  form := by simp
  aw := by simp [initial]
  su := by simp [initial]
  ke := by simp [keepsOf]
  de := by simp [initial]
  ur := by simp [initial]
  sets := by simp [initial]

end Pulumi.StepGen
