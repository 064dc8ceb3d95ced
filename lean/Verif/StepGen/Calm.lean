import Verif.StepGen.Targets
/-!
# When an update fails no assertion, and in which order it replaces
-/
namespace Pulumi.StepGen
open Pulumi.Snapshot (State Provider Ref)
open Pulumi.DepGraph (Seen oldOf Parsed Later dependentReplacements pendingDeletes deletions)

/-- The checkpoint has nothing that an earlier update left to be deleted. -/
def NoLeftovers (p : Prev) : Prop := ∀ s ∈ p.rs, s.delete = false

/-- What keeps the assertions from failing. -/
structure Calm (p : Prev) (st : St) : Prop where
  su : ∀ i ∈ st.superseded, ∃ s, p.rs[i]? = some s ∧ s.urn ∈ st.seen.urns
  de : ∀ u ∈ st.deletes, ∃ i, oldOf p.rs u = some i

theorem oldOf_exists (rs : List State) (i : Nat) (s : State) (hs : rs[i]? = some s) (hd : s.delete = false) :
    ∃ j, oldOf rs s.urn = some j := by
  cases h : oldOf rs s.urn with
  | some j => exact ⟨j, rfl⟩
  | none => exact absurd rfl (oldOf_none rs s.urn h i s hs hd)

theorem mem_of_get {α : Type} {l : List α} {i : Nat} {a : α} (h : l[i]? = some a) : a ∈ l := List.mem_of_getElem? h

theorem handle_calm {p : Prev} (hl : NoLeftovers p) {o : Opts} {st st' : St} {e : Ev} {l : List Step}
    (hna : NoAliases [e]) (hc : Calm p st) (h : handle p o st e = .steps l st') : Calm p st' := by
  obtain ⟨urn₀, _, hm, hfresh, hurns⟩ := each_event_makes_one_resource p o st e l st' h
  have up : ∀ u ∈ st.seen.urns, u ∈ st'.seen.urns := fun u hu => by rw [hurns]; exact List.mem_cons_of_mem _ hu
  have keepSu : ∀ i ∈ st.superseded, ∃ s, p.rs[i]? = some s ∧ s.urn ∈ st'.seen.urns := by
    intro i hi
    obtain ⟨s, h1, h2⟩ := hc.su i hi
    exact ⟨s, h1, up _ h2⟩
  cases e with
  | read r =>
    obtain ⟨urn, parent, h1, h2, h3, h4⟩ := read_outcome p o st r l st' h
    have hue : urn₀ = urn := by
      have : l.filterMap Step.made = [urn] := by cases h4 <;> rfl
      rw [this] at hm; injection hm with hm; exact hm.symm
    cases h4 with
    | over j t ho ht =>
      refine ⟨fun i hi => ?_, hc.de⟩
      rcases List.mem_cons.mp hi with hi | hi
      · subst hi
        obtain ⟨s, hs, _, hu⟩ := oldOf_some p.rs urn _ ho
        refine ⟨s, hs, ?_⟩
        rw [hurns, hu, hue]; exact List.mem_cons_self
      · exact keepSu i hi
    | known j t => exact ⟨keepSu, hc.de⟩
    | fresh => exact ⟨keepSu, hc.de⟩
  | register g =>
    obtain ⟨urn, parent, h1, h2, h3, h4, _⟩ := register_outcome p o st g l st' h
    have hue : urn₀ = urn := by
      rw [h4.made.1] at hm; injection hm with hm; exact hm.symm
    have hg : g.aliases = [] := hna g List.mem_cons_self
    rw [lookedUp_direct p _ g urn hg, hg] at h4
    have take : ∀ {j : Nat} {t : State}, oldFor p urn [] = some (j, t) →
        ∀ i ∈ j :: st.superseded, ∃ s, p.rs[i]? = some s ∧ s.urn ∈ st'.seen.urns := by
      intro j t ho i hi
      rcases List.mem_cons.mp hi with hi | hi
      · subst hi
        obtain ⟨ho, _⟩ := (oldFor_direct_some p urn i t).mp ho
        obtain ⟨s, hs, _, hu⟩ := oldOf_some p.rs urn _ ho
        refine ⟨s, hs, ?_⟩
        rw [hurns, hu, hue]; exact List.mem_cons_self
      · exact keepSu i hi
    cases h4 with
    | importFresh _ _ _ _ c => exact ⟨by rw [c.superseded]; exact keepSu, by rw [c.deletes]; exact hc.de⟩
    | importOver _ j t _ ho _ _ _ c => exact ⟨by rw [c.superseded]; exact take ho, by rw [c.deletes]; exact hc.de⟩
    | recreate _ j t _ _ _ _ c =>
      refine ⟨by rw [c.superseded]; exact keepSu, ?_⟩
      rw [c.deletes]
      intro u hu
      exact hc.de u (List.mem_filter.mp hu).1
    | external _ j t _ ho _ _ _ c => exact ⟨by rw [c.superseded]; exact take ho, by rw [c.deletes]; exact hc.de⟩
    | same _ j t _ _ _ _ _ c => exact ⟨by rw [c.superseded]; exact keepSu, by rw [c.deletes]; exact hc.de⟩
    | update _ j t _ _ _ _ _ _ c => exact ⟨by rw [c.superseded]; exact keepSu, by rw [c.deletes]; exact hc.de⟩
    | before _ s₁ s₂ j t l _ ho _ _ _ _ c1 hcd _ c =>
      obtain ⟨_, cond, hq⟩ := condemnDependents_shape p o s₁ j l s₂ hcd
      refine ⟨?_, ?_⟩
      · rw [c.superseded, (condemnDependents_superseded p o s₁ j l s₂ hcd).1, c1.superseded]; exact keepSu
      · rw [c.deletes]
        intro u hu
        rcases (hq.deletes u).mp hu with hu | ⟨k, _, s, h1, h2⟩
        · rw [c1.deletes] at hu; exact hc.de u hu
        · rw [← h2]; exact oldOf_exists p.rs k s h1 (hl s (mem_of_get h1))
    | after _ j t _ ho _ _ _ _ _ c => exact ⟨by rw [c.superseded]; exact take ho, by rw [c.deletes]; exact hc.de⟩
    | skip _ _ _ _ _ c => exact ⟨by rw [c.superseded]; exact keepSu, by rw [c.deletes]; exact hc.de⟩
    | create _ _ _ _ _ c => exact ⟨by rw [c.superseded]; exact keepSu, by rw [c.deletes]; exact hc.de⟩

theorem condemn_total (p : Prev) : ∀ (is : List Nat) (st : St),
    (∀ j ∈ is, ∃ s, p.rs[j]? = some s ∧ s.delete = false ∧ j ∉ st.superseded) → ∃ x, condemn p is st = some x := by
  intro is
  induction is with
  | nil => intro st _; exact ⟨_, rfl⟩
  | cons i is ih =>
    intro st h
    obtain ⟨s, hs, hd, hsu⟩ := h i List.mem_cons_self
    simp only [condemn, hs]
    by_cases hm : s.urn ∈ st.deletes
    · rw [if_pos hm]; exact ih st (fun j hj => h j (List.mem_cons_of_mem _ hj))
    · rw [if_neg hm]
      have hx : isDelete p st i = false := by simp [isDelete, hs, hd, hsu]
      rw [hx]
      simp only [Bool.false_eq_true, if_false]
      obtain ⟨⟨l, st'⟩, hc⟩ := ih { st with deletes := s.urn :: st.deletes, awaiting := i :: st.awaiting }
        (fun j hj => h j (List.mem_cons_of_mem _ hj))
      rw [hc]
      exact ⟨_, rfl⟩

theorem replaceSteps_calm {p : Prev} (hp : Parsed p.rs) (hl : NoLeftovers p) {o : Opts} {st : St} {urn : String} {i : Nat} {t : State}
    (ht : p.rs[i]? = some t) (hi : isDelete p st i = false)
    (hsu : ∀ j ∈ st.superseded, ∃ s, p.rs[j]? = some s ∧ s.urn ∈ st.seen.urns) (dbr : Bool) :
    replaceSteps p o st urn i dbr ≠ .crash := by
  unfold replaceSteps
  cases dbr with
  | false => simp [hi]
  | true =>
    simp only [if_true]
    have hcd : ∃ r, condemnDependents p o st i = some r := by
      unfold condemnDependents
      by_cases htr : (!o.trustDependencies) = true
      · rw [if_pos htr]; exact ⟨_, rfl⟩
      · rw [if_neg htr]
        obtain ⟨r, hr, hsp⟩ := DepGraph.dependentReplacements_spec (seen := st.seen) (inputs := p.inputs) (differ := o.differ) hp ht
        rw [hr]
        cases r with
        | error e => exact ⟨_, rfl⟩
        | ok deps =>
          simp only at hsp ⊢
          obtain ⟨x, hx⟩ := condemn_total p deps.reverse st (fun j hj => by
            obtain ⟨s, hs, hu⟩ := later_unseen ((hsp.2 j).mp (List.mem_reverse.mp hj)).1
            refine ⟨s, hs, hl s (mem_of_get hs), fun hj' => ?_⟩
            obtain ⟨s', hs', hu'⟩ := hsu j hj'
            rw [hs] at hs'; cases hs'
            simp [hu'] at hu)
          rw [hx]
          exact ⟨_, rfl⟩
    obtain ⟨r, hr⟩ := hcd
    rw [hr]
    cases r with
    | error e => simp
    | ok x =>
      obtain ⟨l, st'⟩ := x
      have := (condemnDependents_superseded p o st i l st' hr).1
      simp only
      rw [isDelete_congr p this, hi]
      simp

theorem stepsFromDiff_calm {p : Prev} (hp : Parsed p.rs) (hl : NoLeftovers p) {o : Opts} {st : St} {g : Reg} {urn : String} {i : Nat}
    {t : State} (ht : p.rs[i]? = some t) (hi : isDelete p st i = false)
    (hsu : ∀ j ∈ st.superseded, ∃ s, p.rs[j]? = some s ∧ s.urn ∈ st.seen.urns) (prov : Bool) :
    stepsFromDiff p o st g urn i t prov ≠ .crash := by
  have hrep := fun b => replaceSteps_calm hp hl (o := o) (urn := urn)
    (st := { st with seen := { st.seen with replaces := urn :: st.seen.replaces } }) ht hi hsu b
  unfold stepsFromDiff
  cases diffAnswer (diffOf o urn g) with
  | error e => simp
  | ok d =>
    simp only
    split
    · simp
    · cases Paths.applyReplaceOnChanges d g.replaceOnChanges (p.initErrors i) with
      | error e => simp
      | ok d' =>
        simp only [hi]
        split
        · split
          · split
            · simp
            · split
              · simp
              · split
                · cases g.recheck with
                  | error e => simp
                  | ok b => cases b <;> simp [hrep]
                · exact hrep _
          · simp
        · split <;> simp

theorem handle_no_crash {p : Prev} (hp : Parsed p.rs) (hl : NoLeftovers p) {o : Opts} {st : St} {e : Ev} (hna : NoAliases [e])
    (hpv : st.targets = none ∨ ∀ g, e = .register g → ∀ m, g.provider ≠ .malformed m) (hc : Calm p st) :
    handle p o st e ≠ .crash := by
  have free : ∀ {urn : String} {i : Nat} {st₀ : St}, urn ∉ st.seen.urns → oldOf p.rs urn = some i →
      st₀.superseded = st.superseded → isDelete p st₀ i = false := by
    intro urn i st₀ hu ho hs₀
    obtain ⟨s, hs, hd, hu'⟩ := oldOf_some p.rs urn i ho
    unfold isDelete
    rw [hs₀, hs]
    simp only [Option.map_some, Option.getD_some, hd, Bool.false_or, decide_eq_false_iff_not]
    intro hm
    obtain ⟨s', hs', hm'⟩ := hc.su i hm
    rw [hs] at hs'; cases hs'
    rw [hu'] at hm'
    exact hu hm'
  cases e with
  | read r =>
    unfold handle generateReadSteps
    simp only
    cases checkParent o st r.parent r.type with
    | error e => simp
    | ok parent =>
      simp only
      cases hu : generateURN o st parent r.type r.name with
      | none => simp
      | some x =>
        obtain ⟨urn, st₁⟩ := x
        obtain ⟨hf, rfl⟩ := generateURN_some o st _ _ _ _ _ hu
        simp only
        split
        · simp
        · cases ho : oldOf p.rs urn with
          | none => simp
          | some i =>
            obtain ⟨s, hs, _⟩ := oldOf_some p.rs urn i ho
            simp only [Option.bind_some, hs, Option.map_some, free (st₀ := withUrn st urn) hf ho rfl]
            split <;> simp
  | register g =>
    have hg : g.aliases = [] := hna g List.mem_cons_self
    have key : generateSteps p o st g ≠ .crash := by
      unfold generateSteps
      cases checkParent o st g.parent g.type with
      | error e => simp
      | ok parent =>
        simp only
        cases hu : generateURN o st parent g.type g.name with
        | none => simp
        | some x =>
          obtain ⟨urn, st₁⟩ := x
          obtain ⟨hf, rfl⟩ := generateURN_some o st _ _ _ _ _ hu
          have hlk : (noteAlias (withUrn st urn) urn (findOld p (urn :: g.aliases))).1 = withUrn st urn :=
            lookedUp_direct p (withUrn st urn) g urn hg
          have hfind : ∀ i u, findOld p (urn :: g.aliases) = some (u, i) → oldOf p.rs urn = some i := by
            intro i u h
            obtain ⟨h1, h2⟩ := findOld_some p _ u i h
            rw [hg, List.mem_singleton] at h1
            rw [← h1]; exact h2
          have hnf : findOld p (urn :: g.aliases) = none → oldOf p.rs urn = none := by
            intro h
            unfold findOld at h
            split at h
            · cases h
            · next h' => exact h'
          have hsu : ∀ j ∈ (withUrn st urn).superseded, ∃ s, p.rs[j]? = some s ∧ s.urn ∈ (withUrn st urn).seen.urns := by
            intro j hj
            obtain ⟨s, h1, h2⟩ := hc.su j hj
            exact ⟨s, h1, List.mem_cons_of_mem _ h2⟩
          have htg : ∀ st₀ : St, st₀.targets = st.targets → isTargeted o st₀ urn parent g.deps g.provider ≠ none := by
            intro st₀ h0
            unfold isTargeted
            rcases hpv with h | h
            · rw [h0, h]; simp
            · cases ht : st₀.targets with
              | none => simp
              | some ts =>
                simp only
                split
                · simp
                · split
                  · simp
                  · cases hq : g.provider with
                    | none => simp
                    | malformed m => exact absurd hq (h g rfl m)
                    | ref r => simp
          have hchoose : ∀ (st₀ : St) (old : Option (Nat × State)) (prov : Bool), st₀.superseded = st.superseded →
              st₀.seen = (withUrn st urn).seen → st₀.deletes = st.deletes → st₀.targets = st.targets →
              (∀ i s, old = some (i, s) → oldOf p.rs urn = some i ∧ p.rs[i]? = some s) → (old = none → oldOf p.rs urn = none) →
              chooseSteps p o st₀ g urn parent old prov ≠ .crash := by
            intro st₀ old prov h1 h2 h3 h4 h5 h6
            unfold chooseSteps
            split
            · next hd =>
              cases old with
              | none =>
                rw [h3] at hd
                obtain ⟨i, hi⟩ := hc.de urn hd
                rw [h6 rfl] at hi; cases hi
              | some x =>
                obtain ⟨i, s⟩ := x
                simp only [free hf (h5 i s rfl).1 h1]
                simp
            · cases old with
              | some x =>
                obtain ⟨i, s⟩ := x
                have hfr : ∀ {st₀ : St}, st₀.superseded = st.superseded → isDelete p st₀ i = false :=
                  fun h => free hf (h5 i s rfl).1 h
                simp only [hfr h1]
                split
                · simp
                · cases htt : isTargeted o st₀ urn parent g.deps g.provider with
                  | none => exact absurd htt (htg st₀ h4)
                  | some b =>
                    cases b with
                    | false => simp [sameStep, hfr h1]
                    | true =>
                      simp only
                      have hat : (addTarget st₀ urn true).superseded = st.superseded := h1
                      have hcalm := stepsFromDiff_calm hp hl (o := o) (st := addTarget st₀ urn true) (g := g) (urn := urn)
                        (h5 i s rfl).2 (hfr hat) (by
                          intro j hj
                          obtain ⟨s, a, b⟩ := hsu j (by rw [hat] at hj; exact hj)
                          refine ⟨s, a, ?_⟩
                          change s.urn ∈ st₀.seen.urns
                          rw [h2]; exact b) prov
                      cases hd : stepsFromDiff p o (addTarget st₀ urn true) g urn i s prov with
                      | error e => simp
                      | bail => simp
                      | crash => exact absurd hd hcalm
                      | steps l₁ s₁ =>
                        cases l₁ with
                        | cons x xs => simp
                        | nil =>
                          rcases stepsFromDiff_cases p o _ g urn i s prov _ _ hd with ⟨_, rfl⟩ | ⟨h, _⟩ | ⟨_, dbr, hr⟩
                          · simp [sameStep, hfr hat]
                          · cases h
                          · exact absurd hr (replaceSteps_ne_nil p o _ urn i dbr s₁)
              | none =>
                simp only
                cases htt : isTargeted o st₀ urn parent g.deps g.provider with
                | none => exact absurd htt (htg st₀ h4)
                | some b =>
                  simp only
                  split <;> simp
          have himport : ∀ (st₀ : St) (old : Option Nat), st₀.superseded = st.superseded →
              (∀ i, old = some i → oldOf p.rs urn = some i) → importSteps p st₀ urn old ≠ .crash := by
            intro st₀ old h1 h5
            unfold importSteps
            cases old with
            | none => simp
            | some i =>
              simp only [free hf (h5 i rfl) h1]
              split <;> simp
          have hold5 : ∀ i s, (findOld p (urn :: g.aliases)).bind (fun f => (p.rs[f.2]?).map (fun s => (f.2, s))) = some (i, s) →
              oldOf p.rs urn = some i ∧ p.rs[i]? = some s := by
            intro i s h
            have : oldFor p urn g.aliases = some (i, s) := h
            rw [hg] at this
            exact (oldFor_direct_some p urn i s).mp this
          have hold6 : (findOld p (urn :: g.aliases)).bind (fun f => (p.rs[f.2]?).map (fun s => (f.2, s))) = none →
              oldOf p.rs urn = none := by
            intro h
            have : oldFor p urn g.aliases = none := h
            rw [hg] at this
            exact (oldFor_direct_none p urn).mp this
          simp only
          unfold settled
          simp only
          split
          · simp
          · simp
          · split
            · exact himport _ _ (by rw [hlk]; rfl) (by
                intro i hi
                cases hb : (findOld p (urn :: g.aliases)).bind (fun f => (p.rs[f.2]?).map (fun s => (f.2, s))) with
                | none => rw [hb] at hi; cases hi
                | some x =>
                  obtain ⟨j, s⟩ := x
                  rw [hb] at hi
                  simp only [Option.map_some, Option.some.injEq] at hi
                  subst hi
                  exact (hold5 j s hb).1)
            · split
              · simp
              · simp
              · split
                · simp
                · exact hchoose _ _ _ (by rw [hlk]; rfl) (by rw [hlk]) (by rw [hlk]; rfl) (by rw [hlk]; rfl) hold5 hold6
    change generateStepsChecked p o st g ≠ _
    unfold generateStepsChecked
    cases hm : generateSteps p o st g with
    | error e => simp
    | bail => simp
    | crash => exact absurd hm key
    | steps l st' =>
      simp only
      split
      · split <;> simp
      · simp

theorem handleAll_no_crash {p : Prev} (hp : Parsed p.rs) (hl : NoLeftovers p) {o : Opts} : ∀ (es : List Ev) (st : St),
    NoAliases es → (∀ g, Ev.register g ∈ es → ∀ m, g.provider ≠ .malformed m) → Calm p st → handleAll p o st es ≠ .crash := by
  intro es
  induction es with
  | nil => intro st _ _ _; simp [handleAll]
  | cons e es ih =>
    intro st hna hpv hc
    have h1 := handle_no_crash hp hl (o := o) (st := st) (noAliases_each hna e List.mem_cons_self)
      (.inr (fun g hg m => hpv g (by rw [hg]; exact List.mem_cons_self) m)) hc
    simp only [handleAll]
    cases hh : handle p o st e with
    | error e => simp
    | bail => simp
    | crash => exact absurd hh h1
    | steps l st' =>
      simp only
      have := ih st' (fun g hg => hna g (List.mem_cons_of_mem _ hg)) (fun g hg => hpv g (List.mem_cons_of_mem _ hg))
        (handle_calm hl (noAliases_each hna e List.mem_cons_self) hc hh)
      cases ha : handleAll p o st' es with
      | error e => simp
      | bail => simp
      | crash => exact absurd ha this
      | steps l st' => simp

/-- C161: an update of a checkpoint without anything left to be deleted fails no assertion about old states, whatever the program, the
targets and the answers of the providers, if the program uses no aliases and every provider reference can be read.

What is missing (`_partial`): with something left to be deleted it can, see `leftover_dependents_crash`, and with aliases too, see
`aliases_of_a_replaced_resource_crash` and `imports_by_the_same_alias_crash`. -/
theorem updates_fail_no_assertion_partial (p : Prev) (hp : Parsed p.rs) (hl : NoLeftovers p) (o : Opts)
    (targets : Option (List String)) (es : List Ev) (hna : NoAliases es)
    (hpv : ∀ g, Ev.register g ∈ es → ∀ m, g.provider ≠ .malformed m) : handleAll p o (initial p targets) es ≠ .crash :=
  handleAll_no_crash hp hl es _ hna hpv ⟨fun i hi => (by cases hi), fun u hu => (by cases hu)⟩

example := updates_fail_no_assertion_partial (prevOf [res "a", res "b" ["a"], res "c", res "gone"]) shop_parsed (by
    intro s hs; simp [prevOf] at hs; rcases hs with rfl | rfl | rfl | rfl <;> rfl) plainOpts none
    [.register (reg "a" (answer .some true true)), .register (reg "b")] (by
    intro g hg; simp at hg; rcases hg with rfl | rfl <;> rfl) (by
    intro g hg m; simp at hg; rcases hg with rfl | rfl <;> simp [reg])

end Pulumi.StepGen
