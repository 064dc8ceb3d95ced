import Verif.Plan.OpTheorems
/-!
# Plans: previews show what updates do, and their plans let the updates through
-/
namespace Pulumi.Plan
open Pulumi.StepGen
open Pulumi.DepGraph (deletions)
open Pulumi.Snapshot (State)

/-! ## Previews -/

/-- the options of a preview -/
def asPreview (o : Opts) : Opts := { o with preview := true }

theorem replaceSteps_preview (p : Prev) (o : Opts) (st : St) (urn : String) (i : Nat) (dbr : Bool) :
    replaceSteps p (asPreview o) st urn i dbr = replaceSteps p o st urn i dbr := rfl

theorem stepsFromDiff_preview (p : Prev) (o : Opts) (st : St) (g : Reg) (urn : String) (i : Nat) (s : State) (prov : Bool)
    (hp : o.preview = false) (l : List Step) (st' : St) (h : stepsFromDiff p o st g urn i s prov = .steps l st') :
    stepsFromDiff p (asPreview o) st g urn i s prov = .steps l st' := by
  unfold stepsFromDiff at h ⊢
  rw [show diffOf (asPreview o) urn g = diffOf o urn g from rfl]
  cases hd : diffAnswer (diffOf o urn g) with
  | error e => rw [hd] at h; exact h
  | ok d =>
    rw [hd] at h
    simp only at h ⊢
    by_cases h1 : d.changes = .unknown
    · rw [if_pos h1] at h; cases h
    · rw [if_neg h1] at h ⊢
      cases ha : Paths.applyReplaceOnChanges d g.replaceOnChanges (p.initErrors i) with
      | error e => rw [ha] at h; cases h
      | ok d =>
        rw [ha] at h
        simp only at h ⊢
        by_cases h2 : d.changes = .some
        · rw [if_pos h2] at h ⊢
          by_cases h3 : d.replace = true
          · rw [if_pos h3] at h ⊢
            by_cases h4 : (g.protect && s.protect) = true
            · rw [if_pos h4] at h; cases h
            · rw [if_neg h4] at h ⊢
              by_cases h5 : g.id ≠ ""
              · rw [if_pos ⟨h5, hp⟩] at h; cases h
              · rw [if_neg (fun hx => h5 hx.1)] at h ⊢
                exact h
          · rw [if_neg h3] at h ⊢; exact h
        · rw [if_neg h2] at h ⊢; exact h

theorem chooseSteps_preview (p : Prev) (o : Opts) (st : St) (g : Reg) (urn parent : String) (old : Option (Nat × State)) (prov : Bool)
    (hp : o.preview = false) (l : List Step) (st' : St) (h : chooseSteps p o st g urn parent old prov = .steps l st') :
    chooseSteps p (asPreview o) st g urn parent old prov = .steps l st' := by
  unfold chooseSteps at h ⊢
  by_cases hd : urn ∈ st.deletes
  · simp only [if_pos hd] at h ⊢; exact h
  · simp only [if_neg hd] at h ⊢
    cases old with
    | none => exact h
    | some x =>
      obtain ⟨i, s⟩ := x
      simp only at h ⊢
      by_cases hx : s.external = true
      · rw [if_pos hx] at h ⊢; exact h
      · rw [if_neg hx] at h ⊢
        rw [show isTargeted (asPreview o) st urn parent g.deps g.provider = isTargeted o st urn parent g.deps g.provider from rfl]
        cases ht : isTargeted o st urn parent g.deps g.provider with
        | none => rw [ht] at h; exact h
        | some t =>
          rw [ht] at h
          cases t with
          | false => exact h
          | true =>
            simp only at h ⊢
            cases hd : stepsFromDiff p o (addTarget st urn true) g urn i s prov with
            | error e => rw [hd] at h; cases h
            | bail => rw [hd] at h; cases h
            | crash => rw [hd] at h; cases h
            | steps l₁ st₁ =>
              rw [stepsFromDiff_preview p o _ g urn i s prov hp l₁ st₁ hd]
              rw [hd] at h
              exact h

theorem handle_preview (p : Prev) (o : Opts) (st : St) (e : Ev) (hp : o.preview = false) (l : List Step) (st' : St)
    (h : handle p o st e = .steps l st') : handle p (asPreview o) st e = .steps l st' := by
  cases e with
  | read r => exact h
  | register g =>
    unfold handle generateStepsChecked at h ⊢
    simp only at h ⊢
    have gen : ∀ l st', generateSteps p o st g = .steps l st' → generateSteps p (asPreview o) st g = .steps l st' := by
      intro l st' h
      unfold generateSteps at h ⊢
      rw [show checkParent (asPreview o) st g.parent g.type = checkParent o st g.parent g.type from rfl]
      cases hc : checkParent o st g.parent g.type with
      | error e => rw [hc] at h; cases h
      | ok parent =>
        rw [hc] at h
        simp only at h ⊢
        rw [show generateURN (asPreview o) st parent g.type g.name = generateURN o st parent g.type g.name from rfl]
        cases hu : generateURN o st parent g.type g.name with
        | none => rw [hu] at h; cases h
        | some x =>
          obtain ⟨urn, st₁⟩ := x
          rw [hu] at h
          simp only at h ⊢
          unfold settled at h ⊢
          simp only at h ⊢
          split at h
          · cases h
          · cases h
          · next hl =>
            split at h
            · next hi => rw [if_pos hi]; exact h
            · next hi =>
              rw [if_neg hi]
              split at h
              · cases h
              · cases h
              · next failures violated _ _ =>
                rw [hp] at h
                split at h
                · cases h
                · next hb =>
                  rw [if_neg]
                  · exact chooseSteps_preview p o _ g urn parent _ _ hp l st' h
                  · intro hc
                    apply hb
                    simp only [asPreview, Bool.not_true, Bool.and_false, Bool.or_false] at hc
                    simp only [Bool.or_eq_true] at hc ⊢
                    rcases hc with hc | hc
                    · exact .inl (.inl hc)
                    · exact .inl (.inr hc)
    cases hg : generateSteps p o st g with
    | error e => rw [hg] at h; cases h
    | bail => rw [hg] at h; cases h
    | crash => rw [hg] at h; cases h
    | steps l₀ st₀ =>
      rw [hg] at h
      rw [gen l₀ st₀ hg]
      simp only at h ⊢
      rw [show isTargetedUpdate (asPreview o) st₀ = isTargetedUpdate o st₀ from rfl]
      rw [hp] at h
      split at h
      · cases h
      · next hb => rw [if_neg hb]; exact h

/-- C176: a preview shows what the update does. If an update goes through, the preview of the same program, with the same answers of
providers and policies, goes through with the same steps in the same order. -/
theorem previews_show_what_updates_do (p : Prev) (o : Opts) (hp : o.preview = false) : ∀ (es : List Ev) (st : St) (l : List Step)
    (st' : St), handleAll p o st es = .steps l st' → handleAll p (asPreview o) st es = .steps l st' := by
  intro es
  induction es with
  | nil => intro st l st' h; exact h
  | cons e es ih =>
    intro st l st' h
    obtain ⟨l₁, st₁, l₂, h1, h2, h3⟩ := handleAll_cons h
    simp only [handleAll, handle_preview p o st e hp l₁ st₁ h1, ih st₁ l₂ st' h2, h3]

/-- C176, for the whole update: with the deletions at its start and its end -/
theorem previews_show_whole_updates (p : Prev) (o : Opts) (hp : o.preview = false) (es : List Ev) (l : List Step)
    (h : update p o es = some l) : update p (asPreview o) es = some l := by
  unfold update at h ⊢
  simp only at h ⊢
  split at h
  · cases h
  · next hr =>
    rw [if_neg hr]
    cases hh : handleAll p o (initial p none) es with
    | error e => rw [hh] at h; cases h
    | bail => rw [hh] at h; cases h
    | crash => rw [hh] at h; cases h
    | steps l₀ st =>
      rw [hh] at h
      rw [previews_show_what_updates_do p o hp es _ _ _ hh]
      exact h

example := previews_show_whole_updates _ _ rfl _ _ shop_update

/-- It is not so the other way round: a preview of what cannot be done may show steps. -/
theorem previews_show_more :
    update (prevOf [res "a"]) plainOpts [.register { reg "a" (answer .some true false) with id := "i-a" }] = none ∧
    update (prevOf [res "a"]) (asPreview plainOpts) [.register { reg "a" (answer .some true false) with id := "i-a" }] =
      some [.createReplacement 0 "a" true, .replace 0 "a" true, .deleteReplacement 0 false] := by
  decide +kernel

/-! ## Plans -/

/-- What is deleted ahead of a replacement is what is being replaced, or is not made again. -/
def NothingElseRemade (p : Prev) (l : List Step) : Prop :=
  ∀ a i b, l = a ++ Step.deleteReplacement i true :: b → (∃ u b', b = .replace i u false :: b') ∨ oldUrn p i ∉ b.filterMap Step.made

/-- What the steps of a registration are for plans -/
theorem register_shape (p : Prev) (o : Opts) (st : St) (g : Reg) (l : List Step) (st' : St) (hna : g.aliases = [])
    (h : handle p o st (.register g) = .steps l st') :
    ∃ urn, eventUrn o st (.register g) = some urn ∧ (∀ s ∈ l, urnOf p s = urn ∨ ∃ i, s = .deleteReplacement i true) ∧
      ∀ a i b, l = a ++ Step.deleteReplacement i true :: b → oldUrn p i = urn ∨ ∃ j b', b = .deleteReplacement j true :: b' := by
  obtain ⟨urn, parent, h1, h2, h3, h4, _⟩ := register_outcome p o st g l st' h
  refine ⟨urn, by simp only [eventUrn, h1, h2], ?_⟩
  have none_in : ∀ {l : List Step}, (∀ s ∈ l, ∀ i, s ≠ .deleteReplacement i true) → ∀ a i b,
      l = a ++ Step.deleteReplacement i true :: b → oldUrn p i = urn ∨ ∃ j b', b = .deleteReplacement j true :: b' := by
    intro l hl a i b he
    exact absurd rfl (hl (.deleteReplacement i true) (by rw [he]; simp) i)
  cases h4 with
  | importFresh => exact ⟨by simp [urnOf], none_in (by simp)⟩
  | importOver => exact ⟨by simp [urnOf], none_in (by simp)⟩
  | recreate => exact ⟨by simp [urnOf], none_in (by simp)⟩
  | external => exact ⟨by simp [urnOf], none_in (by simp)⟩
  | same => exact ⟨by simp [urnOf], none_in (by simp)⟩
  | update => exact ⟨by simp [urnOf], none_in (by simp)⟩
  | after => exact ⟨by simp [urnOf], none_in (by simp)⟩
  | skip => exact ⟨by simp [urnOf], none_in (by simp)⟩
  | create => exact ⟨by simp [urnOf], none_in (by simp)⟩
  | before _ s₁ s₂ i s l₀ _ hold _ _ _ _ _ hc _ _ =>
    obtain ⟨_, cond, hq⟩ := condemnDependents_shape p o s₁ i l₀ s₂ hc
    have hl := hq.steps
    rw [hna] at hold
    obtain ⟨ho, hs⟩ := (oldFor_direct_some p urn i s).mp hold
    obtain ⟨t, ht, _, hu⟩ := oldOf_some p.rs urn i ho
    have hou : oldUrn p i = urn := by simp [oldUrn, ht, hu]
    refine ⟨?_, ?_⟩
    · intro x hx
      rcases List.mem_append.mp hx with hx | hx
      · rw [hl, List.mem_map] at hx
        obtain ⟨j, _, rfl⟩ := hx
        exact .inr ⟨j, rfl⟩
      · simp only [List.mem_cons, List.not_mem_nil, or_false] at hx
        rcases hx with rfl | rfl | rfl
        · exact .inr ⟨i, rfl⟩
        · exact .inl rfl
        · exact .inl rfl
    · rw [hl]
      clear hl hq hc
      induction cond with
      | nil =>
        intro a j b he
        cases a with
        | nil =>
          simp only [List.map_nil, List.nil_append, List.cons.injEq, Step.deleteReplacement.injEq] at he
          rw [← he.1.1]
          exact .inl hou
        | cons y a =>
          exfalso
          simp only [List.map_nil, List.nil_append, List.cons_append, List.cons.injEq] at he
          have : Step.deleteReplacement j true ∈ [Step.replace i urn false, .createReplacement i urn false] := by
            rw [he.2]; simp
          simp at this
      | cons c cond ih =>
        intro a j b he
        cases a with
        | nil =>
          simp only [List.map_cons, List.cons_append, List.nil_append, List.cons.injEq] at he
          right
          cases cond with
          | nil => exact ⟨i, _, he.2.symm⟩
          | cons c' cond' => exact ⟨c', _, he.2.symm⟩
        | cons y a =>
          simp only [List.map_cons, List.cons_append, List.cons.injEq] at he
          exact ih a j b he.2

/-- The registrations among the events are of resources that are made. -/
theorem planned_registers (p : Prev) (o : Opts) : ∀ (es : List Ev) (st : St) (l : List Step) (st' : St),
    handleAll p o st es = .steps l st' → (planned p o st es).2 = st' ∧
      ∀ u, PEv.register u ∈ (planned p o st es).1 → u ∈ l.filterMap Step.made := by
  intro es
  induction es with
  | nil =>
    intro st l st' h
    simp only [handleAll] at h
    injection h with h1 h2
    exact ⟨h2, fun u hu => by cases hu⟩
  | cons e es ih =>
    intro st l st' h
    obtain ⟨l₁, st₁, l₂, h1, h2, h3⟩ := handleAll_cons h
    obtain ⟨urn, hu, a, _, _⟩ := each_event_makes_one_resource p o st e l₁ st₁ h1
    obtain ⟨i1, i2⟩ := ih st₁ l₂ st' h2
    rw [h3, List.filterMap_append, a]
    unfold planned
    rw [h1, hu]
    cases e with
    | register g =>
      simp only
      refine ⟨i1, fun u hm => ?_⟩
      rcases List.mem_append.mp hm with hm | hm
      · unfold registered at hm
        simp only [List.mem_cons, List.mem_append, List.mem_filterMap, List.mem_map] at hm
        rcases hm with hm | ⟨s, _, hs⟩ | ⟨s, _, hs⟩
        · injection hm with hm; simp [hm]
        · exfalso; unfold condemned at hs; split at hs <;> simp at hs
        · cases hs
      · exact List.mem_append_right _ (i2 u hm)
    | read r =>
      simp only
      exact ⟨i1, fun u hm => List.mem_append_right _ (i2 u hm)⟩

theorem calm_append : ∀ (a b : List PEv), Calm a → Calm b → (∀ u op al, PEv.step u op al ∈ a → PEv.register u ∉ b) →
    (∀ u op, PEv.del u op ∈ a → PEv.register u ∉ b) → Calm (a ++ b)
  | [], b, _, hb, _, _ => hb
  | .register u :: a, b, ha, hb, h1, h2 =>
    calm_append a b ha hb (fun u op al h => h1 u op al (List.mem_cons_of_mem _ h)) (fun u op h => h2 u op (List.mem_cons_of_mem _ h))
  | .condemn u :: a, b, ha, hb, h1, h2 =>
    calm_append a b ha hb (fun u op al h => h1 u op al (List.mem_cons_of_mem _ h)) (fun u op h => h2 u op (List.mem_cons_of_mem _ h))
  | .step u op al :: a, b, ha, hb, h1, h2 => by
    refine ⟨ha.1, ?_, calm_append a b ha.2.2 hb (fun u op al h => h1 u op al (List.mem_cons_of_mem _ h))
      (fun u op h => h2 u op (List.mem_cons_of_mem _ h))⟩
    intro hm
    rcases List.mem_append.mp hm with hm | hm
    · exact ha.2.1 hm
    · exact h1 u op al List.mem_cons_self hm
  | .del u op :: a, b, ha, hb, h1, h2 => by
    refine ⟨?_, calm_append a b ha.2 hb (fun u op al h => h1 u op al (List.mem_cons_of_mem _ h))
      (fun u op h => h2 u op (List.mem_cons_of_mem _ h))⟩
    intro hm
    rcases List.mem_append.mp hm with hm | hm
    · exact ha.1 hm
    · exact h2 u op List.mem_cons_self hm

theorem calm_registered (p : Prev) (urn : String) (l : List Step) : Calm (registered p urn l) := by
  have steps : ∀ l : List Step, Calm (l.map (fun s => PEv.step (urnOf p s) (opOf p s) none)) := by
    intro l
    induction l with
    | nil => trivial
    | cons s l ih => exact ⟨rfl, by simp, ih⟩
  have noted : ∀ (l : List Step) (t : List PEv), Calm t → Calm (l.filterMap (condemned p) ++ t) := by
    intro l t ht
    induction l with
    | nil => exact ht
    | cons s l ih =>
      rw [List.filterMap_cons]
      split
      · exact ih
      · next b hb =>
        unfold condemned at hb
        split at hb
        · injection hb with hb; subst hb; exact ih
        · cases hb
  exact noted l _ (steps l)

/-- recording, one part after the other -/
theorem record_append : ∀ (a b : List PEv) (m : Plans), record m (a ++ b) = (record m a).bind (fun m => record m b)
  | [], b, m => rfl
  | .register u :: a, b, m => by simp only [List.cons_append, record]; exact record_append a b _
  | .condemn u :: a, b, m => by
    simp only [List.cons_append, record]
    cases m.lookup u with
    | none => exact record_append a b _
    | some _ => exact record_append a b _
  | .step u op al :: a, b, m => by
    simp only [List.cons_append, record]
    cases m.lookup (al.getD u) with
    | none => rfl
    | some _ => exact record_append a b _
  | .del u op :: a, b, m => by simp only [List.cons_append, record]; exact record_append a b _

theorem record_registered (p : Prev) (urn : String) (l : List Step) (m : Plans)
    (h : ∀ s ∈ l, urnOf p s = urn ∨ ∃ i, s = .deleteReplacement i true) : ∃ m', record m (registered p urn l) = some m' := by
  have steps : ∀ (l : List Step) (m : Plans), (∀ s ∈ l, ∃ ops, m.lookup (urnOf p s) = some ops) →
      ∃ m', record m (l.map (fun s => PEv.step (urnOf p s) (opOf p s) none)) = some m' := by
    intro l
    induction l with
    | nil => intro m _; exact ⟨m, rfl⟩
    | cons s l ih =>
      intro m hm
      obtain ⟨ops, ho⟩ := hm s List.mem_cons_self
      simp only [List.map_cons, record, Option.getD_none, ho]
      apply ih
      intro t ht
      rw [lookup_put]
      by_cases hu : urnOf p t = urnOf p s
      · exact ⟨_, if_pos hu⟩
      · rw [if_neg hu]; exact hm t (List.mem_cons_of_mem _ ht)
  have noted : ∀ (l : List Step) (m : Plans), ∃ m', record m (l.filterMap (condemned p)) = some m' ∧ (∀ u ops, m.lookup u = some ops → ∃ ops, m'.lookup u = some ops) ∧
        ∀ i, Step.deleteReplacement i true ∈ l → ∃ ops, m'.lookup (oldUrn p i) = some ops := by
    intro l
    induction l with
    | nil => intro m; exact ⟨m, rfl, fun u ops h => ⟨ops, h⟩, fun i h => by cases h⟩
    | cons s l ih =>
      intro m
      rw [List.filterMap_cons]
      split
      · next hb =>
        obtain ⟨m', h1, h2, h3⟩ := ih m
        refine ⟨m', h1, h2, fun i hi => ?_⟩
        rcases List.mem_cons.mp hi with rfl | hi
        · simp [condemned] at hb
        · exact h3 i hi
      · next b hb =>
        unfold condemned at hb
        split at hb
        · next i =>
          injection hb with hb
          subst hb
          simp only [record]
          cases hl : m.lookup (oldUrn p i) with
          | some ops =>
            simp only
            obtain ⟨m', h1, h2, h3⟩ := ih m
            refine ⟨m', h1, h2, fun j hj => ?_⟩
            rcases List.mem_cons.mp hj with hj | hj
            · injection hj with hj; subst hj; exact h2 _ _ hl
            · exact h3 j hj
          | none =>
            simp only
            obtain ⟨m', h1, h2, h3⟩ := ih (m.put (oldUrn p i) [])
            refine ⟨m', h1, fun u ops hu => ?_, fun j hj => ?_⟩
            · refine h2 u ops ?_
              rw [lookup_put, if_neg]
              · exact hu
              · intro e; rw [e, hl] at hu; cases hu
            · rcases List.mem_cons.mp hj with hj | hj
              · injection hj with hj; subst hj; exact h2 _ [] (by rw [lookup_put, if_pos rfl])
              · exact h3 j hj
        · cases hb
  unfold registered
  simp only [record]
  rw [record_append]
  obtain ⟨m', h1, h2, h3⟩ := noted l (m.put urn [])
  rw [h1]
  apply steps
  intro s hs
  rcases h s hs with h | ⟨i, rfl⟩
  · rw [h]; exact h2 urn [] (by rw [lookup_put, if_pos rfl])
  · exact h3 i hs

theorem record_dels : ∀ (l : List (String × Op)) (m : Plans), ∃ m', record m (l.map (fun x => PEv.del x.1 x.2)) = some m'
  | [], m => ⟨m, rfl⟩
  | x :: l, m => by simp only [List.map_cons, record]; exact record_dels l _

theorem record_planned (p : Prev) (o : Opts) : ∀ (es : List Ev) (st : St) (m : Plans) (l : List Step) (st' : St), NoAliases es →
    handleAll p o st es = .steps l st' → ∃ m', record m (planned p o st es).1 = some m' := by
  intro es
  induction es with
  | nil => intro st m l st' _ _; exact ⟨m, rfl⟩
  | cons e es ih =>
    intro st m l st' hna h
    obtain ⟨l₁, st₁, l₂, h1, h2, h3⟩ := handleAll_cons h
    have hna' : NoAliases es := fun g hg => hna g (List.mem_cons_of_mem _ hg)
    unfold planned
    rw [h1]
    cases e with
    | read r => exact ih st₁ m l₂ st' hna' h2
    | register g =>
      obtain ⟨urn, hu, hs, _⟩ := register_shape p o st g l₁ st₁ (hna g List.mem_cons_self) h1
      rw [hu]
      simp only
      rw [record_append]
      obtain ⟨m', hm⟩ := record_registered p urn l₁ m hs
      rw [hm]
      exact ih st₁ m' l₂ st' hna' h2

theorem calm_planned (p : Prev) (o : Opts) : ∀ (es : List Ev) (st : St) (l : List Step) (st' : St) (pre post : List Step), NoAliases es →
    handleAll p o st es = .steps l st' → NothingElseRemade p (pre ++ l ++ post) → Calm (planned p o st es).1 := by
  intro es
  induction es with
  | nil => intro st l st' _ _ _ _ _; trivial
  | cons e es ih =>
    intro st l st' pre post hna h hq
    obtain ⟨l₁, st₁, l₂, h1, h2, h3⟩ := handleAll_cons h
    subst h3
    have hna' : NoAliases es := fun g hg => hna g (List.mem_cons_of_mem _ hg)
    have hrest := ih st₁ l₂ st' (pre ++ l₁) post hna' h2 (by simpa [List.append_assoc] using hq)
    unfold planned
    rw [h1]
    cases e with
    | read r => exact hrest
    | register g =>
      obtain ⟨urn, hu, hs, hb⟩ := register_shape p o st g l₁ st₁ (hna g List.mem_cons_self) h1
      obtain ⟨urn', hu', _, _, hseen⟩ := each_event_makes_one_resource p o st _ l₁ st₁ h1
      rw [hu] at hu'
      injection hu' with hu'
      subst hu'
      rw [hu]
      simp only
      obtain ⟨_, hregs⟩ := planned_registers p o es st₁ l₂ st' h2
      have hfresh := (handleAll_made p o es st₁ l₂ st' h2).2.2.1
      refine calm_append _ _ (calm_registered p urn l₁) hrest ?_ ?_
      · intro u op al hm hreg
        have hmade := hregs u hreg
        have hne : u ≠ urn := by
          rintro rfl
          exact hfresh u hmade (by rw [hseen]; exact List.mem_cons_self)
        unfold registered at hm
        simp only [List.mem_cons, List.mem_append, List.mem_filterMap, List.mem_map] at hm
        rcases hm with hm | ⟨s, _, hm⟩ | ⟨s, hsl, hm⟩
        · cases hm
        · unfold condemned at hm; split at hm <;> simp at hm
        · injection hm with hm _ _
          rcases hs s hsl with h' | ⟨i, rfl⟩
          · exact hne (hm ▸ h')
          · obtain ⟨a, b, hab⟩ := List.append_of_mem hsl
            have hm' : oldUrn p i = u := hm
            rcases hb a i b hab with h' | ⟨j, b', h'⟩
            · exact hne (hm' ▸ h')
            · have := hq (pre ++ a) i (b ++ l₂ ++ post) (by rw [hab]; simp)
              rcases this with ⟨x, y, hxy⟩ | hnot
              · rw [h'] at hxy; simp at hxy
              · apply hnot
                rw [hm']
                simp only [List.filterMap_append, List.mem_append]
                exact .inl (.inr hmade)
      · intro u op hm
        unfold registered at hm
        simp only [List.mem_cons, List.mem_append, List.mem_filterMap, List.mem_map] at hm
        rcases hm with hm | ⟨s, _, hm⟩ | ⟨s, _, hm⟩
        · cases hm
        · unfold condemned at hm; split at hm <;> simp at hm
        · cases hm

/-- C177: the plan that is made of an update lets that update through, if no resource has aliases and no dependent that is deleted ahead
of a replacement is made again. (Without these it need not be so: `own_plan_refuses_dependents`, `own_plan_refuses_aliases`.) -/
theorem own_plans_allow_updates_partial (p : Prev) (o : Opts) (es : List Ev) (l : List Step) (hna : NoAliases es)
    (h : update p o es = some l) (hq : NothingElseRemade p l) :
    ∃ m, record [] (plannedUpdate p o es) = some m ∧
      ∃ m', enforce m (plannedUpdate p o es) = some m' ∧ complete (p.rs.map (·.urn)) m' = true := by
  unfold update at h
  simp only at h
  split at h
  · cases h
  · cases hh : handleAll p o (initial p none) es with
    | error e => rw [hh] at h; cases h
    | bail => rw [hh] at h; cases h
    | crash => rw [hh] at h; cases h
    | steps l₀ st =>
      rw [hh] at h
      injection h with h
      subst h
      have hcalm := calm_planned p o es _ l₀ st _ _ hna hh hq
      obtain ⟨m₁, hm₁⟩ := record_planned p o es (initial p none) [] l₀ st hna hh
      have hdel : ∀ l : List Step, l.map (fun s => PEv.del (urnOf p s) (opOf p s)) =
          (l.map (fun s => (urnOf p s, opOf p s))).map (fun x => PEv.del x.1 x.2) := by
        intro l; rw [List.map_map]; rfl
      obtain ⟨m, hm⟩ : ∃ m, record [] (plannedUpdate p o es) = some m := by
        unfold plannedUpdate
        simp only
        rw [record_append, hm₁, hdel]
        exact record_dels _ _
      refine ⟨m, hm, plan_allows_its_own_steps _ m _ ?_ hm⟩
      unfold plannedUpdate
      simp only
      have hc2 : ∀ l : List Step, Calm (l.map (fun s => PEv.del (urnOf p s) (opOf p s))) := by
        intro l
        induction l with
        | nil => trivial
        | cons s l ih => exact ⟨by simp, ih⟩
      exact calm_append _ _ hcalm (hc2 _) (by simp) (by simp)

/-- a check of `NothingElseRemade` -/
def remadeCheck (p : Prev) : List Step → Bool
  | [] => true
  | s :: b => (match s with
    | .deleteReplacement i true => (match b with
      | .replace j _ false :: _ => decide (j = i)
      | _ => false) || !decide (oldUrn p i ∈ b.filterMap Step.made)
    | _ => true) && remadeCheck p b

theorem nothingElseRemade_of (p : Prev) : ∀ l : List Step, remadeCheck p l = true → NothingElseRemade p l
  | [], _ => fun a i b h => by simp at h
  | s :: l, hc => by
    intro a i b h
    simp only [remadeCheck, Bool.and_eq_true] at hc
    cases a with
    | nil =>
      simp only [List.nil_append, List.cons.injEq] at h
      obtain ⟨rfl, rfl⟩ := h
      have := hc.1
      simp only [Bool.or_eq_true, Bool.not_eq_true', decide_eq_false_iff_not] at this
      rcases this with h | h
      · left
        split at h
        · next j u b' => simp only [decide_eq_true_eq] at h; subst h; exact ⟨u, b', rfl⟩
        · cases h
      · exact .inr h
    | cons x a =>
      simp only [List.cons_append, List.cons.injEq] at h
      exact nothingElseRemade_of p l hc.2 a i b h.2

theorem shop_own : record [] (plannedUpdate (prevOf [res "a", res "b" ["a"], res "gone"]) plainOpts
      [.register (reg "a" (answer .some true true)), .register (reg "c")]) =
    some [("b", [.deleteReplaced, .removePendingReplace]), ("gone", [.delete]), ("c", [.create]),
      ("a", [.deleteReplaced, .replace, .createReplacement])] := by
  decide +kernel

/-- `a` is replaced, and `b` that depends on it is deleted ahead; the plan is the one above. -/
example := own_plans_allow_updates_partial (prevOf [res "a", res "b" ["a"], res "gone"]) plainOpts
  [.register (reg "a" (answer .some true true)), .register (reg "c")] _ (by
    intro g hg; simp at hg; rcases hg with rfl | rfl <;> rfl) rfl
  (nothingElseRemade_of _ _ (by decide +kernel))

/-- Not every update is let through by the plan made of it. What is planned for a resource that is registered replaces what was noted for
it when it was deleted ahead of the replacement of what it depends on, and the deletion is then a surprise. -/
theorem own_plan_refuses_dependents :
    (update (prevOf [res "a", res "b" ["a"]]) plainOpts
      [.register (reg "a" (answer .some true true)), .register { reg "b" with deps := ["a"] }]).isSome = true ∧
    ∃ m, record [] (plannedUpdate (prevOf [res "a", res "b" ["a"]]) plainOpts
      [.register (reg "a" (answer .some true true)), .register { reg "b" with deps := ["a"] }]) = some m ∧
    m.lookup "b" = some [.replace, .createReplacement] ∧
    enforce m (plannedUpdate (prevOf [res "a", res "b" ["a"]]) plainOpts
      [.register (reg "a" (answer .some true true)), .register { reg "b" with deps := ["a"] }]) = none := by
  refine ⟨by decide +kernel, _, rfl, ?_, ?_⟩ <;> decide +kernel

/-- So it is with the replacement, old one first, of a resource that goes by another name: its deletion is planned under the new name, and
looked for under the old. -/
theorem own_plan_refuses_aliases :
    record [] [.register "new", .step "old" .deleteReplaced (some "new"), .step "new" .replace none, .step "new" .createReplacement none] =
      some [("new", [.deleteReplaced, .replace, .createReplacement])] ∧
    enforce [("new", [.deleteReplaced, .replace, .createReplacement])]
      [.register "new", .step "old" .deleteReplaced (some "new"), .step "new" .replace none, .step "new" .createReplacement none] =
      none := by
  decide

end Pulumi.Plan
