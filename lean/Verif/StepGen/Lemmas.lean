import Verif.StepGen.Spec
namespace Pulumi.StepGen
open Pulumi.Snapshot (State Provider Ref)
open Pulumi.DepGraph (Seen Deletion Differ oldOf dependentReplacements deletions pendingDeletes)
open Pulumi.Paths (DiffResult Changes Text applyReplaceOnChanges)

/-- The fields `GenerateDeletes` and later events go by are what is said; the others are left open. -/
structure Core (st : St) (seen : Seen) (deletes : List String) (superseded awaiting : List Nat) : Prop where
  seen : st.seen = seen
  deletes : st.deletes = deletes
  superseded : st.superseded = superseded
  awaiting : st.awaiting = awaiting

/-- What may become of the targets. -/
def TargetsFrom (o : Opts) (st st' : St) (g : Reg) (urn parent : String) : Prop :=
  st'.targets = st.targets ∨
    (isTargeted o st urn parent g.deps g.provider = some true ∧ st'.targets = st.targets.map (urn :: ·))

/-- The ways a registration ends in steps. -/
inductive Outcome (p : Prev) (o : Opts) (st : St) (g : Reg) (urn parent : String) (old : Option (Nat × State)) :
    List Step → St → Prop where
  | importFresh (st') : isImport p g old = true → (old = none ∨ urn ∈ st.deletes) → st'.targets = st.targets →
      Core st' st.seen st.deletes st.superseded st.awaiting → Outcome p o st g urn parent old [.importNew urn] st'
  | importOver (st') (i s) : isImport p g old = true → old = some (i, s) → urn ∉ st.deletes → isDelete p st i = false →
      st'.targets = st.targets → Core st' st.seen st.deletes (i :: st.superseded) st.awaiting →
      Outcome p o st g urn parent old [.importReplacement i urn, .replace i urn true] st'
  | recreate (st') (i s) : urn ∈ st.deletes → old = some (i, s) → isDelete p st i = false → st'.targets = st.targets →
      Core st' { st.seen with replaces := urn :: st.seen.replaces } (st.deletes.filter (fun u => decide (u ≠ urn)))
        st.superseded st.awaiting →
      Outcome p o st g urn parent old [.replace i urn false, .createReplacement i urn false] st'
  | external (st') (i s) : urn ∉ st.deletes → old = some (i, s) → s.external = true → isDelete p st i = false →
      st'.targets = st.targets → Core st' st.seen st.deletes (i :: st.superseded) st.awaiting →
      Outcome p o st g urn parent old [.createReplacement i urn true, .replace i urn true] st'
  | same (st') (i s) : urn ∉ st.deletes → old = some (i, s) → s.external = false → isDelete p st i = false →
      TargetsFrom o st st' g urn parent →
      Core st' { st.seen with sames := urn :: st.seen.sames } st.deletes st.superseded st.awaiting →
      Outcome p o st g urn parent old [.same i urn] st'
  | update (st') (i s) : urn ∉ st.deletes → old = some (i, s) → s.external = false → isDelete p st i = false →
      isTargeted o st urn parent g.deps g.provider = some true → TargetsFrom o st st' g urn parent →
      Core st' { st.seen with updates := urn :: st.seen.updates } st.deletes st.superseded st.awaiting →
      Outcome p o st g urn parent old [.update i urn] st'
  | before (st' st₁ st₂) (i s l) : urn ∉ st.deletes → old = some (i, s) → s.external = false → isDelete p st' i = false →
      isTargeted o st urn parent g.deps g.provider = some true → (g.protect && s.protect) = false →
      Core st₁ { st.seen with replaces := urn :: st.seen.replaces } st.deletes st.superseded st.awaiting →
      condemnDependents p o st₁ i = some (.ok (l, st₂)) → TargetsFrom o st st' g urn parent →
      Core st' st₂.seen st₂.deletes st₂.superseded (i :: st₂.awaiting) →
      Outcome p o st g urn parent old (l ++ [.deleteReplacement i true, .replace i urn false, .createReplacement i urn false]) st'
  | after (st') (i s) : urn ∉ st.deletes → old = some (i, s) → s.external = false → isDelete p st i = false →
      isTargeted o st urn parent g.deps g.provider = some true → (g.protect && s.protect) = false →
      TargetsFrom o st st' g urn parent →
      Core st' { st.seen with replaces := urn :: st.seen.replaces } st.deletes (i :: st.superseded) st.awaiting →
      Outcome p o st g urn parent old [.createReplacement i urn true, .replace i urn true] st'
  | skip (st') : urn ∉ st.deletes → old = none → isTargeted o st urn parent g.deps g.provider = some false →
      st'.targets = st.targets →
      Core st' { st.seen with sames := urn :: st.seen.sames } st.deletes st.superseded st.awaiting →
      Outcome p o st g urn parent old [.skippedCreate urn] st'
  | create (st') : urn ∉ st.deletes → old = none →
      (isTargeted o st urn parent g.deps g.provider = some true ∨ o.isProviderType g.type = true) →
      TargetsFrom o st st' g urn parent → Core st' st.seen st.deletes st.superseded st.awaiting →
      Outcome p o st g urn parent old [.create urn] st'

theorem isDelete_congr (p : Prev) {st st' : St} (h : st'.superseded = st.superseded) (i : Nat) :
    isDelete p st' i = isDelete p st i := by unfold isDelete; rw [h]

theorem condemn_superseded (p : Prev) : ∀ (is : List Nat) (st : St) (l : List Step) (st' : St),
    condemn p is st = some (l, st') → st'.superseded = st.superseded ∧ st'.seen = st.seen ∧ st'.targets = st.targets := by
  intro is
  induction is with
  | nil => intro st l st' h; simp only [condemn, Option.some.injEq, Prod.mk.injEq] at h; rw [← h.2]; exact ⟨rfl, rfl, rfl⟩
  | cons i is ih =>
    intro st l st' h
    simp only [condemn] at h
    cases hs : p.rs[i]? with
    | none => rw [hs] at h; cases h
    | some s =>
      rw [hs] at h
      simp only at h
      by_cases hd : s.urn ∈ st.deletes
      · rw [if_pos hd] at h; exact ih st l st' h
      · rw [if_neg hd] at h
        by_cases hx : isDelete p st i = true
        · rw [if_pos hx] at h; cases h
        · rw [if_neg hx] at h
          split at h
          · cases h
          · next l' st'' hc =>
            simp only [Option.some.injEq, Prod.mk.injEq] at h
            obtain ⟨h1, h2, h3⟩ := ih _ _ _ hc
            rw [← h.2]
            exact ⟨h1, h2, h3⟩

theorem condemnDependents_superseded (p : Prev) (o : Opts) (st : St) (i : Nat) (l : List Step) (st' : St)
    (h : condemnDependents p o st i = some (.ok (l, st'))) :
    st'.superseded = st.superseded ∧ st'.seen = st.seen ∧ st'.targets = st.targets := by
  unfold condemnDependents at h
  by_cases ht : (!o.trustDependencies) = true
  · rw [if_pos ht] at h
    injection h with h; injection h with h
    simp only [Prod.mk.injEq] at h
    rw [← h.2]; exact ⟨rfl, rfl, rfl⟩
  · rw [if_neg ht] at h
    split at h
    · cases h
    · injection h with h; cases h
    · next deps _ =>
      cases hc : condemn p deps.reverse st with
      | none => rw [hc] at h; cases h
      | some x =>
        rw [hc] at h
        simp only [Option.map_some, Option.some.injEq, Except.ok.injEq] at h
        rw [h] at hc
        exact condemn_superseded p _ _ _ _ hc

theorem core_self (st : St) : Core st st.seen st.deletes st.superseded st.awaiting := ⟨rfl, rfl, rfl, rfl⟩

/-- What a diff can come to. -/
theorem stepsFromDiff_cases (p : Prev) (o : Opts) (st : St) (g : Reg) (urn : String) (i : Nat) (s : State) (prov : Bool)
    (l : List Step) (st' : St) (h : stepsFromDiff p o st g urn i s prov = .steps l st') :
    (l = [] ∧ st' = st) ∨
    (l = [.update i urn] ∧ isDelete p st i = false ∧ st' = { st with seen := { st.seen with updates := urn :: st.seen.updates } }) ∨
    ((g.protect && s.protect) = false ∧ ∃ dbr,
      replaceSteps p o { st with seen := { st.seen with replaces := urn :: st.seen.replaces } } urn i dbr = .steps l st') := by
  unfold stepsFromDiff at h
  generalize diffAnswer (diffOf o urn g) = r at h
  cases r with
  | error e => cases h
  | ok d =>
    simp only at h
    by_cases hu : d.changes = .unknown
    · rw [if_pos hu] at h; cases h
    · rw [if_neg hu] at h
      cases ha : applyReplaceOnChanges d g.replaceOnChanges (p.initErrors i) with
      | error e => rw [ha] at h; cases h
      | ok d' =>
        rw [ha] at h
        simp only at h
        by_cases hc : d'.changes = .some
        · rw [if_pos hc] at h
          by_cases hr : d'.replace = true
          · rw [if_pos hr] at h
            by_cases hp : (g.protect && s.protect) = true
            · rw [if_pos hp] at h; cases h
            · rw [if_neg hp] at h
              right; right
              refine ⟨by simpa using hp, ?_⟩
              by_cases hid : g.id ≠ "" ∧ o.preview = false
              · rw [if_pos hid] at h; cases h
              · rw [if_neg hid] at h
                refine ⟨g.deleteBeforeReplace.getD d'.deleteBeforeReplace, ?_⟩
                by_cases hpr : (prov && !isTargetedReplace o urn) = true
                · rw [if_pos hpr] at h
                  cases hq : g.recheck with
                  | error e => rw [hq] at h; cases h
                  | ok b =>
                    rw [hq] at h
                    cases b with
                    | true => cases h
                    | false => exact h
                · rw [if_neg hpr] at h; exact h
          · rw [if_neg hr] at h
            right; left
            by_cases hx : isDelete p st i = true
            · rw [if_pos hx] at h; cases h
            · rw [if_neg hx] at h
              injection h with h1 h2
              exact ⟨h1.symm, by simpa using hx, h2.symm⟩
        · rw [if_neg hc] at h
          by_cases hi : p.initErrors i = true
          · rw [if_pos hi] at h
            right; left
            by_cases hx : isDelete p st i = true
            · rw [if_pos hx] at h; cases h
            · rw [if_neg hx] at h
              injection h with h1 h2
              exact ⟨h1.symm, by simpa using hx, h2.symm⟩
          · rw [if_neg hi] at h
            injection h with h1 h2
            exact .inl ⟨h1.symm, h2.symm⟩

theorem replaceSteps_ne_nil (p : Prev) (o : Opts) (st : St) (urn : String) (i : Nat) (dbr : Bool) (st' : St) :
    replaceSteps p o st urn i dbr ≠ .steps [] st' := by
  intro h
  unfold replaceSteps at h
  cases dbr with
  | true =>
    simp only [if_true] at h
    split at h
    · cases h
    · cases h
    · next l st₂ _ =>
      split at h
      · cases h
      · injection h with h1 h2
        simp at h1
  | false =>
    simp only [Bool.false_eq_true, if_false] at h
    split at h
    · cases h
    · injection h with h1 _
      cases h1

/-- The four cases come to one of the outcomes. -/
theorem chooseSteps_outcome (p : Prev) (o : Opts) (st : St) (g : Reg) (urn parent : String) (old : Option (Nat × State))
    (prov : Bool) (l : List Step) (st' : St) (h : chooseSteps p o st g urn parent old prov = .steps l st') :
    Outcome p o st g urn parent old l st' := by
  unfold chooseSteps at h
  by_cases hd : urn ∈ st.deletes
  · rw [if_pos hd] at h
    cases old with
    | none => cases h
    | some x =>
      obtain ⟨i, s⟩ := x
      simp only at h
      by_cases hx : isDelete p st i = true
      · rw [if_pos hx] at h; cases h
      · rw [if_neg hx] at h
        injection h with h1 h2
        subst h1; subst h2
        exact .recreate _ i s hd rfl (by simpa using hx) rfl ⟨rfl, rfl, rfl, rfl⟩
  · rw [if_neg hd] at h
    cases old with
    | none =>
      simp only at h
      cases ht : isTargeted o st urn parent g.deps g.provider with
      | none => rw [ht] at h; cases h
      | some t =>
        rw [ht] at h
        simp only at h
        by_cases hs : (!t && !o.isProviderType g.type) = true
        · rw [if_pos hs] at h
          injection h with h1 h2
          subst h1; subst h2
          have : t = false := by cases t <;> simp_all
          exact .skip _ hd rfl (by rw [ht, this]) rfl ⟨rfl, rfl, rfl, rfl⟩
        · rw [if_neg hs] at h
          injection h with h1 h2
          subst h1; subst h2
          refine .create _ hd rfl ?_ ?_ ?_
          · cases t with
            | true => exact .inl ht
            | false => right; simpa using hs
          · cases t with
            | true => exact .inr ⟨ht, rfl⟩
            | false => exact .inl rfl
          · cases t <;> exact ⟨rfl, rfl, rfl, rfl⟩
    | some x =>
      obtain ⟨i, s⟩ := x
      simp only at h
      by_cases he : s.external = true
      · rw [if_pos he] at h
        by_cases hx : isDelete p st i = true
        · rw [if_pos hx] at h; cases h
        · rw [if_neg hx] at h
          injection h with h1 h2
          subst h1; subst h2
          exact .external _ i s hd rfl he (by simpa using hx) rfl ⟨rfl, rfl, rfl, rfl⟩
      · rw [if_neg he] at h
        have he' : s.external = false := by simpa using he
        cases ht : isTargeted o st urn parent g.deps g.provider with
        | none => rw [ht] at h; cases h
        | some t =>
          rw [ht] at h
          cases t with
          | false =>
            simp only [sameStep] at h
            by_cases hx : isDelete p st i = true
            · rw [if_pos hx] at h; cases h
            · rw [if_neg hx] at h
              injection h with h1 h2
              subst h1; subst h2
              exact .same _ i s hd rfl he' (by simpa using hx) (.inl rfl) ⟨rfl, rfl, rfl, rfl⟩
          | true =>
            simp only at h
            have hcore : Core (addTarget st urn true) st.seen st.deletes st.superseded st.awaiting := ⟨rfl, rfl, rfl, rfl⟩
            have hsame : ∀ l st', sameStep p (addTarget st urn true) urn i = .steps l st' →
                Outcome p o st g urn parent (some (i, s)) l st' := by
              intro l st' h
              simp only [sameStep] at h
              by_cases hx : isDelete p (addTarget st urn true) i = true
              · rw [if_pos hx] at h; cases h
              · rw [if_neg hx] at h
                injection h with h1 h2
                subst h1; subst h2
                rw [isDelete_congr p (st := st) (st' := addTarget st urn true) rfl] at hx
                exact .same _ i s hd rfl he' (by simpa using hx) (.inr ⟨ht, rfl⟩) ⟨rfl, rfl, rfl, rfl⟩
            cases hm : stepsFromDiff p o (addTarget st urn true) g urn i s prov with
            | error e => rw [hm] at h; cases h
            | bail => rw [hm] at h; cases h
            | crash => rw [hm] at h; cases h
            | steps l₀ st₀ =>
              rw [hm] at h
              rcases stepsFromDiff_cases p o _ g urn i s prov l₀ st₀ hm with ⟨h1, h2⟩ | ⟨h1, hx, h2⟩ | ⟨hp, dbr, hr⟩
              · subst h1; subst h2
                exact hsame l st' h
              · subst h1; subst h2
                simp only at h
                injection h with h1 h2
                subst h1; subst h2
                rw [isDelete_congr p (st := st) (st' := addTarget st urn true) rfl] at hx
                exact .update _ i s hd rfl he' hx ht (.inr ⟨ht, rfl⟩) ⟨rfl, rfl, rfl, rfl⟩
              · have hl : l₀ ≠ [] := by intro hl; subst hl; exact replaceSteps_ne_nil p o _ urn i dbr st₀ hr
                cases hl0 : l₀ with
                | nil => exact absurd hl0 hl
                | cons a l₁ =>
                  rw [hl0] at h
                  simp only at h
                  rw [← hl0] at h
                  injection h with h1 h2
                  subst h1; subst h2
                  unfold replaceSteps at hr
                  cases dbr with
                  | true =>
                    simp only [if_true] at hr
                    split at hr
                    · cases hr
                    · cases hr
                    · next l₂ st₂ hc =>
                      by_cases hx : isDelete p st₂ i = true
                      · rw [if_pos hx] at hr; cases hr
                      · rw [if_neg hx] at hr
                        injection hr with h1 h2
                        subst h1; subst h2
                        have ht' := (condemnDependents_superseded p o _ i l₂ st₂ hc).2.2
                        refine .before _ _ st₂ i s l₂ hd rfl he' ?_ ht hp ?core hc (.inr ⟨ht, ?_⟩)
                          ⟨rfl, rfl, rfl, rfl⟩
                        case core => exact ⟨rfl, rfl, rfl, rfl⟩
                        · have : isDelete p st₂ i = false := by simpa using hx
                          exact this
                        · exact ht'
                  | false =>
                    simp only [Bool.false_eq_true, if_false] at hr
                    split at hr
                    · cases hr
                    · next hx =>
                      injection hr with h1 h2
                      subst h1; subst h2
                      have hx' : isDelete p (addTarget st urn true) i = false := by
                        have : ¬ isDelete p (addTarget st urn true) i = true := hx
                        simpa using this
                      rw [isDelete_congr p (st := st) (st' := addTarget st urn true) rfl] at hx'
                      exact .after _ i s hd rfl he' hx' ht hp (.inr ⟨ht, rfl⟩) ⟨rfl, rfl, rfl, rfl⟩

theorem findOld_some (p : Prev) : ∀ (us : List String) (u : String) (i : Nat), findOld p us = some (u, i) →
    u ∈ us ∧ oldOf p.rs u = some i := by
  intro us
  induction us with
  | nil => intro u i h; cases h
  | cons a us ih =>
    intro u i h
    unfold findOld at h
    cases ho : oldOf p.rs a with
    | some j =>
      rw [ho] at h
      simp only [Option.some.injEq, Prod.mk.injEq] at h
      rw [← h.1, ← h.2]
      exact ⟨List.mem_cons_self, ho⟩
    | none =>
      rw [ho] at h
      have := ih u i h
      exact ⟨List.mem_cons_of_mem _ this.1, this.2⟩

theorem oldOf_some (rs : List State) (u : String) (i : Nat) (h : oldOf rs u = some i) :
    ∃ s, rs[i]? = some s ∧ s.delete = false ∧ s.urn = u := by
  unfold oldOf at h
  have := List.find?_some h
  cases hs : rs[i]? with
  | none => rw [hs] at this; cases this
  | some s =>
    rw [hs] at this
    simp only [Bool.and_eq_true, Bool.not_eq_true', decide_eq_true_eq] at this
    exact ⟨s, rfl, this.1, this.2⟩

theorem oldOf_none (rs : List State) (u : String) (h : oldOf rs u = none) (i : Nat) (s : State) (hs : rs[i]? = some s)
    (hd : s.delete = false) : s.urn ≠ u := by
  intro hu
  unfold oldOf at h
  rw [List.find?_eq_none] at h
  have hi : i < rs.length := by
    rcases Nat.lt_or_ge i rs.length with h1 | h1
    · exact h1
    · rw [List.getElem?_eq_none h1] at hs; cases hs
  have := h i (List.mem_range.mpr hi)
  rw [hs] at this
  simp [hd, hu] at this

/-- The old state of a registration: the one found by the URN or else by an alias. -/
def oldFor (p : Prev) (urn : String) (aliases : List String) : Option (Nat × State) :=
  (findOld p (urn :: aliases)).bind (fun f => (p.rs[f.2]?).map (fun s => (f.2, s)))

/-- The state of the generator once the old state is looked up, its URN settled. -/
def lookedUp (p : Prev) (st : St) (g : Reg) (urn : String) : St := (noteAlias st urn (findOld p (urn :: g.aliases))).1

/-- Whether the old state was taken by an alias already. -/
def taken (p : Prev) (st : St) (g : Reg) (urn : String) : Bool := (noteAlias st urn (findOld p (urn :: g.aliases))).2

theorem settled_outcome (p : Prev) (o : Opts) (st : St) (g : Reg) (urn parent : String) (l : List Step) (st' : St)
    (h : settled p o st g urn parent = .steps l st') :
    Outcome p o (lookedUp p st g urn) g urn parent (oldFor p urn g.aliases) l st' ∧
      (taken p st g urn = false ∨ isImport p g (oldFor p urn g.aliases) = true) := by
  unfold settled at h
  simp only at h
  change (match (if (oldFor p urn g.aliases).isSome = true then g.ignoreFails else none), g.load with
    | some e, _ => Made.error e
    | none, .error e => .error e
    | none, .ok prov =>
      if isImport p g (oldFor p urn g.aliases) = true then
        importSteps p (lookedUp p st g urn) urn ((oldFor p urn g.aliases).map (·.1))
      else
        match (if prov = true then g.check else .ok false), g.policy with
        | .error e, _ => .error e
        | .ok _, .error e => .error e
        | .ok failures, .ok violated =>
          if (taken p st g urn || failures || (violated && !o.preview)) = true then .bail
          else chooseSteps p o { lookedUp p st g urn with sawError := (lookedUp p st g urn).sawError || violated }
            g urn parent (oldFor p urn g.aliases) prov) = Made.steps l st' at h
  generalize hold : oldFor p urn g.aliases = old at h ⊢
  generalize lookedUp p st g urn = st₁ at h ⊢
  generalize taken p st g urn = inv at h ⊢
  split at h
  · cases h
  · cases h
  · next prov _ _ =>
    by_cases hi : isImport p g old = true
    · rw [if_pos hi] at h
      refine ⟨?_, .inr hi⟩
      unfold importSteps at h
      cases old with
      | none =>
        simp only [Option.map_none] at h
        injection h with h1 h2
        subst h1; subst h2
        exact .importFresh _ hi (.inl rfl) rfl (core_self _)
      | some x =>
        obtain ⟨i, s⟩ := x
        simp only [Option.map_some] at h
        by_cases hd : urn ∈ st₁.deletes
        · rw [if_pos hd] at h
          injection h with h1 h2
          subst h1; subst h2
          exact .importFresh _ hi (.inr hd) rfl (core_self _)
        · rw [if_neg hd] at h
          by_cases hx : isDelete p st₁ i = true
          · rw [if_pos hx] at h; cases h
          · rw [if_neg hx] at h
            injection h with h1 h2
            subst h1; subst h2
            exact .importOver _ i s hi rfl hd (by simpa using hx) rfl ⟨rfl, rfl, rfl, rfl⟩
    · rw [if_neg hi] at h
      split at h
      · cases h
      · cases h
      · next failures violated _ _ =>
        by_cases hb : (inv || failures || (violated && !o.preview)) = true
        · rw [if_pos hb] at h; cases h
        · rw [if_neg hb] at h
          refine ⟨?_, .inl ?_⟩
          · have := chooseSteps_outcome p o _ g urn parent old prov l st' h
            generalize hs₂ : ({ st₁ with sawError := st₁.sawError || violated } : St) = st₂ at this
            have e1 : st₂.seen = st₁.seen := by rw [← hs₂]
            have e2 : st₂.deletes = st₁.deletes := by rw [← hs₂]
            have e3 : st₂.superseded = st₁.superseded := by rw [← hs₂]
            have e4 : st₂.awaiting = st₁.awaiting := by rw [← hs₂]
            have e5 : st₂.targets = st₁.targets := by rw [← hs₂]
            have e6 : ∀ i, isDelete p st₂ i = isDelete p st₁ i := isDelete_congr p e3
            have e7 : ∀ u pa d r, isTargeted o st₂ u pa d r = isTargeted o st₁ u pa d r := by
              intro u pa d r; unfold isTargeted; rw [e5]
            have e8 : ∀ s', TargetsFrom o st₂ s' g urn parent → TargetsFrom o st₁ s' g urn parent := by
              intro s' h; unfold TargetsFrom at h ⊢; rw [e5, e7] at h; exact h
            cases this with
            | importFresh s' a b c d => rw [e2] at b; rw [e5] at c; rw [e1, e2, e3, e4] at d; exact .importFresh _ a b c d
            | importOver s' i s a b c d e f =>
              rw [e2] at c; rw [e6] at d; rw [e5] at e; rw [e1, e2, e3, e4] at f; exact .importOver _ i s a b c d e f
            | recreate s' i s a b c d e =>
              rw [e2] at a; rw [e6] at c; rw [e5] at d; rw [e1, e2, e3, e4] at e; exact .recreate _ i s a b c d e
            | external s' i s a b c d e f =>
              rw [e2] at a; rw [e6] at d; rw [e5] at e; rw [e1, e2, e3, e4] at f; exact .external _ i s a b c d e f
            | same s' i s a b c d e f =>
              rw [e2] at a; rw [e6] at d; rw [e1, e2, e3, e4] at f; exact .same _ i s a b c d (e8 _ e) f
            | update s' i s a b c d e f k =>
              rw [e2] at a; rw [e6] at d; rw [e7] at e; rw [e1, e2, e3, e4] at k; exact .update _ i s a b c d e (e8 _ f) k
            | before s' s₁ s₂ i s l a b c d e f k m n q =>
              rw [e2] at a; rw [e7] at e; rw [e1, e2, e3, e4] at k; exact .before _ _ _ i s l a b c d e f k m (e8 _ n) q
            | after s' i s a b c d e f k m =>
              rw [e2] at a; rw [e6] at d; rw [e7] at e; rw [e1, e2, e3, e4] at m; exact .after _ i s a b c d e f (e8 _ k) m
            | skip s' a b c d e =>
              rw [e2] at a; rw [e7] at c; rw [e5] at d; rw [e1, e2, e3, e4] at e; exact .skip _ a b c d e
            | create s' a b c d e =>
              rw [e2] at a; rw [e7] at c; rw [e1, e2, e3, e4] at e; exact .create _ a b c (e8 _ d) e
          · cases inv <;> simp_all

/-- The generator with one more URN. -/
def withUrn (st : St) (urn : String) : St := { st with seen := { st.seen with urns := urn :: st.seen.urns } }

theorem generateURN_some (o : Opts) (st : St) (parent type name urn : String) (st' : St)
    (h : generateURN o st parent type name = some (urn, st')) : urn ∉ st.seen.urns ∧ st' = withUrn st urn := by
  unfold generateURN at h
  simp only at h
  split at h
  · cases h
  · next hu =>
    simp only [Option.some.injEq, Prod.mk.injEq] at h
    rw [← h.1, ← h.2]
    exact ⟨hu, rfl⟩

theorem generateSteps_outcome (p : Prev) (o : Opts) (st : St) (g : Reg) (l : List Step) (st' : St)
    (h : generateSteps p o st g = .steps l st') :
    ∃ urn parent, checkParent o st g.parent g.type = .ok parent ∧ urn = o.urnOf parent g.type g.name ∧ urn ∉ st.seen.urns ∧
      Outcome p o (lookedUp p (withUrn st urn) g urn) g urn parent (oldFor p urn g.aliases) l st' ∧
      (taken p (withUrn st urn) g urn = false ∨ isImport p g (oldFor p urn g.aliases) = true) := by
  unfold generateSteps at h
  cases hc : checkParent o st g.parent g.type with
  | error e => rw [hc] at h; cases h
  | ok parent =>
    rw [hc] at h
    simp only at h
    cases hu : generateURN o st parent g.type g.name with
    | none => rw [hu] at h; cases h
    | some x =>
      obtain ⟨urn, st₁⟩ := x
      rw [hu] at h
      obtain ⟨h1, h2⟩ := generateURN_some o st parent g.type g.name urn st₁ hu
      have h3 : urn = o.urnOf parent g.type g.name := by
        unfold generateURN at hu
        simp only at hu
        split at hu
        · cases hu
        · simp only [Option.some.injEq, Prod.mk.injEq] at hu
          exact hu.1.symm
      subst h2
      have := settled_outcome p o _ g urn parent l st' h
      exact ⟨urn, parent, rfl, h3, h1, this.1, this.2⟩

/-- `GenerateSteps` only ever changes what the next registrations may depend on. -/
theorem checked_steps (p : Prev) (o : Opts) (st : St) (g : Reg) (l : List Step) (st' : St)
    (h : generateStepsChecked p o st g = .steps l st') :
    ∃ st₀, generateSteps p o st g = .steps l st₀ ∧ Core st' st₀.seen st₀.deletes st₀.superseded st₀.awaiting ∧
      st'.targets = st₀.targets := by
  unfold generateStepsChecked at h
  cases hm : generateSteps p o st g with
  | error e => rw [hm] at h; cases h
  | bail => rw [hm] at h; cases h
  | crash => rw [hm] at h; cases h
  | steps l₀ st₀ =>
    rw [hm] at h
    simp only at h
    by_cases hc : (isTargetedUpdate o st₀ && l₀.any Step.changes && g.deps.any (fun d => decide (d ∈ st₀.skipped))) = true
    · rw [if_pos hc] at h
      by_cases hp : o.preview = true
      · rw [if_pos hp] at h
        injection h with h1 h2
        subst h1; subst h2
        exact ⟨st₀, rfl, ⟨rfl, rfl, rfl, rfl⟩, rfl⟩
      · rw [if_neg hp] at h; cases h
    · rw [if_neg hc] at h
      injection h with h1 h2
      subst h1; subst h2
      exact ⟨_, rfl, core_self _, rfl⟩

theorem Core.trans {st st₀ : St} {a : Seen} {b : List String} {c d : List Nat}
    (h : Core st st₀.seen st₀.deletes st₀.superseded st₀.awaiting) (h' : Core st₀ a b c d) : Core st a b c d :=
  ⟨h.seen.trans h'.seen, h.deletes.trans h'.deletes, h.superseded.trans h'.superseded, h.awaiting.trans h'.awaiting⟩

theorem Outcome.congr {p : Prev} {o : Opts} {st : St} {g : Reg} {urn parent : String} {old : Option (Nat × State)}
    {l : List Step} {st₀ st' : St} (h : Outcome p o st g urn parent old l st₀)
    (hc : Core st' st₀.seen st₀.deletes st₀.superseded st₀.awaiting) (ht : st'.targets = st₀.targets) :
    Outcome p o st g urn parent old l st' := by
  have tf : TargetsFrom o st st₀ g urn parent → TargetsFrom o st st' g urn parent := by
    intro h; unfold TargetsFrom at h ⊢; rw [ht]; exact h
  cases h with
  | importFresh _ a b c d => exact .importFresh _ a b (ht.trans c) (hc.trans d)
  | importOver _ i s a b c d e f => exact .importOver _ i s a b c d (ht.trans e) (hc.trans f)
  | recreate _ i s a b c d e => exact .recreate _ i s a b c (ht.trans d) (hc.trans e)
  | external _ i s a b c d e f => exact .external _ i s a b c d (ht.trans e) (hc.trans f)
  | same _ i s a b c d e f => exact .same _ i s a b c d (tf e) (hc.trans f)
  | update _ i s a b c d e f k => exact .update _ i s a b c d e (tf f) (hc.trans k)
  | before _ s₁ s₂ i s l a b c d e f k m n q =>
    refine .before _ s₁ s₂ i s l a b c ?_ e f k m (tf n) (hc.trans q)
    rw [isDelete_congr p hc.superseded]; exact d
  | after _ i s a b c d e f k m => exact .after _ i s a b c d e f (tf k) (hc.trans m)
  | skip _ a b c d e => exact .skip _ a b c (ht.trans d) (hc.trans e)
  | create _ a b c d e => exact .create _ a b c (tf d) (hc.trans e)

theorem register_outcome (p : Prev) (o : Opts) (st : St) (g : Reg) (l : List Step) (st' : St)
    (h : handle p o st (.register g) = .steps l st') :
    ∃ urn parent, checkParent o st g.parent g.type = .ok parent ∧ urn = o.urnOf parent g.type g.name ∧ urn ∉ st.seen.urns ∧
      Outcome p o (lookedUp p (withUrn st urn) g urn) g urn parent (oldFor p urn g.aliases) l st' ∧
      (taken p (withUrn st urn) g urn = false ∨ isImport p g (oldFor p urn g.aliases) = true) := by
  obtain ⟨st₀, h0, hc, ht⟩ := checked_steps p o st g l st' h
  obtain ⟨urn, parent, h1, h2, h3, h4, h5⟩ := generateSteps_outcome p o st g l st₀ h0
  exact ⟨urn, parent, h1, h2, h3, h4.congr hc ht, h5⟩

/-- The ways a read ends in steps. -/
inductive ReadOutcome (p : Prev) (st : St) (r : Rd) (urn : String) : List Step → St → Prop where
  | over (i s) : oldOf p.rs urn = some i → p.rs[i]? = some s → s.external = false → s.id ≠ r.id → isDelete p st i = false →
      ReadOutcome p st r urn [.readReplacement i urn, .replace i urn true]
        { st with seen := { st.seen with replaces := urn :: st.seen.replaces }, superseded := i :: st.superseded }
  | known (i s) : oldOf p.rs urn = some i → p.rs[i]? = some s → (s.external = true ∨ s.id = r.id) →
      ReadOutcome p st r urn [.read (some i) urn] { st with seen := { st.seen with reads := urn :: st.seen.reads } }
  | fresh : oldOf p.rs urn = none →
      ReadOutcome p st r urn [.read none urn] { st with seen := { st.seen with reads := urn :: st.seen.reads } }

theorem read_outcome (p : Prev) (o : Opts) (st : St) (r : Rd) (l : List Step) (st' : St)
    (h : handle p o st (.read r) = .steps l st') :
    ∃ urn parent, checkParent o st r.parent r.type = .ok parent ∧ urn = o.urnOf parent r.type r.name ∧ urn ∉ st.seen.urns ∧
      ReadOutcome p (withUrn st urn) r urn l st' := by
  change generateReadSteps p o st r = _ at h
  unfold generateReadSteps at h
  cases hc : checkParent o st r.parent r.type with
  | error e => rw [hc] at h; cases h
  | ok parent =>
    rw [hc] at h
    simp only at h
    cases hu : generateURN o st parent r.type r.name with
    | none => rw [hu] at h; cases h
    | some x =>
      obtain ⟨urn, st₁⟩ := x
      rw [hu] at h
      obtain ⟨h1, h2⟩ := generateURN_some o st parent r.type r.name urn st₁ hu
      have h3 : urn = o.urnOf parent r.type r.name := by
        unfold generateURN at hu
        simp only at hu
        split at hu
        · cases hu
        · simp only [Option.some.injEq, Prod.mk.injEq] at hu
          exact hu.1.symm
      subst h2
      refine ⟨urn, parent, rfl, h3, h1, ?_⟩
      simp only at h
      by_cases hid : r.id = ""
      · rw [if_pos hid] at h; cases h
      · rw [if_neg hid] at h
        cases ho : oldOf p.rs urn with
        | none =>
          rw [ho] at h
          simp only [Option.bind_none] at h
          injection h with h1 h2
          subst h1; subst h2
          exact .fresh ho
        | some i =>
          obtain ⟨s, hs, _, _⟩ := oldOf_some p.rs urn i ho
          rw [ho] at h
          simp only [Option.bind_some, hs, Option.map_some] at h
          by_cases hb : (!s.external && decide (s.id ≠ r.id)) = true
          · rw [if_pos hb] at h
            simp only [Bool.and_eq_true, Bool.not_eq_true', decide_eq_true_eq] at hb
            by_cases hx : isDelete p (withUrn st urn) i = true
            · rw [if_pos hx] at h; cases h
            · rw [if_neg hx] at h
              injection h with h1 h2
              subst h1; subst h2
              exact .over i s ho hs hb.1 hb.2 (by simpa using hx)
          · rw [if_neg hb] at h
            injection h with h1 h2
            subst h1; subst h2
            refine .known i s ho hs ?_
            simp only [Bool.and_eq_true, Bool.not_eq_true', decide_eq_true_eq, not_and, Decidable.not_not] at hb
            cases he : s.external with
            | true => exact .inl rfl
            | false => exact .inr (hb he)

end Pulumi.StepGen
