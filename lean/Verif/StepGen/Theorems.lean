import Verif.StepGen.Final
/-!
# What an update does with the resources of the program and of the checkpoint
-/
namespace Pulumi.StepGen
open Pulumi.Snapshot (State Provider Ref)
open Pulumi.DepGraph (Seen Deletion Differ oldOf dependentReplacements deletions deletionOf pendingDeletes Parsed Later)

/-! ## Examples to go with the theorems -/

/-- A state of an example -/
def res (urn : String) (deps : List String := []) : State :=
  { type := "t", urn := urn, custom := true, delete := false, id := "i-" ++ urn, inputs := "", outputs := "", parent := "",
    protect := false, external := false, deps := deps, provider := .none, propDeps := deps.map (fun d => ("x", [d])),
    pendingReplacement := false, aliases := [], timeouts := "", retainOnDelete := false, rest := "" }

/-- A checkpoint of an example -/
def prevOf (rs : List State) : Prev := { rs := rs, inputs := fun _ => ["x"], importId := fun _ => "", initErrors := fun _ => false }

/-- The options of an example; the URN of a resource is its name -/
def plainOpts : Opts :=
  { preview := false, trustDependencies := true, targetDependents := false, replaceTargets := none,
    isProviderType := fun t => decide (t = "provider"), rootType := "stack", isRoot := fun _ => false, urnOf := fun _ _ n => n,
    differ := fun _ _ => .ok true }

open Paths (DiffResult Changes) in
/-- A provider's answer in an example -/
def answer (c : Changes) (replace dbr : Bool) : Diffed :=
  .diff { changes := c, replaceKeys := if replace then ["x".toList] else [], stableKeys := [], changedKeys := [], detailed := none,
          deleteBeforeReplace := dbr }

/-- A registration of an example -/
def reg (name : String) (diff : Diffed := answer .none false false) : Reg :=
  { type := "t", name := name, custom := true, parent := "", protect := false, deps := [], provider := .none, id := "",
    aliases := [], deleteBeforeReplace := none, replaceOnChanges := [], ignoreFails := none, load := .ok true, check := .ok false,
    policy := .ok false, diff := diff, recheck := .ok false }

/-! ## Every event is answered once -/

theorem condemnDependents_shape (p : Prev) (o : Opts) (st : St) (i : Nat) (l : List Step) (st' : St)
    (h : condemnDependents p o st i = some (.ok (l, st'))) : ∃ is cond, Condemned p is st cond l st' := by
  unfold condemnDependents at h
  by_cases htr : (!o.trustDependencies) = true
  · rw [if_pos htr] at h
    injection h with h; injection h with h
    simp only [Prod.mk.injEq] at h
    rw [← h.1, ← h.2]
    exact ⟨[], [], ⟨rfl, List.Sublist.refl _, by simp, by simp, by simp, by simp⟩⟩
  · rw [if_neg htr] at h
    split at h
    · cases h
    · injection h with h; cases h
    · next deps _ =>
      cases hc : condemn p deps.reverse st with
      | none => rw [hc] at h; cases h
      | some x =>
        rw [hc] at h
        simp only [Option.map_some, Option.some.injEq, Except.ok.injEq] at h
        rw [h] at hc
        exact ⟨_, condemn_spec p _ _ _ _ hc⟩

theorem filterMap_made_deletes (is : List Nat) (b : Bool) :
    (is.map (fun i => Step.deleteReplacement i b)).filterMap Step.made = [] := by
  induction is with
  | nil => rfl
  | cons i is ih => simp [Step.made]

theorem Outcome.made {p : Prev} {o : Opts} {st : St} {g : Reg} {urn parent : String} {old : Option (Nat × State)}
    {l : List Step} {st' : St} (h : Outcome p o st g urn parent old l st') :
    l.filterMap Step.made = [urn] ∧ st'.seen.urns = st.seen.urns := by
  cases h with
  | importFresh _ _ _ _ c => exact ⟨rfl, by rw [c.seen]⟩
  | importOver _ i s _ _ _ _ _ c => exact ⟨rfl, by rw [c.seen]⟩
  | recreate _ i s _ _ _ _ c => exact ⟨rfl, by rw [c.seen]⟩
  | external _ i s _ _ _ _ _ c => exact ⟨rfl, by rw [c.seen]⟩
  | same _ i s _ _ _ _ _ c => exact ⟨rfl, by rw [c.seen]⟩
  | update _ i s _ _ _ _ _ _ c => exact ⟨rfl, by rw [c.seen]⟩
  | before _ s₁ s₂ i s l _ _ _ _ _ _ c1 hc _ c =>
    obtain ⟨_, cond, hq⟩ := condemnDependents_shape p o s₁ i l s₂ hc
    have h2 := condemnDependents_superseded p o s₁ i l s₂ hc
    refine ⟨?_, by rw [c.seen, h2.2.1, c1.seen]⟩
    rw [hq.steps, List.filterMap_append, filterMap_made_deletes]
    rfl
  | after _ i s _ _ _ _ _ _ _ c => exact ⟨rfl, by rw [c.seen]⟩
  | skip _ _ _ _ _ c => exact ⟨rfl, by rw [c.seen]⟩
  | create _ _ _ _ _ c => exact ⟨rfl, by rw [c.seen]⟩

theorem lookedUp_urns (p : Prev) (st : St) (g : Reg) (urn : String) : (lookedUp p st g urn).seen.urns = st.seen.urns := by
  unfold lookedUp noteAlias
  split
  · rfl
  · split <;> rfl

/-- The URN of the resource an event is about, its parent being what `checkParent` makes of it. -/
def eventUrn (o : Opts) (st : St) : Ev → Option String
  | .register g => match checkParent o st g.parent g.type with | .ok parent => some (o.urnOf parent g.type g.name) | .error _ => none
  | .read r => match checkParent o st r.parent r.type with | .ok parent => some (o.urnOf parent r.type r.name) | .error _ => none

/-- C156: the steps a registration or a read is answered with make exactly one new state. It is that of the resource's URN, and
that URN was not the program's before. -/
theorem each_event_makes_one_resource (p : Prev) (o : Opts) (st : St) (e : Ev) (l : List Step) (st' : St)
    (h : handle p o st e = .steps l st') :
    ∃ urn, eventUrn o st e = some urn ∧ l.filterMap Step.made = [urn] ∧ urn ∉ st.seen.urns ∧
      st'.seen.urns = urn :: st.seen.urns := by
  cases e with
  | register g =>
    obtain ⟨urn, parent, h1, h2, h3, h4, _⟩ := register_outcome p o st g l st' h
    refine ⟨urn, ?_, h4.made.1, h3, ?_⟩
    · simp only [eventUrn, h1, h2]
    · rw [h4.made.2, lookedUp_urns]; rfl
  | read r =>
    obtain ⟨urn, parent, h1, h2, h3, h4⟩ := read_outcome p o st r l st' h
    refine ⟨urn, ?_, ?_, h3, ?_⟩
    · simp only [eventUrn, h1, h2]
    · cases h4 <;> rfl
    · cases h4 <;> rfl

/-- C156: an event for a URN the program has registered or read already ends the update. -/
theorem a_second_registration_is_refused (p : Prev) (o : Opts) (st : St) (e : Ev) (urn : String)
    (h : eventUrn o st e = some urn) (hu : urn ∈ st.seen.urns) : handle p o st e = .bail := by
  cases e with
  | register g =>
    simp only [eventUrn] at h
    unfold handle generateStepsChecked generateSteps generateURN
    cases hc : checkParent o st g.parent g.type with
    | error e => rw [hc] at h; cases h
    | ok parent =>
      rw [hc] at h
      injection h with h
      simp only [hc, h, if_pos hu]
  | read r =>
    simp only [eventUrn] at h
    unfold handle generateReadSteps generateURN
    cases hc : checkParent o st r.parent r.type with
    | error e => rw [hc] at h; cases h
    | ok parent =>
      rw [hc] at h
      injection h with h
      simp only [hc, h, if_pos hu]

theorem handleAll_cons {p : Prev} {o : Opts} {st : St} {e : Ev} {es : List Ev} {l : List Step} {st' : St}
    (h : handleAll p o st (e :: es) = .steps l st') :
    ∃ l₁ st₁ l₂, handle p o st e = .steps l₁ st₁ ∧ handleAll p o st₁ es = .steps l₂ st' ∧ l = l₁ ++ l₂ := by
  simp only [handleAll] at h
  cases hh : handle p o st e with
  | error e => rw [hh] at h; cases h
  | bail => rw [hh] at h; cases h
  | crash => rw [hh] at h; cases h
  | steps l₁ st₁ =>
    rw [hh] at h
    simp only at h
    cases ha : handleAll p o st₁ es with
    | error e => rw [ha] at h; cases h
    | bail => rw [ha] at h; cases h
    | crash => rw [ha] at h; cases h
    | steps l₂ st₂ =>
      rw [ha] at h
      injection h with h1 h2
      subst h1; subst h2
      exact ⟨_, _, _, rfl, ha, rfl⟩

theorem handleAll_made (p : Prev) (o : Opts) : ∀ (es : List Ev) (st : St) (l : List Step) (st' : St),
    handleAll p o st es = .steps l st' →
    (l.filterMap Step.made).length = es.length ∧ (l.filterMap Step.made).Nodup ∧ (∀ u ∈ l.filterMap Step.made, u ∉ st.seen.urns) ∧
      st'.seen.urns = (l.filterMap Step.made).reverse ++ st.seen.urns := by
  intro es
  induction es with
  | nil =>
    intro st l st' h
    simp only [handleAll] at h
    injection h with h1 h2
    subst h1; subst h2
    simp
  | cons e es ih =>
    intro st l st' h
    obtain ⟨l₁, st₁, l₂, h1, h2, h3⟩ := handleAll_cons h
    obtain ⟨urn, _, a, b, c⟩ := each_event_makes_one_resource p o st e l₁ st₁ h1
    obtain ⟨i1, i2, i3, i4⟩ := ih st₁ l₂ st' h2
    rw [h3, List.filterMap_append, a]
    refine ⟨by simp [i1], ?_, ?_, ?_⟩
    · simp only [List.cons_append, List.nil_append, List.nodup_cons]
      refine ⟨fun hm => ?_, i2⟩
      have := i3 urn hm
      rw [c] at this
      exact this List.mem_cons_self
    · intro u hu
      rcases List.mem_append.mp hu with hu | hu
      · rw [List.mem_singleton] at hu; rw [hu]; exact b
      · have := i3 u hu
        rw [c] at this
        exact fun hm => this (List.mem_cons_of_mem _ hm)
    · rw [i4, c]; simp

theorem made_ofDeletion (ds : List Deletion) : (ds.map Step.ofDeletion).filterMap Step.made = [] := by
  rw [List.filterMap_map, List.filterMap_eq_nil_iff]
  intro d _
  cases d <;> rfl

theorem made_retire (l : List Nat) : (l.map Step.delete).filterMap Step.made = [] := by
  rw [List.filterMap_map, List.filterMap_eq_nil_iff]
  intro d _
  rfl

/-- C156: an update that succeeds makes as many new states as the program has registrations and reads, and no two of them have
the same URN. -/
theorem an_update_makes_every_resource_once (p : Prev) (o : Opts) (es : List Ev) (l : List Step) (h : update p o es = some l) :
    (l.filterMap Step.made).length = es.length ∧ (l.filterMap Step.made).Nodup := by
  obtain ⟨l₀, st, hh, hl⟩ := update_some p o es l h
  have := handleAll_made p o es _ _ _ hh
  rw [hl, List.filterMap_append, List.filterMap_append, made_retire, made_ofDeletion]
  simpa using ⟨this.1, this.2.1⟩

/-- The steps of the example: `a` is replaced, `b` which depends on it is deleted first and made again, `c` is updated, `d` is new
and `gone` is not in the program any more. -/
theorem shop_update : update (prevOf [res "a", res "b" ["a"], res "c", res "gone"]) plainOpts
    [.register (reg "a" (answer .some true true)), .register (reg "b"), .register (reg "c" (answer .some false false)),
     .register (reg "d"), .read { type := "t", name := "e", parent := "", id := "7" }] =
    some [.deleteReplacement 1 true, .deleteReplacement 0 true, .replace 0 "a" false, .createReplacement 0 "a" false,
      .replace 1 "b" false, .createReplacement 1 "b" false, .update 2 "c", .create "d", .read none "e", .delete 3] := by
  decide +kernel

example := an_update_makes_every_resource_once _ _ _ _ shop_update
example : eventUrn plainOpts { initial (prevOf []) none with seen := { (initial (prevOf []) none).seen with urns := ["a"] } }
    (.register (reg "a")) = some "a" := by decide +kernel

/-! ## The fate of the resources of the checkpoint -/

/-- C157: in an update that succeeds, of a program without aliases that reads nothing it deleted, every resource of the checkpoint
meets one fate: either a step keeps it, exactly one, and none deletes it, or exactly one step deletes it, and none keeps it. What an
earlier update left to be deleted is deleted by exactly one step.

What is missing (`_partial`): with aliases it is false, see `aliases_can_delete_twice` and `aliases_can_keep_what_is_deleted`; so it is
with a read after a deletion, see `reading_what_was_deleted_deletes_twice`; and nothing is said of a state that an earlier update
marked as awaiting replacement, which the update may keep or forget, but does not delete. -/
theorem every_resource_has_one_fate_partial (p : Prev) (hp : Parsed p.rs) (hdi : Distinct p) (o : Opts) (es : List Ev)
    (l : List Step) (hna : NoAliases es) (h : update p o es = some l) (hr : NoneReadAfterDeletion l) (i : Nat) (s : State)
    (hs : p.rs[i]? = some s) (hpr : s.pendingReplacement = false) :
    (s.delete = false ∧ keepsOf i l = 1 ∧ dropsOf i l = 0) ∨ (keepsOf i l = 0 ∧ dropsOf i l = 1) := by
  have hf := fate p hp hdi o es l hna h hr i s hs
  cases hd : s.delete with
  | true => exact .inr (hf.1 hd)
  | false =>
    rcases hf.2 hd with h | h | h
    · exact .inl ⟨rfl, h⟩
    · exact .inr h
    · rw [hpr] at h; cases h.1

/-- Every step that keeps a resource or makes another in its place is one of its own URN. -/
theorem Outcome.succeeds {p : Prev} {o : Opts} {st : St} {g : Reg} {urn parent : String} {old : Option (Nat × State)}
    {l : List Step} {st' : St} (h : Outcome p o st g urn parent old l st') (x : Step) (hx : x ∈ l) (i : Nat)
    (hi : x.succeeds i = true) : ∃ s, old = some (i, s) ∧ x.made = some urn := by
  cases h with
  | importFresh _ _ _ _ c => simp at hx; subst hx; cases hi
  | importOver _ j s _ ho _ _ _ c =>
    simp at hx; rcases hx with rfl | rfl
    · simp [Step.succeeds] at hi; subst hi; exact ⟨s, ho, rfl⟩
    · cases hi
  | recreate _ j s _ ho _ _ c =>
    simp at hx; rcases hx with rfl | rfl
    · cases hi
    · simp [Step.succeeds] at hi; subst hi; exact ⟨s, ho, rfl⟩
  | external _ j s _ ho _ _ _ c =>
    simp at hx; rcases hx with rfl | rfl
    · simp [Step.succeeds] at hi; subst hi; exact ⟨s, ho, rfl⟩
    · cases hi
  | same _ j s _ ho _ _ _ c => simp at hx; subst hx; simp [Step.succeeds] at hi; subst hi; exact ⟨s, ho, rfl⟩
  | update _ j s _ ho _ _ _ _ c => simp at hx; subst hx; simp [Step.succeeds] at hi; subst hi; exact ⟨s, ho, rfl⟩
  | before _ s₁ s₂ j s l _ ho _ _ _ _ c1 hc _ c =>
    obtain ⟨_, cond, hq⟩ := condemnDependents_shape p o s₁ j l s₂ hc
    rw [hq.steps] at hx
    simp at hx
    rcases hx with ⟨k, _, rfl⟩ | rfl | rfl | rfl
    · cases hi
    · cases hi
    · cases hi
    · simp [Step.succeeds] at hi; subst hi; exact ⟨s, ho, rfl⟩
  | after _ j s _ ho _ _ _ _ _ c =>
    simp at hx; rcases hx with rfl | rfl
    · simp [Step.succeeds] at hi; subst hi; exact ⟨s, ho, rfl⟩
    · cases hi
  | skip _ _ _ _ _ c => simp at hx; subst hx; cases hi
  | create _ _ _ _ _ c => simp at hx; subst hx; cases hi

theorem ReadOutcome.succeeds {p : Prev} {st : St} {r : Rd} {urn : String} {l : List Step} {st' : St}
    (h : ReadOutcome p st r urn l st') (x : Step) (hx : x ∈ l) (i : Nat) (hi : x.succeeds i = true) :
    oldOf p.rs urn = some i ∧ x.made = some urn := by
  cases h with
  | over j s ho =>
    simp at hx; rcases hx with rfl | rfl
    · simp [Step.succeeds] at hi; subst hi; exact ⟨ho, rfl⟩
    · cases hi
  | known j s ho => simp at hx; subst hx; simp [Step.succeeds] at hi; subst hi; exact ⟨ho, rfl⟩
  | fresh ho => simp at hx; subst hx; cases hi

theorem handle_succeeds (p : Prev) (o : Opts) (st : St) (e : Ev) (l : List Step) (st' : St) (hna : NoAliases [e])
    (h : handle p o st e = .steps l st') (x : Step) (hx : x ∈ l) (i : Nat) (hi : x.succeeds i = true) :
    ∃ s, p.rs[i]? = some s ∧ s.delete = false ∧ x.made = some s.urn := by
  cases e with
  | register g =>
    obtain ⟨urn, parent, h1, h2, h3, h4, _⟩ := register_outcome p o st g l st' h
    have hg : g.aliases = [] := hna g List.mem_cons_self
    obtain ⟨s, ho, hm⟩ := h4.succeeds x hx i hi
    rw [hg] at ho
    obtain ⟨ho, hs⟩ := (oldFor_direct_some p urn i s).mp ho
    obtain ⟨t, ht, hd, hu⟩ := oldOf_some p.rs urn i ho
    exact ⟨t, ht, hd, by rw [hm, hu]⟩
  | read r =>
    obtain ⟨urn, parent, h1, h2, h3, h4⟩ := read_outcome p o st r l st' h
    obtain ⟨ho, hm⟩ := h4.succeeds x hx i hi
    obtain ⟨t, ht, hd, hu⟩ := oldOf_some p.rs urn i ho
    exact ⟨t, ht, hd, by rw [hm, hu]⟩

theorem handleAll_each {P : Step → Prop} {Q : Ev → Prop} (p : Prev) (o : Opts)
    (hP : ∀ st e l st', Q e → handle p o st e = .steps l st' → ∀ x ∈ l, P x) :
    ∀ (es : List Ev) (st : St) (l : List Step) (st' : St), (∀ e ∈ es, Q e) → handleAll p o st es = .steps l st' → ∀ x ∈ l, P x := by
  intro es
  induction es with
  | nil =>
    intro st l st' _ h x hx
    simp only [handleAll] at h
    injection h with h1 h2
    subst h1
    cases hx
  | cons e es ih =>
    intro st l st' hQ h x hx
    obtain ⟨l₁, st₁, l₂, h1, h2, h3⟩ := handleAll_cons h
    rw [h3] at hx
    rcases List.mem_append.mp hx with hx | hx
    · exact hP st e l₁ st₁ (hQ e List.mem_cons_self) h1 x hx
    · exact ih st₁ l₂ st' (fun e he => hQ e (List.mem_cons_of_mem _ he)) h2 x hx

theorem succeeds_is_an_event's {p : Prev} {o : Opts} {es : List Ev} {l : List Step} (h : update p o es = some l) :
    ∃ l₀ st, handleAll p o (initial p none) es = .steps l₀ st ∧ ∀ x ∈ l, ∀ i, x.succeeds i = true → x ∈ l₀ := by
  obtain ⟨l₀, st, hh, hl⟩ := update_some p o es l h
  refine ⟨l₀, st, hh, fun x hx i hi => ?_⟩
  rw [hl] at hx
  rcases List.mem_append.mp hx with hx | hx
  · rcases List.mem_append.mp hx with hx | hx
    · obtain ⟨j, _, rfl⟩ := List.mem_map.mp hx; cases hi
    · exact hx
  · obtain ⟨d, _, rfl⟩ := List.mem_map.mp hx; cases d <;> cases hi

theorem noAliases_each {es : List Ev} (h : NoAliases es) : ∀ e ∈ es, NoAliases [e] := by
  intro e he g hg
  rw [List.mem_singleton] at hg
  rw [← hg] at he
  exact h g he

/-- C157: without aliases, a resource of the checkpoint is kept, or replaced, only by the registration or read of its own URN. -/
theorem resources_keep_their_urn (p : Prev) (o : Opts) (es : List Ev) (l : List Step) (hna : NoAliases es)
    (h : update p o es = some l) (x : Step) (hx : x ∈ l) (i : Nat) (hi : x.succeeds i = true) :
    ∃ s, p.rs[i]? = some s ∧ s.delete = false ∧ x.made = some s.urn := by
  obtain ⟨l₀, st, hh, hsub⟩ := succeeds_is_an_event's h
  exact handleAll_each (P := fun x => ∀ i, x.succeeds i = true → ∃ s, p.rs[i]? = some s ∧ s.delete = false ∧ x.made = some s.urn)
    (Q := fun e => NoAliases [e]) p o (fun st e l st' hQ hh x hx i hi => handle_succeeds p o st e l st' hQ hh x hx i hi)
    es _ l₀ st (noAliases_each hna) hh x (hsub x hx i hi) i hi

theorem keeps_succeeds {x : Step} {i : Nat} (h : x.keeps i = true) : x.succeeds i = true := by
  cases x with
  | read old u => cases old <;> exact h
  | _ => first | exact h | cases h

/-- C157: a resource of the checkpoint that the program has no more is deleted, by exactly one step, in an update that succeeds. -/
theorem what_the_program_dropped_is_deleted (p : Prev) (hp : Parsed p.rs) (hdi : Distinct p) (o : Opts) (es : List Ev)
    (l : List Step) (hna : NoAliases es) (h : update p o es = some l) (hr : NoneReadAfterDeletion l) (i : Nat) (s : State)
    (hs : p.rs[i]? = some s) (hpr : s.pendingReplacement = false) (hu : s.urn ∉ l.filterMap Step.made) :
    dropsOf i l = 1 ∧ keepsOf i l = 0 := by
  rcases every_resource_has_one_fate_partial p hp hdi o es l hna h hr i s hs hpr with ⟨_, h1, _⟩ | ⟨h1, h2⟩
  · exfalso
    have : 0 < keepsOf i l := by omega
    unfold keepsOf at this
    rw [List.countP_pos_iff] at this
    obtain ⟨x, hx, hk⟩ := this
    obtain ⟨t, ht, _, hm⟩ := resources_keep_their_urn p o es l hna h x hx i (keeps_succeeds hk)
    rw [hs] at ht; cases ht
    exact hu (List.mem_filterMap.mpr ⟨x, hx, hm⟩)
  · exact ⟨h2, h1⟩

theorem distinct_of_nodup (p : Prev) (h : (p.rs.map (·.urn)).Nodup) : Distinct p := by
  intro i j s t hs ht _ _ hu
  have hi : i < (p.rs.map (·.urn)).length := by
    rcases Nat.lt_or_ge i p.rs.length with h | h
    · simpa using h
    · rw [List.getElem?_eq_none h] at hs; cases hs
  apply (List.getElem?_inj hi h).mp
  rw [List.getElem?_map, List.getElem?_map, hs, ht, Option.map_some, Option.map_some, hu]

theorem shop_parsed : ∀ s ∈ (prevOf [res "a", res "b" ["a"], res "c", res "gone"]).rs, ∀ m, s.provider ≠ .malformed m := by
  intro s hs m
  simp [prevOf, res] at hs
  rcases hs with rfl | rfl | rfl | rfl <;> simp

example := what_the_program_dropped_is_deleted _ shop_parsed (distinct_of_nodup _ (by decide +kernel)) _ _ _ (by
    intro g hg; simp at hg; rcases hg with rfl | rfl | rfl | rfl <;> rfl) shop_update (by
    intro i u h; simp) 3 _ rfl rfl (by decide +kernel)

/-- C157: without aliases, no two steps keep the same resource of the checkpoint or make another in its place. -/
theorem resources_are_succeeded_once (p : Prev) (o : Opts) (es : List Ev) (l : List Step) (hna : NoAliases es)
    (h : update p o es = some l) (i : Nat) : l.countP (Step.succeeds i) ≤ 1 := by
  have hk := resources_keep_their_urn p o es l hna h
  have hnd := (an_update_makes_every_resource_once p o es l h).2
  cases hs : p.rs[i]? with
  | none =>
    have : l.countP (Step.succeeds i) = 0 := by
      rw [List.countP_eq_zero]
      intro x hx hi
      obtain ⟨s, h1, _⟩ := hk x hx i hi
      rw [hs] at h1; cases h1
    omega
  | some s =>
    have hle : l.countP (Step.succeeds i) ≤ l.countP (fun x => decide (x.made = some s.urn)) := by
      apply List.countP_mono_left
      intro x hx hi
      obtain ⟨t, h1, _, h2⟩ := hk x hx i hi
      rw [hs] at h1; cases h1
      simpa using h2
    have hcount : l.countP (fun x => decide (x.made = some s.urn)) = (l.filterMap Step.made).count s.urn := by
      unfold List.count
      rw [List.countP_filterMap]
      apply List.countP_congr
      intro x _
      cases x.made <;> simp
    have := hnd.count (a := s.urn)
    rw [hcount, this] at hle
    split at hle <;> omega

example := resources_are_succeeded_once _ _ _ _ (by
    intro g hg; simp at hg; rcases hg with rfl | rfl | rfl | rfl <;> rfl) shop_update 0

/-- C157: a resource that was deleted ahead of the replacement of another is either made again by the program or forgotten. -/
theorem what_was_deleted_ahead_is_made_again_or_forgotten (p : Prev) (hp : Parsed p.rs) (hdi : Distinct p) (o : Opts)
    (es : List Ev) (l : List Step) (hna : NoAliases es) (h : update p o es = some l) (hr : NoneReadAfterDeletion l) (i : Nat)
    (s : State) (hs : p.rs[i]? = some s) (hd : Step.deleteReplacement i true ∈ l) :
    s.urn ∈ l.filterMap Step.made ∨ Step.removePending i ∈ l := by
  obtain ⟨l₀, st, hh, hl⟩ := update_some p o es l h
  have hinv : Inv p l₀ st := by
    have := handleAll_inv p hp hdi o es [] (initial p none) l₀ st (inv_initial p none) hna hh (by
      intro j u hj
      have := hr j u (handleAll_sublist hl (by simpa using hj))
      exact ⟨fun hm => this.1 (handleAll_sublist hl (by simpa using hm)),
        fun hm => this.2 (handleAll_sublist hl (by simpa using hm))⟩)
    simpa using this
  have hmade := handleAll_made p o es _ _ _ hh
  have hd0 : Step.deleteReplacement i true ∈ l₀ := by
    rw [hl] at hd
    rcases List.mem_append.mp hd with hd | hd
    · rcases List.mem_append.mp hd with hd | hd
      · obtain ⟨j, _, hj⟩ := List.mem_map.mp hd; cases hj
      · exact hd
    · obtain ⟨d, _, hj⟩ := List.mem_map.mp hd; cases d <;> simp [Step.ofDeletion] at hj
  have ha : i ∈ st.awaiting := by
    have h1 := hinv.drops i
    have h2 : 0 < dropsOf i l₀ := List.countP_pos_iff.mpr ⟨_, hd0, by simp [Step.drops]⟩
    by_cases hx : i ∈ st.awaiting
    · exact hx
    · rw [if_neg hx] at h1; omega
  by_cases hu : s.urn ∈ st.seen.urns
  · left
    rw [hmade.2.2.2] at hu
    rw [hl, List.filterMap_append, List.filterMap_append]
    simp [initial] at hu
    simp
    exact .inr (.inl hu)
  · right
    have hsu : i ∉ st.superseded := fun hx => (hinv.su i hx).1 ha
    obtain ⟨t, ht, htd, _⟩ := hinv.aw i ha
    rw [hs] at ht; cases ht
    have hsets : ¬ (s.urn ∈ st.seen.sames ∨ s.urn ∈ st.seen.updates ∨ s.urn ∈ st.seen.replaces ∨
        s.urn ∈ st.seen.reads ∨ s.urn ∈ st.seen.aliased) := by
      rintro (h | h | h | h | h)
      · exact hu (hinv.sets _ (.inl h))
      · exact hu (hinv.sets _ (.inr (.inl h)))
      · exact hu (hinv.sets _ (.inr (.inr (.inl h))))
      · exact hu (hinv.sets _ (.inr (.inr (.inr h))))
      · rw [hinv.aliased] at h; cases h
    rw [hl]
    refine List.mem_append.mpr (.inr (List.mem_map.mpr ⟨.removed i, ?_, rfl⟩))
    unfold deletions
    rw [List.mem_filterMap]
    have hi : i < (marked p st).length := by
      have : i < p.rs.length := by
        rcases Nat.lt_or_ge i p.rs.length with h | h
        · exact h
        · rw [List.getElem?_eq_none h] at hs; cases hs
      simpa [marked] using this
    refine ⟨i, by simpa using hi, ?_⟩
    rw [marked_get p st i s hs]
    simp only
    unfold deletionOf
    simp [htd, hsu, ha, hsets]

example : update (prevOf [res "a", res "b" ["a"]]) plainOpts [.register (reg "a" (answer .some true true))] =
    some [.deleteReplacement 1 true, .deleteReplacement 0 true, .replace 0 "a" false, .createReplacement 0 "a" false,
      .removePending 1] := by decide +kernel

end Pulumi.StepGen
