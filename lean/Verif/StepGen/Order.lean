import Verif.StepGen.Calm
/-!
# The order of the steps of a replacement
-/
namespace Pulumi.StepGen
open Pulumi.Snapshot (State Provider Ref)
open Pulumi.DepGraph (Seen oldOf Parsed Later dependentReplacements pendingDeletes deletions)

/-- The event a step belongs to, and the steps before. -/
theorem handleAll_split {p : Prev} {o : Opts} : ∀ (es : List Ev) (st : St) (l : List Step) (st' : St) (x : Step) (a b : List Step),
    handleAll p o st es = .steps l st' → l = a ++ x :: b →
    ∃ es₁ e es₂ a₁ st₁ a₂ b₂ l₂ st₂, es = es₁ ++ e :: es₂ ∧ handleAll p o st es₁ = .steps a₁ st₁ ∧ handle p o st₁ e = .steps l₂ st₂ ∧
      a = a₁ ++ a₂ ∧ l₂ = a₂ ++ x :: b₂ ∧ ∃ b₃, b = b₂ ++ b₃ := by
  intro es
  induction es with
  | nil =>
    intro st l st' x a b h hl
    simp only [handleAll] at h
    injection h with h1 h2
    subst h1
    cases a <;> cases hl
  | cons e es ih =>
    intro st l st' x a b h hl
    obtain ⟨l₁, st₁, l₂, h1, h2, h3⟩ := handleAll_cons h
    rw [h3] at hl
    rcases List.append_eq_append_iff.mp hl with ⟨c, hc1, hc2⟩ | ⟨c, hc1, hc2⟩
    · obtain ⟨es₁, e', es₂, a₁, s₁, a₂, b₂, m₂, s₂, e1, e2, e3, e4, e5, e6⟩ := ih st₁ l₂ st' x c b h2 hc2
      refine ⟨e :: es₁, e', es₂, l₁ ++ a₁, s₁, a₂, b₂, m₂, s₂, by rw [e1]; rfl, ?_, e3, ?_, e5, e6⟩
      · simp only [handleAll, h1, e2]
      · rw [hc1, e4, List.append_assoc]
    · cases c with
      | nil =>
        simp only [List.nil_append] at hc2
        obtain ⟨es₁, e', es₂, a₁, s₁, a₂, b₂, m₂, s₂, e1, e2, e3, e4, e5, e6⟩ := ih st₁ l₂ st' x [] b h2 (by rw [← hc2]; rfl)
        refine ⟨e :: es₁, e', es₂, l₁ ++ a₁, s₁, a₂, b₂, m₂, s₂, by rw [e1]; rfl, ?_, e3, ?_, e5, e6⟩
        · simp only [handleAll, h1, e2]
        · rw [List.append_nil] at hc1
          rw [← hc1, List.append_assoc, ← e4, List.append_nil]
      | cons y ys =>
        rw [List.cons_append] at hc2
        injection hc2 with hy hys
        subst hy
        exact ⟨[], e, es, [], st, a, ys, l₁, st₁, rfl, rfl, h1, rfl, hc1, _, hys⟩

/-- C162: a resource that is to be deleted before it is replaced goes after everything that is deleted with it, which depends on it
and goes in the reverse of the order of the checkpoint, and before the new one is created. -/
theorem dependents_go_first (p : Prev) (hp : Parsed p.rs) (o : Opts) (st : St) (g : Reg) (l : List Step) (st' : St)
    (h : handle p o st (.register g) = .steps l st') (i : Nat) (b : Bool) (hi : Step.deleteReplacement i b ∈ l) :
    ∃ (k : Nat) (u : String) (is : List Nat), l = is.map (fun j => Step.deleteReplacement j true) ++
        [.deleteReplacement k true, .replace k u false, .createReplacement k u false] ∧
      is.Pairwise (· > ·) ∧ ∀ j ∈ is, Later p.rs (fun u => decide (u ∈ st'.seen.urns)) false k j := by
  obtain ⟨urn, parent, h1, h2, h3, h4, _⟩ := register_outcome p o st g l st' h
  cases h4 with
  | before _ s₁ s₂ j t l _ ho _ _ _ _ c1 hc _ c =>
    have hs : p.rs[j]? = some t := by
      unfold oldFor at ho
      cases hf : findOld p (urn :: g.aliases) with
      | none => rw [hf] at ho; cases ho
      | some f =>
        rw [hf] at ho
        simp only [Option.bind_some] at ho
        cases hr : p.rs[f.2]? with
        | none => rw [hr] at ho; cases ho
        | some s =>
          rw [hr] at ho
          simp only [Option.map_some, Option.some.injEq, Prod.mk.injEq] at ho
          rw [← ho.1, hr, ho.2]
    obtain ⟨is, cond, hq, hpw, hlater⟩ := condemnDependents_spec p hp o s₁ j t hs l s₂ hc
    refine ⟨j, urn, cond, by rw [hq.steps], hpw.sublist hq.sub, fun k hk => ?_⟩
    have : st'.seen.urns = s₁.seen.urns := by
      rw [c.seen, (condemnDependents_superseded p o s₁ j l s₂ hc).2.1]
    rw [this]
    exact hlater k (hq.sub.subset hk)
  | _ => simp at hi

example : (handle (prevOf [res "a", res "b" ["a"], res "c" ["b"]]) plainOpts
    (initial (prevOf [res "a", res "b" ["a"], res "c" ["b"]]) none) (.register (reg "a" (answer .some true true)))).list =
    some [.deleteReplacement 2 true, .deleteReplacement 1 true, .deleteReplacement 0 true, .replace 0 "a" false,
      .createReplacement 0 "a" false] := by decide +kernel

/-- Where a new resource is created first, the old one is marked to be deleted. -/
theorem handle_supersedes {p : Prev} {o : Opts} {st st' : St} {e : Ev} {l : List Step} (h : handle p o st e = .steps l st') :
    (∀ i ∈ st.superseded, i ∈ st'.superseded) ∧ ∀ i u, Step.createReplacement i u true ∈ l → i ∈ st'.superseded := by
  cases e with
  | read r =>
    obtain ⟨urn, parent, h1, h2, h3, h4⟩ := read_outcome p o st r l st' h
    cases h4 with
    | over j t => exact ⟨fun i hi => List.mem_cons_of_mem _ hi, fun i u hu => by simp at hu⟩
    | known j t => exact ⟨fun i hi => hi, fun i u hu => by simp at hu⟩
    | fresh => exact ⟨fun i hi => hi, fun i u hu => by simp at hu⟩
  | register g =>
    obtain ⟨urn, parent, h1, h2, h3, h4, _⟩ := register_outcome p o st g l st' h
    have hl : (lookedUp p (withUrn st urn) g urn).superseded = st.superseded := by
      unfold lookedUp noteAlias
      split
      · rfl
      · split <;> rfl
    cases h4 with
    | importFresh _ _ _ _ c => exact ⟨by rw [c.superseded, hl]; exact fun _ h => h, fun i u hu => by simp at hu⟩
    | importOver _ j t _ ho _ _ _ c =>
      exact ⟨by rw [c.superseded, hl]; exact fun _ h => List.mem_cons_of_mem _ h, fun i u hu => by simp at hu⟩
    | recreate _ j t _ _ _ _ c => exact ⟨by rw [c.superseded, hl]; exact fun _ h => h, fun i u hu => by simp at hu⟩
    | external _ j t _ ho _ _ _ c =>
      refine ⟨by rw [c.superseded, hl]; exact fun _ h => List.mem_cons_of_mem _ h, fun i u hu => ?_⟩
      simp at hu
      rw [c.superseded, hu.1]; exact List.mem_cons_self
    | same _ j t _ _ _ _ _ c => exact ⟨by rw [c.superseded, hl]; exact fun _ h => h, fun i u hu => by simp at hu⟩
    | update _ j t _ _ _ _ _ _ c => exact ⟨by rw [c.superseded, hl]; exact fun _ h => h, fun i u hu => by simp at hu⟩
    | before _ s₁ s₂ j t l _ ho _ _ _ _ c1 hcd _ c =>
      obtain ⟨_, cond, hq⟩ := condemnDependents_shape p o s₁ j l s₂ hcd
      refine ⟨?_, fun i u hu => ?_⟩
      · rw [c.superseded, (condemnDependents_superseded p o s₁ j l s₂ hcd).1, c1.superseded, hl]; exact fun _ h => h
      · rw [hq.steps] at hu
        simp at hu
    | after _ j t _ ho _ _ _ _ _ c =>
      refine ⟨by rw [c.superseded, hl]; exact fun _ h => List.mem_cons_of_mem _ h, fun i u hu => ?_⟩
      simp at hu
      rw [c.superseded, hu.1]; exact List.mem_cons_self
    | skip _ _ _ _ _ c => exact ⟨by rw [c.superseded, hl]; exact fun _ h => h, fun i u hu => by simp at hu⟩
    | create _ _ _ _ _ c => exact ⟨by rw [c.superseded, hl]; exact fun _ h => h, fun i u hu => by simp at hu⟩

theorem handleAll_supersedes {p : Prev} {o : Opts} : ∀ (es : List Ev) (st : St) (l : List Step) (st' : St),
    handleAll p o st es = .steps l st' →
    (∀ i ∈ st.superseded, i ∈ st'.superseded) ∧ ∀ i u, Step.createReplacement i u true ∈ l → i ∈ st'.superseded := by
  intro es
  induction es with
  | nil =>
    intro st l st' h
    simp only [handleAll] at h
    injection h with h1 h2
    subst h1; subst h2
    exact ⟨fun _ h => h, fun i u hu => by cases hu⟩
  | cons e es ih =>
    intro st l st' h
    obtain ⟨l₁, st₁, l₂, h1, h2, h3⟩ := handleAll_cons h
    obtain ⟨a, b⟩ := handle_supersedes h1
    obtain ⟨c, d⟩ := ih st₁ l₂ st' h2
    refine ⟨fun i hi => c i (a i hi), fun i u hu => ?_⟩
    rw [h3] at hu
    rcases List.mem_append.mp hu with hu | hu
    · exact c i (b i u hu)
    · exact d i u hu

theorem dropsOf_cons (i : Nat) (x : Step) (l : List Step) : dropsOf i (x :: l) = dropsOf i l + if x.drops i then 1 else 0 := by
  unfold dropsOf; rw [List.countP_cons]

/-- C162: where the new resource is created before the old one is deleted, no step before deletes the old one, and one after it does. -/
theorem created_before_deleted (p : Prev) (hp : Parsed p.rs) (hdi : Distinct p) (o : Opts) (es : List Ev)
    (l : List Step) (hna : NoAliases es) (h : update p o es = some l) (hr : NoneReadAfterDeletion l) (i : Nat) (u : String)
    (a b : List Step) (hl : l = a ++ .createReplacement i u true :: b) : dropsOf i a = 0 ∧ dropsOf i b = 1 := by
  obtain ⟨l₀, st, hh, hl'⟩ := update_some p o es l h
  have hinv : Inv p l₀ st := by
    have := handleAll_inv p hp hdi o es [] (initial p none) l₀ st (inv_initial p none) hna hh (by
      intro j u hj
      have := hr j u (handleAll_sublist hl' (by simpa using hj))
      exact ⟨fun hm => this.1 (handleAll_sublist hl' (by simpa using hm)),
        fun hm => this.2 (handleAll_sublist hl' (by simpa using hm))⟩)
    simpa using this
  have hx0 : Step.createReplacement i u true ∉ (pendingDeletes p.rs).map Step.delete := by
    intro hm; obtain ⟨j, _, hj⟩ := List.mem_map.mp hm; cases hj
  have hx2 : Step.createReplacement i u true ∉ (deletions st.seen (marked p st)).map Step.ofDeletion := by
    intro hm; obtain ⟨d, _, hj⟩ := List.mem_map.mp hm; cases d <;> cases hj
  have hmem : Step.createReplacement i u true ∈ l₀ := by
    have : Step.createReplacement i u true ∈ l := by rw [hl]; simp
    rw [hl'] at this
    rcases List.mem_append.mp this with h | h
    · rcases List.mem_append.mp h with h | h
      · exact absurd h hx0
      · exact h
    · exact absurd h hx2
  have hsu := (handleAll_supersedes es _ l₀ st hh).2 i u hmem
  obtain ⟨haw, hke, s, hs, hd, _⟩ := hinv.su i hsu
  have hd0 : dropsOf i ((pendingDeletes p.rs).map Step.delete ++ l₀) = 0 := by
    rw [dropsOf_append, dropsOf_retire _ _ _ hs, hinv.drops, hd, if_neg haw]; rfl
  have htotal : dropsOf i l = 1 := by
    rcases (fate p hp hdi o es l hna h hr i s hs).2 hd with h | h | h
    · exfalso
      rw [hl', dropsOf_append, hd0, dropsOf_deletions _ _ _ _ (marked_get p st i s hs)] at h
      have h2 := h.2
      rw [if_pos] at h2
      · omega
      · left
        have hpen : i ∉ st.seen.pendingDeletes := by
          rw [hinv.pending, mem_pendingDeletes]
          rintro ⟨t, ht, htd⟩
          rw [hs] at ht; cases ht
          rw [hd] at htd; cases htd
        unfold DepGraph.deletionOf
        simp [hsu, hpen]
    · exact h.2
    · exfalso
      rw [hl', dropsOf_append, hd0, dropsOf_deletions _ _ _ _ (marked_get p st i s hs)] at h
      have h2 := h.2.2
      rw [if_pos] at h2
      · omega
      · left
        have hpen : i ∉ st.seen.pendingDeletes := by
          rw [hinv.pending, mem_pendingDeletes]
          rintro ⟨t, ht, htd⟩
          rw [hs] at ht; cases ht
          rw [hd] at htd; cases htd
        unfold DepGraph.deletionOf
        simp [hsu, hpen]
  have ha : dropsOf i a = 0 := by
    have heq := hl.symm.trans hl'
    rcases List.append_eq_append_iff.mp heq with ⟨c, hc1, _⟩ | ⟨c, _, hc2⟩
    · rw [hc1, dropsOf_append] at hd0; omega
    · exact absurd (by rw [hc2]; simp) hx2
  refine ⟨ha, ?_⟩
  rw [hl, dropsOf_append, dropsOf_cons, ha] at htotal
  simpa [Step.drops] using htotal

/-- C162: where the old resource is deleted before the new one is created, exactly one step before deletes it, and none after. -/
theorem deleted_before_created (p : Prev) (hp : Parsed p.rs) (hdi : Distinct p) (o : Opts) (es : List Ev)
    (l : List Step) (hna : NoAliases es) (h : update p o es = some l) (hr : NoneReadAfterDeletion l) (i : Nat) (u : String)
    (a b : List Step) (hl : l = a ++ .createReplacement i u false :: b) : dropsOf i a = 1 ∧ dropsOf i b = 0 := by
  obtain ⟨l₀, st, hh, hl'⟩ := update_some p o es l h
  have hxl : Step.createReplacement i u false ∈ l := by rw [hl]; simp
  obtain ⟨s, hs, hd, hmade⟩ := resources_keep_their_urn p o es l hna h _ hxl i (by simp [Step.succeeds])
  have hle : dropsOf i l ≤ 1 := by
    rcases (fate p hp hdi o es l hna h hr i s hs).2 hd with h | h | h <;> omega
  have hx0 : Step.createReplacement i u false ∉ (pendingDeletes p.rs).map Step.delete := by
    intro hm; obtain ⟨j, _, hj⟩ := List.mem_map.mp hm; cases hj
  have hx2 : Step.createReplacement i u false ∉ (deletions st.seen (marked p st)).map Step.ofDeletion := by
    intro hm; obtain ⟨d, _, hj⟩ := List.mem_map.mp hm; cases d <;> cases hj
  have hsplit : ∃ a₀ b₀, l₀ = a₀ ++ .createReplacement i u false :: b₀ ∧ ∀ x ∈ a₀, x ∈ a := by
    have heq := hl.symm.trans hl'
    rcases List.append_eq_append_iff.mp heq with ⟨c, hc1, hc2⟩ | ⟨c, _, hc2⟩
    · cases c with
      | nil =>
        simp only [List.nil_append] at hc2
        exact absurd (by rw [← hc2]; simp) hx2
      | cons y ys =>
        rw [List.cons_append] at hc2
        injection hc2 with hy _
        subst hy
        rcases List.append_eq_append_iff.mp hc1 with ⟨d, hd1, hd2⟩ | ⟨d, hd1, hd2⟩
        · exact ⟨d, ys, hd2, fun x hx => by rw [hd1]; simp [hx]⟩
        · cases d with
          | nil => exact ⟨[], ys, by simpa using hd2.symm, fun x hx => by cases hx⟩
          | cons z zs =>
            rw [List.cons_append] at hd2
            injection hd2 with hz _
            subst hz
            exact absurd (by rw [hd1]; simp) hx0
    · exact absurd (by rw [hc2]; simp) hx2
  have hge : 1 ≤ dropsOf i a := by
    obtain ⟨a₀, b₀, hl₀, hsub⟩ := hsplit
    suffices hm : ∃ b, Step.deleteReplacement i b ∈ a₀ by
      obtain ⟨b, hm⟩ := hm
      exact List.countP_pos_iff.mpr ⟨_, hsub _ hm, by simp [Step.drops]⟩
    obtain ⟨es₁, e, es₂, a₁, st₁, a₂, b₂, l₂, st₂, e1, e2, e3, e4, e5, _⟩ := handleAll_split es _ l₀ st _ a₀ b₀ hh hl₀
    have hinv : Inv p a₁ st₁ := by
      have := handleAll_inv p hp hdi o es₁ [] (initial p none) a₁ st₁ (inv_initial p none)
        (fun g hg => hna g (by rw [e1]; simp [hg])) e2 (by
          have hin : ∀ {x : Step}, x ∈ a₁ → x ∈ l := by
            intro x hx
            refine handleAll_sublist hl' ?_
            rw [hl₀, e4]; simp [hx]
          intro j v hj
          have := hr j v (hin (by simpa using hj))
          exact ⟨fun hm => this.1 (hin (by simpa using hm)), fun hm => this.2 (hin (by simpa using hm))⟩)
      simpa using this
    rw [e4]
    have hx : Step.createReplacement i u false ∈ l₂ := by rw [e5]; simp
    cases e with
    | read r =>
      obtain ⟨urn, parent, h1, h2, h3, h4⟩ := read_outcome p o st₁ r l₂ st₂ e3
      cases h4 <;> simp at hx
    | register g =>
      obtain ⟨urn, parent, h1, h2, h3, h4, _⟩ := register_outcome p o st₁ g l₂ st₂ e3
      have hg : g.aliases = [] := hna g (by rw [e1]; simp)
      rw [lookedUp_direct p _ g urn hg, hg] at h4
      cases h4 with
      | recreate _ j t hm ho _ _ c =>
        simp at hx
        obtain ⟨rfl, rfl⟩ := hx
        obtain ⟨ho, _⟩ := (oldFor_direct_some p u i t).mp ho
        obtain ⟨s', hs', hd', hu'⟩ := oldOf_some p.rs u i ho
        obtain ⟨k, hk, s'', hs'', hu''⟩ := hinv.de u hm
        obtain ⟨s₃, hs₃, hd₃, _⟩ := hinv.aw k hk
        rw [hs''] at hs₃; cases hs₃
        have hki : k = i := hdi k i _ _ hs'' hs' hd₃ hd' (by rw [hu'', hu'])
        subst hki
        have := hinv.drops k
        rw [if_pos hk] at this
        have hpos : 0 < dropsOf k a₁ := by omega
        obtain ⟨x, hxa, hxd⟩ := List.countP_pos_iff.mp hpos
        have := hinv.form x hxa k hxd
        subst this
        exact ⟨true, by simp [hxa]⟩
      | before _ s₁ s₂ j t l _ ho _ _ _ _ c1 hcd _ c =>
        obtain ⟨_, cond, hq⟩ := condemnDependents_shape p o s₁ j l s₂ hcd
        rw [hq.steps] at hx e5
        simp at hx
        obtain ⟨rfl, rfl⟩ := hx
        refine ⟨true, ?_⟩
        have e5' : (cond.map (fun i => Step.deleteReplacement i true) ++ [Step.deleteReplacement i true, .replace i u false]) ++
            [Step.createReplacement i u false] = a₂ ++ Step.createReplacement i u false :: b₂ := by
          rw [← e5]; simp
        rcases List.append_eq_append_iff.mp e5' with ⟨d, hd1, _⟩ | ⟨d, hd1, hd2⟩
        · rw [hd1]; simp
        · cases d with
          | nil => rw [List.append_nil] at hd1; rw [← hd1]; simp
          | cons z zs =>
            rw [List.cons_append] at hd2
            injection hd2 with hz _
            subst hz
            exfalso
            have : Step.createReplacement i u false ∈
                cond.map (fun i => Step.deleteReplacement i true) ++ [Step.deleteReplacement i true, .replace i u false] := by
              rw [hd1]; simp
            simp at this
      | _ => simp at hx
  rw [hl, dropsOf_append, dropsOf_cons] at hle
  simp only [Step.drops, Bool.false_eq_true, if_false] at hle
  omega

/-- `a` is replaced by deletion and creation, and `b` with it; `c` is created anew before it is deleted. -/
theorem orders_update : update (prevOf [res "a", res "b" ["a"], res "c"]) plainOpts
    [.register (reg "a" (answer .some true true)), .register (reg "b"), .register (reg "c" (answer .some true false))] =
    some [.deleteReplacement 1 true, .deleteReplacement 0 true, .replace 0 "a" false, .createReplacement 0 "a" false,
      .replace 1 "b" false, .createReplacement 1 "b" false, .createReplacement 2 "c" true, .replace 2 "c" true,
      .deleteReplacement 2 false] := by decide +kernel

theorem orders_parsed : Parsed (prevOf [res "a", res "b" ["a"], res "c"]).rs := by
  intro s hs m
  simp [prevOf, res] at hs
  rcases hs with rfl | rfl | rfl <;> simp

example := deleted_before_created _ orders_parsed (distinct_of_nodup _ (by decide +kernel)) _ _ _ (by
    intro g hg; simp at hg; rcases hg with rfl | rfl | rfl <;> rfl) orders_update (by intro i u h; simp) 1 "b"
    [.deleteReplacement 1 true, .deleteReplacement 0 true, .replace 0 "a" false, .createReplacement 0 "a" false,
      .replace 1 "b" false] _ rfl

example := created_before_deleted _ orders_parsed (distinct_of_nodup _ (by decide +kernel)) _ _ _ (by
    intro g hg; simp at hg; rcases hg with rfl | rfl | rfl <;> rfl) orders_update (by intro i u h; simp) 2 "c"
    [.deleteReplacement 1 true, .deleteReplacement 0 true, .replace 0 "a" false, .createReplacement 0 "a" false,
      .replace 1 "b" false, .createReplacement 1 "b" false] _ rfl

end Pulumi.StepGen
