import Verif.StepGen.Adopt
/-!
# Protected resources in an update
-/
namespace Pulumi.StepGen
open Pulumi.Snapshot (State Provider Ref)
open Pulumi.DepGraph (Seen oldOf Parsed Later deletions deletionOf pendingDeletes)

/-- The resource is protected, and whatever registers it protects it, and neither imports nor reads another in its place. -/
structure StaysProtected (o : Opts) (es : List Ev) (s : State) : Prop where
  now : s.protect = true
  own : s.external = false
  later : ∀ g parent, Ev.register g ∈ es → o.urnOf parent g.type g.name = s.urn → g.protect = true ∧ g.id = ""
  unread : ∀ r parent, Ev.read r ∈ es → o.urnOf parent r.type r.name ≠ s.urn

theorem handle_protects {p : Prev} (hp : Parsed p.rs) {o : Opts} {st st' : St} {e : Ev} {l : List Step} (hna : NoAliases [e])
    (i : Nat) (s : State) (hs : p.rs[i]? = some s) (hpro : StaysProtected o [e] s) (hsu : i ∉ st.superseded)
    (h : handle p o st e = .steps l st') :
    i ∉ st'.superseded ∧ ∀ b, Step.deleteReplacement i b ∈ l →
      ∃ j, Step.deleteReplacement j true ∈ l ∧ j ≠ i ∧ Later p.rs (fun _ => false) false j i := by
  have weaken : ∀ {ig : String → Bool} {j k : Nat}, Later p.rs ig false j k → Later p.rs (fun _ => false) false j k := by
    intro ig j k hl
    induction hl with
    | child _ _ _ _ hc _ => cases hc
    | direct h1 h2 _ h4 => exact .direct h1 h2 rfl h4
    | through _ h2 h3 _ h5 ih => exact .through ih h2 h3 rfl h5
  cases e with
  | read r =>
    obtain ⟨urn, parent, h1, h2, h3, h4⟩ := read_outcome p o st r l st' h
    cases h4 with
    | over j t ho ht =>
      refine ⟨fun hm => ?_, fun b hb => by simp at hb⟩
      rcases List.mem_cons.mp hm with hm | hm
      · subst hm
        obtain ⟨t', ht', _, hu⟩ := oldOf_some p.rs urn _ ho
        rw [hs] at ht'; cases ht'
        exact hpro.unread r parent List.mem_cons_self (by rw [← h2, hu])
      · exact hsu hm
    | known j t => exact ⟨hsu, fun b hb => by simp at hb⟩
    | fresh => exact ⟨hsu, fun b hb => by simp at hb⟩
  | register g =>
    obtain ⟨urn, parent, h1, h2, h3, h4, _⟩ := register_outcome p o st g l st' h
    have hg : g.aliases = [] := hna g List.mem_cons_self
    rw [lookedUp_direct p _ g urn hg, hg] at h4
    have hown : ∀ t, oldFor p urn [] = some (i, t) → t = s ∧ g.protect = true ∧ g.id = "" := by
      intro t ht
      obtain ⟨ho, ht⟩ := (oldFor_direct_some p urn i t).mp ht
      rw [hs] at ht; cases ht
      obtain ⟨t', ht', _, hu⟩ := oldOf_some p.rs urn _ ho
      rw [hs] at ht'; cases ht'
      exact ⟨rfl, hpro.later g parent List.mem_cons_self (by rw [← h2, hu])⟩
    have hnoimp : ∀ t, oldFor p urn [] = some (i, t) → isImport p g (oldFor p urn []) = true → False := by
      intro t ht hi
      have := (hown t ht).2.2
      unfold isImport at hi
      simp [this] at hi
    cases h4 with
    | importFresh _ _ _ _ c => exact ⟨by rw [c.superseded]; exact hsu, fun b hb => by simp at hb⟩
    | importOver _ j t himp ho _ _ _ c =>
      refine ⟨?_, fun b hb => by simp at hb⟩
      rw [c.superseded]
      intro hm
      rcases List.mem_cons.mp hm with hm | hm
      · subst hm; exact hnoimp t ho himp
      · exact hsu hm
    | recreate _ j t _ _ _ _ c => exact ⟨by rw [c.superseded]; exact hsu, fun b hb => by simp at hb⟩
    | external _ j t _ ho hx _ _ c =>
      refine ⟨?_, fun b hb => by simp at hb⟩
      rw [c.superseded]
      intro hm
      rcases List.mem_cons.mp hm with hm | hm
      · subst hm
        rw [(hown t ho).1, hpro.own] at hx
        cases hx
      · exact hsu hm
    | same _ j t _ _ _ _ _ c => exact ⟨by rw [c.superseded]; exact hsu, fun b hb => by simp at hb⟩
    | update _ j t _ _ _ _ _ _ c => exact ⟨by rw [c.superseded]; exact hsu, fun b hb => by simp at hb⟩
    | before _ s₁ s₂ j t l _ ho _ _ _ hpr c1 hc _ c =>
      have hji : j ≠ i := by
        rintro rfl
        have := hown t ho
        rw [this.1, this.2.1, hpro.now] at hpr
        cases hpr
      refine ⟨?_, fun b hb => ?_⟩
      · rw [c.superseded, (condemnDependents_superseded p o s₁ j l s₂ hc).1, c1.superseded]; exact hsu
      · obtain ⟨ho', ht⟩ := (oldFor_direct_some p urn j t).mp ho
        obtain ⟨is, cond, hq, _, hlater⟩ := condemnDependents_spec p hp o s₁ j t ht l s₂ hc
        refine ⟨j, by simp, hji, ?_⟩
        rw [hq.steps] at hb
        simp at hb
        rcases hb with ⟨k, hb, rfl, _⟩ | ⟨hb, _⟩
        · exact weaken (hlater k (hq.sub.subset hb))
        · exact absurd hb.symm hji
    | after _ j t _ ho _ _ _ hpr _ c =>
      refine ⟨?_, fun b hb => by simp at hb⟩
      rw [c.superseded]
      intro hm
      rcases List.mem_cons.mp hm with hm | hm
      · subst hm
        have := hown t ho
        rw [this.1, this.2.1, hpro.now] at hpr
        cases hpr
      · exact hsu hm
    | skip _ _ _ _ _ c => exact ⟨by rw [c.superseded]; exact hsu, fun b hb => by simp at hb⟩
    | create _ _ _ _ _ c => exact ⟨by rw [c.superseded]; exact hsu, fun b hb => by simp at hb⟩

theorem handleAll_protects {p : Prev} (hp : Parsed p.rs) {o : Opts} (i : Nat) (s : State) (hs : p.rs[i]? = some s) :
    ∀ (es : List Ev) (st : St) (l : List Step) (st' : St), NoAliases es → StaysProtected o es s → i ∉ st.superseded →
    handleAll p o st es = .steps l st' →
    i ∉ st'.superseded ∧ ∀ b, Step.deleteReplacement i b ∈ l →
      ∃ j, Step.deleteReplacement j true ∈ l ∧ j ≠ i ∧ Later p.rs (fun _ => false) false j i := by
  intro es
  induction es with
  | nil =>
    intro st l st' _ _ hsu h
    simp only [handleAll] at h
    injection h with h1 h2
    subst h1; subst h2
    exact ⟨hsu, fun b hb => by cases hb⟩
  | cons e es ih =>
    intro st l st' hna hpro hsu h
    obtain ⟨l₁, st₁, l₂, h1, h2, h3⟩ := handleAll_cons h
    obtain ⟨a, b⟩ := handle_protects hp (noAliases_each hna e List.mem_cons_self) i s hs
      ⟨hpro.now, hpro.own, fun g parent hg => hpro.later g parent (by rw [List.mem_singleton] at hg; rw [hg]; exact List.mem_cons_self),
       fun r parent hr => hpro.unread r parent (by rw [List.mem_singleton] at hr; rw [hr]; exact List.mem_cons_self)⟩ hsu h1
    obtain ⟨c, d⟩ := ih st₁ l₂ st' (fun g hg => hna g (List.mem_cons_of_mem _ hg))
      ⟨hpro.now, hpro.own, fun g parent hg => hpro.later g parent (List.mem_cons_of_mem _ hg),
       fun r parent hr => hpro.unread r parent (List.mem_cons_of_mem _ hr)⟩ a h2
    refine ⟨c, fun b' hb => ?_⟩
    rw [h3] at hb ⊢
    rcases List.mem_append.mp hb with hb | hb
    · obtain ⟨j, h1, h2⟩ := b b' hb
      exact ⟨j, List.mem_append.mpr (.inl h1), h2⟩
    · obtain ⟨j, h1, h2⟩ := d b' hb
      exact ⟨j, List.mem_append.mpr (.inr h1), h2⟩

/-- C159: a step of an update that deletes a protected resource, one the program still protects or does not register at all, is
refused when it is taken, unless the resource depends on another that is deleted ahead of its replacement.

What is missing (`_partial`): the exception is real, see `protected_dependents_are_deleted`; and so are those of imports and reads
in place of the resource, see `importing_deletes_protected_resources` and `reading_deletes_protected_resources`. -/
theorem protected_resources_are_not_deleted_partial (p : Prev) (hp : Parsed p.rs) (o : Opts) (es : List Ev) (l : List Step)
    (hna : NoAliases es) (h : update p o es = some l) (i : Nat) (s : State) (hs : p.rs[i]? = some s) (hd : s.delete = false)
    (hpro : StaysProtected o es s) (x : Step) (hx : x ∈ l) (hi : x.drops i = true) :
    refused p x = true ∨
      ∃ j, Step.deleteReplacement j true ∈ l ∧ j ≠ i ∧ Later p.rs (fun _ => false) false j i := by
  obtain ⟨l₀, st, hh, hl⟩ := update_some p o es l h
  obtain ⟨a, b⟩ := handleAll_protects hp i s hs es _ l₀ st hna hpro (by simp [initial]) hh
  have href : refused p (.delete i) = true := by
    simp [refused, hs, hpro.now]
  cases x with
  | delete j =>
    simp [Step.drops] at hi
    subst hi
    exact .inl href
  | deleteReplacement j b' =>
    simp [Step.drops] at hi
    subst hi
    right
    have hx0 : Step.deleteReplacement j b' ∈ l₀ := by
      rw [hl] at hx
      rcases List.mem_append.mp hx with hx | hx
      · rcases List.mem_append.mp hx with hx | hx
        · obtain ⟨k, _, hk⟩ := List.mem_map.mp hx; cases hk
        · exact hx
      · exfalso
        obtain ⟨d, hd', hk⟩ := List.mem_map.mp hx
        cases d with
        | gone k => cases hk
        | removed k => cases hk
        | replaced k =>
          simp only [Step.ofDeletion, Step.deleteReplacement.injEq] at hk
          obtain ⟨rfl, _⟩ := hk
          unfold deletions at hd'
          rw [List.mem_filterMap] at hd'
          obtain ⟨m, _, hm⟩ := hd'
          cases hmm : (marked p st)[m]? with
          | none => rw [hmm] at hm; cases hm
          | some t =>
            rw [hmm] at hm
            simp only at hm
            unfold deletionOf at hm
            split at hm
            · next htd =>
              split at hm
              · cases hm
              · simp only [Option.some.injEq, DepGraph.Deletion.replaced.injEq] at hm
                subst hm
                rw [marked_get p st m s hs] at hmm
                cases hmm
                simp [hd, a] at htd
            · split at hm
              · cases hm
              · split at hm <;> cases hm
    obtain ⟨j', h1, h2⟩ := b b' hx0
    refine ⟨j', ?_, h2⟩
    rw [hl]
    exact List.mem_append.mpr (.inl (List.mem_append.mpr (.inr h1)))
  | _ => cases hi

/-- A protected resource the program does not register any more -/
theorem protected_update : update (prevOf [res "a", { res "b" with protect := true }]) plainOpts [.register (reg "a")] =
    some [.same 0 "a", .delete 1] := by decide +kernel

example := protected_resources_are_not_deleted_partial _ (by
    intro s hs m; simp [prevOf, res] at hs; rcases hs with rfl | rfl <;> simp) _ _ _ (by
    intro g hg; simp at hg; subst hg; rfl) protected_update 1 _ rfl rfl ⟨rfl, rfl, by
    intro g parent hg hu; simp at hg; subst hg; simp [plainOpts, reg, res] at hu, by
    intro r parent hr; simp at hr⟩ (.delete 1) (by simp) rfl

/-- C159: the registration of a resource that is protected in the checkpoint and in the program never replaces it, unless it is
imported, was deleted ahead of another's replacement, or was read so far: it is kept as it is or updated, or the update fails. -/
theorem protected_resources_are_not_replaced (p : Prev) (o : Opts) (st : St) (g : Reg) (l : List Step) (st' : St) (i : Nat)
    (s : State) (urn parent : String) (hpa : checkParent o st g.parent g.type = .ok parent)
    (hurn : urn = o.urnOf parent g.type g.name) (hold : oldOf p.rs urn = some i) (hs : p.rs[i]? = some s)
    (hsp : s.protect = true) (hgp : g.protect = true) (hid : g.id = "") (hext : s.external = false) (hdel : urn ∉ st.deletes)
    (h : handle p o st (.register g) = .steps l st') : l = [.same i urn] ∨ l = [.update i urn] := by
  obtain ⟨urn', parent', h1, h2, h3, h4, _⟩ := register_outcome p o st g l st' h
  rw [hpa] at h1
  injection h1 with h1
  subst h1
  rw [← hurn] at h2
  subst h2
  have ho : oldFor p urn' g.aliases = some (i, s) := by
    unfold oldFor findOld
    rw [hold]
    simp [hs]
  have hd : (lookedUp p (withUrn st urn') g urn').deletes = st.deletes := by
    unfold lookedUp noteAlias
    split
    · rfl
    · split <;> rfl
  have himp : isImport p g (oldFor p urn' g.aliases) = false := by
    unfold isImport; simp [hid]
  cases h4 with
  | importFresh _ hi => rw [himp] at hi; cases hi
  | importOver _ _ _ hi => rw [himp] at hi; cases hi
  | recreate _ j t hm => rw [hd] at hm; exact absurd hm hdel
  | external _ j t _ ho' hx => rw [ho] at ho'; cases ho'; rw [hext] at hx; cases hx
  | same _ j t _ ho' => rw [ho] at ho'; cases ho'; exact .inl rfl
  | update _ j t _ ho' => rw [ho] at ho'; cases ho'; exact .inr rfl
  | before _ s₁ s₂ j t l _ ho' _ _ _ hpr => rw [ho] at ho'; cases ho'; rw [hgp, hsp] at hpr; cases hpr
  | after _ j t _ ho' _ _ _ hpr => rw [ho] at ho'; cases ho'; rw [hgp, hsp] at hpr; cases hpr
  | skip _ _ ho' => rw [ho] at ho'; cases ho'
  | create _ _ ho' => rw [ho] at ho'; cases ho'

example := protected_resources_are_not_replaced (prevOf [{ res "a" with protect := true }]) plainOpts
  (initial (prevOf [{ res "a" with protect := true }]) none) { reg "a" (answer .some false false) with protect := true } _ _ 0 _ "a" ""
  rfl rfl rfl rfl rfl rfl rfl rfl (by simp [initial]) rfl

/-- and a replacement ends the update -/
example : handle (prevOf [{ res "a" with protect := true }]) plainOpts (initial (prevOf [{ res "a" with protect := true }]) none)
    (.register { reg "a" (answer .some true false) with protect := true }) = Made.bail := by rfl

end Pulumi.StepGen
