import Verif.DepGraph.Protect
/-!
# Destroying what is not protected
-/
namespace Pulumi.DepGraph
open Pulumi.Snapshot (State Provider Ref Env Intact Backed Provides)

/-- The targets are the URNs of what is not spared. -/
theorem excludeProtected_spec {rs : List State} {fuel : Nat} {order : Nat → List String} {sp : List Nat}
    (h : spared rs fuel order = some sp) : ∃ targets, excludeProtected rs fuel order = some targets ∧
      ∀ u, u ∈ targets ↔ ∃ i s, rs[i]? = some s ∧ s.urn = u ∧ i ∉ sp := by
  unfold excludeProtected
  rw [h]
  refine ⟨_, rfl, fun u => ?_⟩
  simp only [List.mem_filterMap, List.mem_filter, List.mem_range, decide_eq_true_eq, Option.map_eq_some_iff]
  constructor
  · rintro ⟨i, ⟨_, hi⟩, s, hs, e⟩; exact ⟨i, s, hs, e, hi⟩
  · rintro ⟨i, s, hs, e, hi⟩; exact ⟨i, ⟨(List.getElem?_eq_some_iff.1 hs).1, hi⟩, s, hs, e⟩

/-- What is implicated in the deletion of resources that must not be kept is not kept either. -/
theorem implicated_not_kept {rs : List State} {targets : List String}
    (ht : ∀ i s, rs[i]? = some s → s.urn ∈ targets → ¬ Kept rs i) {k : Nat} (h : Implicated rs targets k) : ¬ Kept rs k := by
  induction h with
  | target hs hm => exact ht _ _ hs hm
  | child h1 h2 h3 _ ih =>
    rintro ⟨i, s, hs, hp, hr⟩
    exact ih ⟨i, s, hs, hp, requires_trans hr (.step h1 h2 (.inr h3.symm) (.refl h2))⟩
  | dependent h1 _ ih =>
    rintro ⟨i, s, hs, hp, hr⟩
    obtain ⟨a, b, h1, h2, h3⟩ := h1
    exact ih ⟨i, s, hs, hp, requires_trans hr (.step h1 h2 (.inl h3) (.refl h2))⟩

/-- Whatever order Go walks its map in, the resources spared by a destroy that excludes protected ones are protected or
required by a protected one; and every protected resource is spared, with the resources it stands on, their providers, and
the resources those stand on. -/
theorem exclude_protected_spares_partial (E : Env) (rs : List State) (h : Intact E rs) (hse : Settled rs) :
    ∃ N, ∀ fuel, N ≤ fuel → ∀ order : Nat → List String, (∀ i, WalksAll rs (order i)) →
      ∃ targets, excludeProtected rs fuel order = some targets ∧
        (∀ i s, rs[i]? = some s → s.urn ∉ targets → Kept rs i) ∧
        (∀ i s k t, rs[i]? = some s → s.protect = true → rs[k]? = some t →
          (StandsOn rs i k ∨ ∃ a p, StandsOn rs i a ∧ ProviderOf rs a p ∧ StandsOn rs p k) → t.urn ∉ targets) := by
  have ho := settled_once h hse
  obtain ⟨N, hN⟩ := spared_spec h hse
  refine ⟨N, fun fuel hf order hw => ?_⟩
  obtain ⟨sp, h1, h2, h3⟩ := hN fuel hf order hw
  obtain ⟨targets, h4, h5⟩ := excludeProtected_spec h1
  refine ⟨targets, h4, ?_, ?_⟩
  · intro i s hs hn
    refine h2 i (Decidable.byContradiction fun hi => hn ((h5 _).2 ⟨i, s, hs, rfl, hi⟩))
  · intro i s k t hs hp hk hor hm
    obtain ⟨k', t', hk', e, hn⟩ := (h5 _).1 hm
    have := once_inj ho hk' hk e
    subst this
    exact hn (h3 i s k' hs hp hor)

/-- Where providers need nothing themselves, there are no chains of them. -/
theorem no_chain_of_simple {rs : List State} (hn : ∀ s ∈ rs, s.urn ≠ "")
    (h : ∀ a p t, ProviderOf rs a p → rs[p]? = some t → t.deps = [] ∧ t.parent = "" ∧ t.provider = .none) (i : Nat) :
    NoProviderChain rs i := by
  intro a p b q _ hap hpb hbq
  obtain ⟨_, t, _, _, ht, _, _⟩ := id hap
  obtain ⟨h1, h2, h3⟩ := h a p t hap ht
  have : b = p := by
    cases hpb with
    | refl _ => rfl
    | step ha hb hor _ =>
      rw [ht] at ha; cases ha
      rcases hor with hor | hor
      · rw [h1] at hor; cases hor
      · exact absurd (hor.trans h2) (hn _ (List.mem_of_getElem? hb))
  subst this
  obtain ⟨s, _, r, hs, _, hr, _⟩ := hbq
  rw [ht] at hs; cases hs
  rw [h3] at hr; cases hr

/-- Where no protected resource has a chain of providers, a destroy that excludes protected resources deletes exactly what
no protected resource requires. The engine never stops because of the targets, and what is left of the checkpoint is
intact. -/
theorem exclude_protected_destroys_the_rest (E : Env) (rs : List State) (inputs : Nat → List String) (differ : Differ)
    (targetDeps preview : Bool) (h : Intact E rs) (hse : Settled rs)
    (hc : ∀ i s, rs[i]? = some s → s.protect = true → NoProviderChain rs i) :
    ∃ N, ∀ fuel, N ≤ fuel → ∀ order : Nat → List String, (∀ i, WalksAll rs (order i)) →
      ∃ targets r, excludeProtected rs fuel order = some targets ∧
        generateDeletes rs nothingSeen inputs differ targetDeps preview (some targets) = some r ∧
        match r with
        | .error e => ∃ j keys, differ j keys = .error e
        | .bail => False
        | .deletes l sawError => sawError = false ∧
            (∀ k, (∃ d ∈ l, d.pos = k) ↔ k < rs.length ∧ ¬ Kept rs k) ∧ Intact E (without rs l) := by
  have ho := settled_once h hse
  obtain ⟨N, hN⟩ := exclude_protected_spares_partial E rs h hse
  refine ⟨N, fun fuel hf order hw => ?_⟩
  obtain ⟨targets, h1, h2, h3⟩ := hN fuel hf order hw
  have hnk : ∀ i s, rs[i]? = some s → s.urn ∈ targets → ¬ Kept rs i := by
    rintro i s hs hm ⟨p, t, hp, hpr, hr⟩
    exact h3 p t i s hp hpr hs (requires_found (hc p t hp hpr) hr (.inl (.refl hp))) hm
  have himp : ∀ k, k < rs.length → (Implicated rs targets k ↔ ¬ Kept rs k) := by
    intro k hk
    refine ⟨implicated_not_kept hnk, fun hn => ?_⟩
    have hs : rs[k]? = some rs[k] := List.getElem?_eq_getElem hk
    exact .target hs (Decidable.byContradiction fun hm => hn (h2 k _ hs hm))
  have hin : ∀ k s, rs[k]? = some s → Implicated rs targets k → s.urn ∈ targets := by
    intro k s hs hi
    have := (himp k (List.getElem?_eq_some_iff.1 hs).1).1 hi
    exact Decidable.byContradiction fun hm => this (h2 k s hs hm)
  obtain ⟨r, hr, hrs⟩ := targeted_deletes_are_exact E rs nothingSeen inputs differ targetDeps preview targets h hse
  have hurn : ∀ d, Dropped nothingSeen rs d → ∃ s, rs[d.pos]? = some s ∧ d.urn rs = s.urn := by
    intro d hd
    obtain ⟨s, hs⟩ := dropped_get hd
    exact ⟨s, hs, by simp [Deletion.urn, hs]⟩
  refine ⟨targets, r, h1, hr, ?_⟩
  cases r with
  | error e => exact hrs
  | bail =>
    obtain ⟨_, _, d, hd, hi, hn⟩ := hrs
    obtain ⟨s, hs, e⟩ := hurn d hd
    exact hn (e ▸ hin _ s hs hi)
  | deletes l sawError =>
    obtain ⟨_, hmem, hsaw, _⟩ := hrs
    obtain ⟨hpos, hint⟩ := targeted_destroy_leaves_an_intact_stack E rs inputs differ targetDeps preview sawError targets l h
      hse hr
    refine ⟨?_, ?_, hint⟩
    · cases hb : sawError with
      | false => rfl
      | true =>
        obtain ⟨_, d, hd, hn⟩ := hsaw.1 hb
        obtain ⟨hdr, hi⟩ := (hmem d).1 hd
        obtain ⟨s, hs, e⟩ := hurn d hdr
        exact absurd (e ▸ hin _ s hs hi) hn
    · intro k
      rw [hpos]
      exact and_congr_right (himp k)

/-- The shop with its resource `a` protected. -/
def guarded : List State := shop.map (fun s => { s with protect := decide (s.urn = "a") })

theorem guarded_simple (i : Nat) : NoProviderChain guarded i := by
  refine no_chain_of_simple (by decide) ?_ i
  rintro a p t ⟨s, t', r, hs, ht', hr, e⟩ ht
  rw [ht] at ht'; cases ht'
  have hmem := List.mem_of_getElem? hs
  have htm := List.mem_of_getElem? ht
  have hrP : r.urn = "P" := by
    have key : ∀ x ∈ guarded, ∀ r, x.provider = .ref r → r.urn = "P" := by
      intro x hx r hr
      simp [guarded, shop, provider, plain, component] at hx
      rcases hx with rfl | rfl | rfl | rfl | rfl <;> cases hr
      rfl
    exact key s hmem r hr
  have key2 : ∀ x ∈ guarded, x.urn = "P" → x.deps = [] ∧ x.parent = "" ∧ x.provider = .none := by decide
  exact key2 t htm (e ▸ hrP)

def alphabetic : Nat → List String := fun _ => ["C", "P", "a", "b", "d"]

example : Intact exampleEnv guarded ∧ Settled guarded ∧ WalksAll guarded (alphabetic 0) ∧
    (∀ i s, guarded[i]? = some s → s.protect = true → NoProviderChain guarded i) ∧
    excludeProtected guarded 12 alphabetic = some ["C", "b", "d"] ∧
    generateDeletes guarded nothingSeen (fun _ => []) (fun _ _ => .ok false) false false (some ["C", "b", "d"]) =
      some (.deletes [.gone 4, .gone 3, .gone 2] false) := by
  refine ⟨by decide, by decide, ⟨by decide, fun u => ?_⟩, fun i _ _ _ => guarded_simple i, by decide +kernel, by decide +kernel⟩
  simp [guarded, shop, provider, plain, component, alphabetic, eq_comm]
  constructor
  · rintro (rfl | rfl | rfl | rfl | rfl) <;> simp
  · rintro (rfl | rfl | rfl | rfl | rfl) <;> simp

/-! ## Chains of providers -/

/-- More fuel does not change a search that has come to an end. -/
theorem mark_more (rs : List State) : ∀ fuel,
    (∀ u m m', mark rs fuel u m = some m' → mark rs (fuel + 1) u m = some m') ∧
    (∀ s m m', markRest rs fuel s m = some m' → markRest rs (fuel + 1) s m = some m') ∧
    (∀ ds m m', markAll rs fuel ds m = some m' → markAll rs (fuel + 1) ds m = some m') := by
  intro fuel
  induction fuel with
  | zero =>
    refine ⟨?_, ?_, ?_⟩
    · intro u m m' h; unfold mark at h; cases h
    · intro s m m' h; unfold markRest at h; cases h
    · intro ds m m' h; unfold markAll at h; cases h
  | succ fuel ih =>
    obtain ⟨ih1, ih2, ih3⟩ := ih
    refine ⟨?_, ?_, ?_⟩
    · intro u m m' h
      unfold mark at h ⊢
      cases hn : nodeOf rs u with
      | none => rw [hn] at h; cases h
      | some i =>
        rw [hn] at h; simp only at h ⊢
        cases hs : rs[i]? with
        | none => rw [hs] at h; cases h
        | some s =>
          rw [hs] at h; simp only at h ⊢
          cases hp : s.provider with
          | malformed x => rw [hp] at h; cases h
          | none => rw [hp] at h; exact ih2 _ _ _ h
          | ref r => rw [hp] at h; exact ih2 _ _ _ h
    · intro s m m' h
      unfold markRest at h ⊢
      cases ha : markAll rs fuel s.deps m with
      | none => rw [ha] at h; cases h
      | some m1 =>
        rw [ha] at h
        rw [ih3 _ _ _ ha]; simp only at h ⊢
        by_cases hc : ((nodeOf rs s.parent).isSome && !decide (s.parent ∈ m1.marked)) = true
        · rw [if_pos hc] at h ⊢; exact ih1 _ _ _ h
        · rw [if_neg hc] at h ⊢; exact h
    · intro ds m m' h
      cases ds with
      | nil => unfold markAll at h ⊢; exact h
      | cons d ds =>
        unfold markAll at h ⊢
        cases hm : mark rs fuel d m with
        | none => rw [hm] at h; cases h
        | some m1 =>
          rw [hm] at h
          rw [ih1 _ _ _ hm]; simp only at h ⊢
          exact ih3 _ _ _ h

theorem markProviders_more {rs : List State} {fuel : Nat} : ∀ (order : List String) (m m' : Marks),
    markProviders rs fuel order m = some m' → markProviders rs (fuel + 1) order m = some m' := by
  intro order
  induction order with
  | nil => intro m m' h; exact h
  | cons u us ih =>
    intro m m' h
    unfold markProviders at h ⊢
    by_cases hu : u ∈ m.providers
    · rw [if_pos hu] at h ⊢
      cases hm : mark rs fuel u m with
      | none => rw [hm] at h; cases h
      | some m1 =>
        rw [hm] at h
        rw [(mark_more rs fuel).1 _ _ _ hm]; simp only at h ⊢
        exact ih _ _ h
    · rw [if_neg hu] at h ⊢; exact ih _ _ h

theorem transitive_more {rs : List State} {fuel : Nat} {order : List String} {i : Nat} {l : List Nat}
    (h : transitiveDependenciesOf rs fuel order i = some l) : transitiveDependenciesOf rs (fuel + 1) order i = some l := by
  unfold transitiveDependenciesOf at h ⊢
  cases hs : rs[i]? with
  | none => rw [hs] at h; cases h
  | some s =>
    rw [hs] at h; simp only at h ⊢
    cases h1 : mark rs fuel s.urn ⟨[], []⟩ with
    | none => rw [h1] at h; cases h
    | some m =>
      rw [h1] at h; rw [(mark_more rs fuel).1 _ _ _ h1]; simp only at h ⊢
      cases h2 : markProviders rs fuel order m with
      | none => rw [h2] at h; cases h
      | some m' => rw [h2] at h; rw [markProviders_more _ _ _ h2]; exact h

theorem sparedFrom_more {rs : List State} {fuel : Nat} {order : Nat → List String} : ∀ (is sp : List Nat),
    sparedFrom rs fuel order is = some sp → sparedFrom rs (fuel + 1) order is = some sp := by
  intro is
  induction is with
  | nil => intro sp h; exact h
  | cons i is ih =>
    intro sp h
    unfold sparedFrom at h ⊢
    cases hs : rs[i]? with
    | none => rw [hs] at h; cases h
    | some s =>
      rw [hs] at h; simp only at h ⊢
      by_cases hp : s.protect = true
      · rw [if_pos hp] at h ⊢
        cases h1 : transitiveDependenciesOf rs fuel (order i) i with
        | none => rw [h1] at h; cases h
        | some l =>
          cases h2 : sparedFrom rs fuel order is with
          | none => rw [h1, h2] at h; cases h
          | some l' => rw [h1, h2] at h; rw [transitive_more h1, ih _ h2]; exact h
      · rw [if_neg hp] at h ⊢; exact ih _ h

theorem excludeProtected_more {rs : List State} {order : Nat → List String} {N : Nat} {targets : List String}
    (h : excludeProtected rs N order = some targets) : ∀ fuel, N ≤ fuel → excludeProtected rs fuel order = some targets := by
  intro fuel hf
  obtain ⟨k, rfl⟩ := Nat.le.dest hf
  clear hf
  induction k with
  | zero => exact h
  | succ k ih =>
    unfold excludeProtected at ih ⊢
    cases h1 : spared rs (N + k) order with
    | none => rw [h1] at ih; cases ih
    | some sp => rw [h1] at ih; rw [show spared rs (N + (k + 1)) order = some sp from sparedFrom_more _ _ h1]; exact ih

/-- A provider `Q`, a cluster `x` of it, a provider `P` that depends on the cluster, and a protected resource of `P`. -/
def cluster : List State :=
  [provider "Q", plain "x" "" [] (.ref ⟨"Q", "id"⟩), provider "P" ["x"],
   { plain "r" "" [] (.ref ⟨"P", "id"⟩) with protect := true }]

/-- With a chain of providers it is a matter of the order in which Go walks its map whether the last of them is spared. In
one order nothing is to be destroyed. In another the provider that the cluster of the protected resource's provider needs
is a target: the engine then refuses to destroy anything, or, when dependents of targets are asked for, sets out to destroy
the whole stack, with the protected resource. -/
theorem exclude_protected_may_doom_a_provider :
    ∃ (E : Env) (rs : List State) (good bad : Nat → List String), Intact E rs ∧ Settled rs ∧ (∀ i, WalksAll rs (good i)) ∧
      (∀ i, WalksAll rs (bad i)) ∧ (∃ s, rs[3]? = some s ∧ s.protect = true ∧ Requires rs 3 0) ∧
      (∃ N, ∀ fuel, N ≤ fuel → excludeProtected rs fuel good = some [] ∧ excludeProtected rs fuel bad = some ["Q"]) ∧
      generateDeletes rs nothingSeen (fun _ => []) (fun _ _ => .ok false) false false (some ["Q"]) = some .bail ∧
      generateDeletes rs nothingSeen (fun _ => []) (fun _ _ => .ok false) true false (some ["Q"]) =
        some (.deletes [.gone 3, .gone 2, .gone 1, .gone 0] false) := by
  have hw : ∀ l : List String, l.Nodup → (∀ u, u ∈ l ↔ u = "Q" ∨ u = "x" ∨ u = "P" ∨ u = "r") → WalksAll cluster l := by
    intro l hl hm
    refine ⟨hl, fun u => ?_⟩
    rw [hm]
    simp [cluster, provider, plain, eq_comm]
  refine ⟨exampleEnv, cluster, fun _ => ["P", "Q", "r", "x"], fun _ => ["Q", "P", "r", "x"], by decide, by decide,
    fun _ => hw _ (by simp) ?_, fun _ => hw _ (by simp) ?_, ⟨_, rfl, rfl, ?_⟩, ⟨12, ?_⟩, ?_⟩
  · intro u; simp; constructor
    · rintro (h | h | h | h) <;> simp [h]
    · rintro (h | h | h | h) <;> simp [h]
  · intro u; simp; constructor
    · rintro (h | h | h | h) <;> simp [h]
    · rintro (h | h | h | h) <;> simp [h]
  · refine .step (b := 2) rfl rfl (.inl (.inr ⟨_, rfl, rfl⟩)) (.step (b := 1) rfl rfl (.inl (.inl (by decide)))
      (.step (b := 0) rfl rfl (.inl (.inr ⟨_, rfl, rfl⟩)) (.refl rfl)))
  · intro fuel hf
    exact ⟨excludeProtected_more (by decide +kernel) fuel hf, excludeProtected_more (by decide +kernel) fuel hf⟩
  · exact ⟨by decide +kernel, by decide +kernel⟩

end Pulumi.DepGraph
